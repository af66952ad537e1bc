import Verif.Spec.Hyper
import Verif.Proofs.PyLemmas

/-!
# Lemmas on reading hyperparameters
-/

namespace Verif

/-- Both fail alike or both succeed with related results. -/
inductive ResRel {α β : Type} (R : α → β → Prop) : Res α → Res β → Prop where
  | error (e : Err) : ResRel R (.error e) (.error e)
  | ok {a : α} {b : β} (h : R a b) : ResRel R (.ok a) (.ok b)

theorem ResRel.eq {α : Type} {x y : Res α} (h : ResRel Eq x y) : x = y := by
  cases h with
  | error e => rfl
  | ok h => rw [h]

theorem ResRel.of_eq {α : Type} {x y : Res α} (h : x = y) : ResRel Eq x y := by
  subst h
  cases x with
  | error e => exact .error e
  | ok a => exact .ok rfl

theorem ResRel.bind {α β γ δ : Type} {R : α → β → Prop} {S : γ → δ → Prop} {x : Res α} {y : Res β}
    {f : α → Res γ} {g : β → Res δ} (h : ResRel R x y) (hf : ∀ a b, R a b → ResRel S (f a) (g b)) :
    ResRel S (x >>= f) (y >>= g) := by
  cases h with
  | error e => exact .error e
  | ok h => exact hf _ _ h

theorem bindEq {α β γ : Type} {R : α → β → Prop} {x : Res α} {y : Res β}
    {f : α → Res γ} {g : β → Res γ} (h : ResRel R x y) (hf : ∀ a b, R a b → f a = g b) :
    (x >>= f) = (y >>= g) := by
  cases h with
  | error e => rfl
  | ok h => exact hf _ _ h

theorem bindSame {α γ : Type} {x y : Res α} {f g : α → Res γ} (h : x = y) (hf : ∀ a, f a = g a) :
    (x >>= f) = (y >>= g) := by
  subst h
  cases x with
  | error e => rfl
  | ok a => exact hf a

theorem JV.get_ok {k : Str} {j v : JV} : j.get k = .ok v ↔ ∃ l, j = .obj l ∧ assocGet k l = some v := by
  cases j with
  | obj l =>
    simp only [JV.get, JV.obj.injEq, exists_eq_left']
    cases assocGet k l with
    | none => simp
    | some x => simp
  | _ => simp [JV.get]

theorem SameFor.refl (s : Schema) (a : JV) : SameFor s a a := by
  cases s with
  | all => rfl
  | keys known sub => exact .inl rfl

theorem SameFor.get {known : Str → Prop} {sub : Str → Schema} {a b : JV} (h : SameFor (.keys known sub) a b) {k : Str}
    (hk : known k) : ResRel (SameFor (sub k)) (a.get k) (b.get k) := by
  rcases h with rfl | ⟨l, l', rfl, rfl, h⟩
  · cases hx : a.get k with
    | error e => exact .error e
    | ok v => exact .ok (SameFor.refl _ _)
  · rcases h k hk with ⟨h1, h2⟩ | ⟨x, y, h1, h2, h3⟩
    · simp only [JV.get, h1, h2]
      exact .error _
    · simp only [JV.get, h1, h2]
      exact .ok h3

theorem SameFor.getD {known : Str → Prop} {sub : Str → Schema} {a b : JV} (h : SameFor (.keys known sub) a b) {k : Str}
    (hk : known k) (d : JV) : ResRel (SameFor (sub k)) (a.getD k d) (b.getD k d) := by
  rcases h with rfl | ⟨l, l', rfl, rfl, h⟩
  · cases hx : a.getD k d with
    | error e => exact .error e
    | ok v => exact .ok (SameFor.refl _ _)
  · rcases h k hk with ⟨h1, h2⟩ | ⟨x, y, h1, h2, h3⟩
    · simp only [JV.getD, h1, h2]
      exact .ok (SameFor.refl _ _)
    · simp only [JV.getD, h1, h2]
      exact .ok h3

theorem SameFor.has {known : Str → Prop} {sub : Str → Schema} {a b : JV} (h : SameFor (.keys known sub) a b) {k : Str}
    (hk : known k) : a.has k = b.has k := by
  rcases h with rfl | ⟨l, l', rfl, rfl, h⟩
  · rfl
  · rcases h k hk with ⟨h1, h2⟩ | ⟨x, y, h1, h2, h3⟩ <;> simp [JV.has, h1, h2]

theorem SameFor.of_get {l : List (Str × Schema)} {a b : JV} (h : SameFor (.of l) a b) {k : Str} {s : Schema}
    (hk : assocGet k l = some s) : ResRel (SameFor s) (a.get k) (b.get k) := by
  have hm : k ∈ l.map Prod.fst := by
    by_contra hc
    rw [assocGet_none.mpr hc] at hk
    cases hk
  have := SameFor.get h hm
  simpa only [hk, Option.getD_some] using this

theorem SameFor.of_getD {l : List (Str × Schema)} {a b : JV} (h : SameFor (.of l) a b) {k : Str} {s : Schema}
    (hk : assocGet k l = some s) (d : JV) : ResRel (SameFor s) (a.getD k d) (b.getD k d) := by
  have hm : k ∈ l.map Prod.fst := by
    by_contra hc
    rw [assocGet_none.mpr hc] at hk
    cases hk
  have := SameFor.getD h hm d
  simpa only [hk, Option.getD_some] using this

theorem SameFor.of_has {l : List (Str × Schema)} {a b : JV} (h : SameFor (.of l) a b) {k : Str} {s : Schema}
    (hk : assocGet k l = some s) : a.has k = b.has k := by
  refine SameFor.has h ?_
  by_contra hc
  rw [assocGet_none.mpr hc] at hk
  cases hk

theorem assocGet_plain {l : List String} {k : String} (h : k ∈ l) :
    assocGet k.toList (l.map (fun k => (k.toList, Schema.all))) = some .all := by
  induction l with
  | nil => cases h
  | cons x xs ih =>
    simp only [List.map_cons, assocGet]
    split
    · rfl
    · rename_i hne
      rcases List.mem_cons.mp h with rfl | h
      · exact absurd rfl hne
      · exact ih h

theorem SameFor.plain_get {l : List String} {a b : JV} (h : SameFor (.plain l) a b) (k : String) (hk : k ∈ l) :
    a.get k.toList = b.get k.toList :=
  (SameFor.of_get h (assocGet_plain hk) : ResRel Eq _ _).eq

theorem SameFor.plain_getD {l : List String} {a b : JV} (h : SameFor (.plain l) a b) (k : String) (hk : k ∈ l)
    (d : JV) : a.getD k.toList d = b.getD k.toList d :=
  (SameFor.of_getD h (assocGet_plain hk) d : ResRel Eq _ _).eq

theorem SameFor.plain_has {l : List String} {a b : JV} (h : SameFor (.plain l) a b) (k : String) (hk : k ∈ l) :
    a.has k.toList = b.has k.toList := SameFor.of_has h (assocGet_plain hk)

theorem optPart_same {β : Type} {l : List (Str × Schema)} {a b : JV} (h : SameFor (.of l) a b) {k : Str} {s : Schema}
    (hk : assocGet k l = some s) {f : JV → Res β} (hf : ∀ x y, SameFor s x y → f x = f y) :
    optPart a k f = optPart b k f := by
  unfold optPart
  refine bindSame (SameFor.of_has h hk) (fun x => ?_)
  cases x with
  | false => rfl
  | true => exact bindEq (SameFor.of_get h hk) (fun x y hxy => by simp only [hf x y hxy])

section leaves
variable {a b : JV}

theorem checkWord_same (h : SameFor (.plain ["path", "lowercase", "trainable", "we_dense_size"]) a b) :
    checkWord a = checkWord b := by
  unfold checkWord
  rw [h.plain_get "path" (by simp), h.plain_get "lowercase" (by simp)]

theorem checkTrained_same (h : SameFor (.plain ["min_frequency", "lowercase", "size", "trainable"]) a b) :
    checkTrained a = checkTrained b := by
  unfold checkTrained
  rw [h.plain_get "min_frequency" (by simp), h.plain_get "lowercase" (by simp)]

theorem checkSubword_same (h : SameFor subwordSchema a b) : checkSubword a = checkSubword b := by
  unfold checkSubword
  rw [h.plain_has "embedding_path" (by simp)]

theorem segmenterOf_same' {l : List String} (h1 : "segmenter" ∈ l) (h2 : "segmenter_config" ∈ l) (w : Outside)
    (h : SameFor (.plain l) a b) : segmenterOf w a = segmenterOf w b := by
  unfold segmenterOf
  rw [h.plain_get "segmenter" h1, h.plain_getD "segmenter_config" h2]

theorem subwordProvider_same (w : Outside) (name : Str) (h : SameFor subwordSchema a b) :
    subwordProvider w name a = subwordProvider w name b := by
  unfold subwordProvider
  rw [h.plain_has "embedding_path" (by simp), h.plain_get "embedding_path" (by simp),
    h.plain_get "min_frequency" (by simp), segmenterOf_same' (by simp) (by simp) w h]

theorem wordProvider_same (w : Outside) (h : SameFor (.plain ["path", "lowercase", "trainable", "we_dense_size"]) a b) :
    wordProvider w a = wordProvider w b := by
  unfold wordProvider
  rw [h.plain_get "path" (by simp), h.plain_get "lowercase" (by simp)]

theorem trainedProvider_same (h : SameFor (.plain ["min_frequency", "lowercase", "size", "trainable"]) a b) :
    trainedProvider a = trainedProvider b := by
  unfold trainedProvider
  rw [h.plain_get "min_frequency" (by simp), h.plain_get "lowercase" (by simp)]

theorem aggregatorOf_same (h : SameFor subwordSchema a b) : aggregatorOf a = aggregatorOf b := by
  unfold aggregatorOf
  rw [h.plain_get "aggregator" (by simp), h.plain_getD "aggregator_config" (by simp)]

theorem subwordCfgOf_same (shapes : Dict Str Shape) (name : Str) (h : SameFor subwordSchema a b) :
    subwordCfgOf shapes name a = subwordCfgOf shapes name b := by
  unfold subwordCfgOf
  rw [h.plain_has "embedding_path" (by simp), h.plain_getD "highway_layer" (by simp), h.plain_get "trainable" (by simp),
    h.plain_get "embed_size" (by simp), aggregatorOf_same h]

theorem wordCfgOf_same (shapes : Dict Str Shape)
    (h : SameFor (.plain ["path", "lowercase", "trainable", "we_dense_size"]) a b) :
    wordCfgOf shapes a = wordCfgOf shapes b := by
  unfold wordCfgOf
  rw [h.plain_has "we_dense_size" (by simp), h.plain_get "we_dense_size" (by simp), h.plain_get "trainable" (by simp)]

theorem trainedCfgOf_same (h : SameFor (.plain ["min_frequency", "lowercase", "size", "trainable"]) a b) :
    trainedCfgOf a = trainedCfgOf b := by
  unfold trainedCfgOf
  rw [h.plain_get "size" (by simp), h.plain_get "trainable" (by simp)]

theorem optimizerName_same (h : SameFor optimizerSchema a b) : optimizerName a = optimizerName b := by
  unfold optimizerName
  rw [h.plain_has "type" (by simp), h.plain_get "type" (by simp)]

end leaves

/-- The features of `sharedSchema`. -/
def featuresSchema : Schema := .of
  [("word_embedding".toList, .plain ["path", "lowercase", "trainable", "we_dense_size"]),
   ("word_trained_embedding".toList, .plain ["min_frequency", "lowercase", "size", "trainable"]),
   ("word_characters".toList, subwordSchema),
   ("bpe_subwords".toList, subwordSchema),
   ("morfessor_subwords".toList, subwordSchema)]

section features
variable {a b : JV} (h : SameFor featuresSchema a b)
include h

theorem optWord_same {β : Type} {f : JV → Res β}
    (hf : ∀ x y, SameFor (.plain ["path", "lowercase", "trainable", "we_dense_size"]) x y → f x = f y) :
    optPart a "word_embedding".toList f = optPart b "word_embedding".toList f := optPart_same h (by rfl) hf

theorem optTrained_same {β : Type} {f : JV → Res β}
    (hf : ∀ x y, SameFor (.plain ["min_frequency", "lowercase", "size", "trainable"]) x y → f x = f y) :
    optPart a "word_trained_embedding".toList f = optPart b "word_trained_embedding".toList f := optPart_same h (by rfl) hf

theorem optChars_same {β : Type} {f : JV → Res β} (hf : ∀ x y, SameFor subwordSchema x y → f x = f y) :
    optPart a "word_characters".toList f = optPart b "word_characters".toList f := optPart_same h (by rfl) hf

theorem optBpe_same {β : Type} {f : JV → Res β} (hf : ∀ x y, SameFor subwordSchema x y → f x = f y) :
    optPart a "bpe_subwords".toList f = optPart b "bpe_subwords".toList f := optPart_same h (by rfl) hf

theorem optMorfessor_same {β : Type} {f : JV → Res β} (hf : ∀ x y, SameFor subwordSchema x y → f x = f y) :
    optPart a "morfessor_subwords".toList f = optPart b "morfessor_subwords".toList f := optPart_same h (by rfl) hf

theorem checkFeatures_same : checkFeatures a = checkFeatures b := by
  unfold checkFeatures
  rw [optWord_same h (fun _ _ => checkWord_same), optTrained_same h (fun _ _ => checkTrained_same),
    optChars_same h (fun _ _ => checkSubword_same), optBpe_same h (fun _ _ => checkSubword_same),
    optMorfessor_same h (fun _ _ => checkSubword_same)]

theorem sharedProviders_same (w : Outside) : sharedProviders w a = sharedProviders w b := by
  unfold sharedProviders
  rw [optWord_same h (fun _ _ => wordProvider_same w), optTrained_same h (fun _ _ => trainedProvider_same),
    optChars_same h (fun _ _ => subwordProvider_same w _), optBpe_same h (fun _ _ => subwordProvider_same w _),
    optMorfessor_same h (fun _ _ => subwordProvider_same w _)]

theorem sharedCfgOf_same (shapes : Dict Str Shape) : sharedCfgOf shapes a = sharedCfgOf shapes b := by
  unfold sharedCfgOf
  rw [optWord_same h (fun _ _ => wordCfgOf_same shapes), optTrained_same h (fun _ _ => trainedCfgOf_same),
    optChars_same h (fun _ _ => subwordCfgOf_same shapes _), optBpe_same h (fun _ _ => subwordCfgOf_same shapes _),
    optMorfessor_same h (fun _ _ => subwordCfgOf_same shapes _)]

end features

/-- The configuration of the layers of `sharedSchema`. -/
abbrev sharedConfigKeys : List String :=
  ["lstm_cell_size", "bilstm_layer_count", "skip_connection", "cnn_kernels", "sparse_input_prob"]

theorem checkSharedConfig_same {a b : JV} (h : SameFor (.plain sharedConfigKeys) a b) (n : SharedName) :
    checkSharedConfig a n = checkSharedConfig b n := by
  cases n <;> simp only [checkSharedConfig, h.plain_get "lstm_cell_size" (by simp),
    h.plain_getD "skip_connection" (by simp), h.plain_getD "bilstm_layer_count" (by simp),
    h.plain_get "cnn_kernels" (by simp), h.plain_getD "cnn_kernels" (by simp)]

theorem sharedKindOf_same {a b : JV} (h : SameFor (.plain sharedConfigKeys) a b) (n : SharedName) :
    sharedKindOf a n = sharedKindOf b n := by
  cases n <;> simp only [sharedKindOf, h.plain_get "lstm_cell_size" (by simp),
    h.plain_getD "skip_connection" (by simp), h.plain_getD "bilstm_layer_count" (by simp),
    h.plain_get "cnn_kernels" (by simp), h.plain_getD "cnn_kernels" (by simp)]

section shared
variable {a b : JV} (h : SameFor sharedSchema a b)
include h

theorem shared_builder : a.get "builder".toList = b.get "builder".toList :=
  (SameFor.of_get h (s := .all) (by rfl) : ResRel Eq _ _).eq

theorem shared_config : ResRel (SameFor (.plain sharedConfigKeys)) (a.get "config".toList) (b.get "config".toList) :=
  SameFor.of_get h (by rfl)

theorem shared_features : ResRel (SameFor featuresSchema) (a.getD "features_config".toList (.obj []))
    (b.getD "features_config".toList (.obj [])) :=
  SameFor.of_getD h (by rfl) _

theorem checkShared_same : checkShared a = checkShared b := by
  unfold checkShared
  refine bindSame (shared_builder h) (fun _ => bindSame rfl (fun n => ?_))
  refine bindEq (shared_config h) (fun c c' hc => bindEq (shared_features h) (fun f f' hf => ?_))
  rw [checkFeatures_same hf, checkSharedConfig_same hc]

end shared

/-- The configuration of `taskSchema`. -/
abbrev taskConfigKeys : List String :=
  ["shared_name", "dense_size", "loss_weights", "splitting", "cnn_bilstm_dense_size", "cnn_kernels"]

/-- The features of `taskSchema`. -/
def taskFeaturesSchema : Schema := .of
  [("lemma_suffix_transformation".toList, .plain ["rules_threshold"]),
   ("input_subwords".toList, subwordSchema),
   ("output_subwords".toList, .plain ["min_frequency", "max_word_length", "segmenter", "segmenter_config"])]

section tasks
variable {c c' fc fc' : JV} (h : SameFor (.plain taskConfigKeys) c c') (hf : SameFor taskFeaturesSchema fc fc')

include h in
theorem checkDense_same : checkDense c = checkDense c' := by
  simp only [checkDense, h.plain_get "shared_name" (by simp), h.plain_get "dense_size" (by simp),
    h.plain_getD "loss_weights" (by simp)]

include hf

theorem rules_same : ResRel (SameFor (.plain ["rules_threshold"])) (fc.get "lemma_suffix_transformation".toList)
    (fc'.get "lemma_suffix_transformation".toList) := SameFor.of_get hf (by rfl)

theorem inputs_same : ResRel (SameFor subwordSchema) (fc.get "input_subwords".toList)
    (fc'.get "input_subwords".toList) := SameFor.of_get hf (by rfl)

theorem outputs_same : ResRel (SameFor (.plain ["min_frequency", "max_word_length", "segmenter", "segmenter_config"]))
    (fc.get "output_subwords".toList) (fc'.get "output_subwords".toList) := SameFor.of_get hf (by rfl)

theorem rulesProvider_same : rulesProvider fc = rulesProvider fc' := by
  unfold rulesProvider
  exact bindEq (rules_same hf) (fun x y hxy => by rw [hxy.plain_get "rules_threshold" (by simp)])

include h

theorem checkTaskConfig_same (t : Task) : checkTaskConfig c fc t = checkTaskConfig c' fc' t := by
  cases t with
  | posDense => simp only [checkTaskConfig, checkDense_same h, h.plain_get "splitting" (by simp)]
  | lemmaDense => simp only [checkTaskConfig, checkDense_same h]
  | lemmaSuffix =>
    simp only [checkTaskConfig, checkDense_same h]
    exact bindSame rfl (fun _ => bindEq (rules_same hf) (fun _ _ _ => rfl))
  | lemmaCombo =>
    simp only [checkTaskConfig, h.plain_get "shared_name" (by simp), h.plain_get "cnn_bilstm_dense_size" (by simp),
      h.plain_get "cnn_kernels" (by simp), h.plain_getD "loss_weights" (by simp)]
    refine bindSame rfl (fun _ => bindEq (inputs_same hf) (fun x y hxy => ?_))
    rw [hxy.plain_get "embed_size" (by simp)]
    refine bindSame rfl (fun _ => bindSame rfl (fun _ => bindSame rfl (fun _ => ?_)))
    refine bindEq (outputs_same hf) (fun x y hxy => ?_)
    rw [hxy.plain_get "max_word_length" (by simp)]
  | lemmaBinary =>
    simp only [checkTaskConfig, h.plain_get "shared_name" (by simp), h.plain_get "dense_size" (by simp)]
    exact bindSame rfl (fun _ => bindSame rfl (fun _ => bindEq (rules_same hf) (fun _ _ _ => rfl)))

theorem taskProvidersOf_same (w : Outside) (t : Task) : taskProvidersOf w c fc t = taskProvidersOf w c' fc' t := by
  cases t with
  | posDense => simp only [taskProvidersOf, h.plain_get "splitting" (by simp)]
  | lemmaDense => rfl
  | lemmaSuffix => exact rulesProvider_same hf
  | lemmaBinary => exact rulesProvider_same hf
  | lemmaCombo =>
    simp only [taskProvidersOf]
    refine bindEq (outputs_same hf) (fun x y hxy => ?_)
    have : lemmaCharsProvider w x = lemmaCharsProvider w y := by
      unfold lemmaCharsProvider
      rw [hxy.plain_get "min_frequency" (by simp), hxy.plain_get "max_word_length" (by simp),
        segmenterOf_same' (by simp) (by simp) w hxy]
    rw [this]
    refine bindSame rfl (fun _ => bindEq (inputs_same hf) (fun x y hxy => ?_))
    rw [subwordProvider_same w _ hxy]

theorem taskReadOf_same (shapes : Dict Str Shape) (t : Task) : taskReadOf shapes c fc t = taskReadOf shapes c' fc' t := by
  have hw : weightsOf c = weightsOf c' := by
    unfold weightsOf
    rw [h.plain_getD "loss_weights" (by simp)]
  have hd : ∀ t, denseRead shapes c t = denseRead shapes c' t := by
    intro t
    simp only [denseRead, h.plain_get "shared_name" (by simp), h.plain_get "dense_size" (by simp), hw]
  cases t with
  | posDense => exact hd _
  | lemmaDense => exact hd _
  | lemmaSuffix => exact hd _
  | lemmaBinary =>
    simp only [taskReadOf, binaryRead, h.plain_get "shared_name" (by simp), h.plain_get "dense_size" (by simp)]
  | lemmaCombo =>
    simp only [taskReadOf, comboRead, h.plain_get "shared_name" (by simp), h.plain_get "cnn_bilstm_dense_size" (by simp),
      h.plain_get "cnn_kernels" (by simp), hw]
    refine bindSame rfl (fun _ => bindSame rfl (fun _ => bindEq (inputs_same hf) (fun x y hxy => ?_)))
    rw [hxy.plain_get "embed_size" (by simp), hxy.plain_has "embedding_path" (by simp),
      hxy.plain_getD "highway_layer" (by simp)]

end tasks

section task
variable {a b : JV} (h : SameFor taskSchema a b)
include h

theorem task_builder : a.get "builder".toList = b.get "builder".toList :=
  (SameFor.of_get h (s := .all) (by rfl) : ResRel Eq _ _).eq

theorem task_config : ResRel (SameFor (.plain taskConfigKeys)) (a.get "config".toList) (b.get "config".toList) :=
  SameFor.of_get h (by rfl)

theorem task_features : ResRel (SameFor taskFeaturesSchema) (a.getD "features_config".toList (.obj []))
    (b.getD "features_config".toList (.obj [])) :=
  SameFor.of_getD h (by rfl) _

theorem checkTask_same : checkTask a = checkTask b := by
  unfold checkTask
  refine bindSame (task_builder h) (fun _ => bindSame rfl (fun n => ?_))
  exact bindEq (task_config h) (fun c c' hc => bindEq (task_features h) (fun f f' hf => checkTaskConfig_same hc hf n))

theorem taskProviders_same (w : Outside) : taskProviders w a = taskProviders w b := by
  unfold taskProviders
  refine bindSame (task_builder h) (fun _ => bindSame rfl (fun n => ?_))
  exact bindEq (task_config h) (fun c c' hc => bindEq (task_features h) (fun f f' hf => taskProvidersOf_same hc hf w n))

theorem taskRead_same (shapes : Dict Str Shape) : taskRead shapes a = taskRead shapes b := by
  unfold taskRead
  refine bindSame (task_builder h) (fun _ => bindSame rfl (fun n => ?_))
  exact bindEq (task_config h) (fun c c' hc => bindEq (task_features h) (fun f f' hf => taskReadOf_same hc hf shapes n))

end task

theorem checkEach_same {l l' : List JV} (h : List.Forall₂ (SameFor taskSchema) l l') : checkEach l = checkEach l' := by
  induction h with
  | nil => rfl
  | cons h _ ih => simp only [checkEach, checkTask_same h, ih]

theorem mapM'_same {β : Type} {f : JV → Res β} (hf : ∀ x y, SameFor taskSchema x y → f x = f y) {l l' : List JV}
    (h : List.Forall₂ (SameFor taskSchema) l l') : mapM' f l = mapM' f l' := by
  induction h with
  | nil => rfl
  | cons h _ ih => simp only [mapM', hf _ _ h, ih]

/-! ### The whole of it -/

theorem words_iter {t : JV} {l : List JV} (h : t.iter = .ok l) {x : JV} (hx : x ∈ l) {s : Str} (hs : x.key = .ok s) :
    s ∈ t.words := by
  have hxs : x = .str s := by
    cases x <;> simp [JV.key] at hs
    rw [hs]
  subst hxs
  cases t with
  | null => cases h
  | bool b => cases h
  | num q => cases h
  | arr l' =>
    simp only [JV.iter, Except.ok.injEq] at h
    subst h
    exact List.mem_filterMap.mpr ⟨_, hx, rfl⟩
  | str s' =>
    simp only [JV.iter, Except.ok.injEq] at h
    subst h
    simp only [List.mem_map, JV.str.injEq] at hx
    exact List.mem_map.mpr hx
  | obj l' =>
    simp only [JV.iter, Except.ok.injEq] at h
    subst h
    simp only [List.mem_map, JV.str.injEq] at hx
    exact List.mem_map.mpr hx

theorem ResRel.mono {α β : Type} {R S : α → β → Prop} {x : Res α} {y : Res β} (h : ResRel R x y)
    (hm : ∀ a b, R a b → S a b) : ResRel S x y := by
  cases h with
  | error e => exact .error e
  | ok h => exact .ok (hm _ _ h)

section whole
variable {ts : List Str} {j j' : JV}

theorem nn_same (h : SameFor (hyperSchema ts) j j') : ResRel (SameFor (nnSchema ts)) (hyperNN j) (hyperNN j') :=
  SameFor.of_get h (by rfl)

theorem nn_shared {a b : JV} (h : SameFor (nnSchema ts) a b) :
    ResRel (SameFor sharedSchema) (a.get "shared_part".toList) (b.get "shared_part".toList) := by
  refine (SameFor.get h (Or.inr (Or.inl rfl))).mono (fun x y hxy => ?_)
  rw [if_neg (by decide), if_pos rfl] at hxy
  split at hxy
  · rw [show x = y from hxy]
    exact SameFor.refl _ _
  · exact hxy

theorem nn_general {a b : JV} (h : SameFor (nnSchema ts) a b) :
    ResRel (SameFor (.of [("optimizer".toList, optimizerSchema)])) (a.get "general".toList) (b.get "general".toList) := by
  refine (SameFor.get h (Or.inl rfl)).mono (fun x y hxy => ?_)
  rw [if_pos rfl] at hxy
  split at hxy
  · rw [show x = y from hxy]
    exact SameFor.refl _ _
  · exact hxy

theorem nn_task {a b : JV} (h : SameFor (nnSchema ts) a b) {t : Str} (ht : t ∈ ts) :
    ResRel (SameFor taskSchema) (a.get t) (b.get t) := by
  refine (SameFor.get h (Or.inr (Or.inr ht))).mono (fun x y hxy => ?_)
  split at hxy
  · rw [show x = y from hxy]
    exact SameFor.refl _ _
  · split at hxy
    · rw [show x = y from hxy]
      exact SameFor.refl _ _
    · exact hxy

theorem shared_same (h : SameFor (hyperSchema ts) j j') : ResRel (SameFor sharedSchema) (hyperShared j) (hyperShared j') :=
  (nn_same h).bind (fun _ _ => nn_shared)

theorem features_same (h : SameFor (hyperSchema ts) j j') :
    ResRel (SameFor featuresSchema) (hyperSharedFeatures j) (hyperSharedFeatures j') :=
  (shared_same h).bind (fun _ _ => shared_features)

theorem optimizer_same (h : SameFor (hyperSchema ts) j j') :
    ResRel (SameFor optimizerSchema) (hyperOptimizer j) (hyperOptimizer j') :=
  (nn_same h).bind (fun _ _ hn => (nn_general hn).bind (fun _ _ hg => SameFor.of_get hg (by rfl)))

theorem top_get (h : SameFor (hyperSchema ts) j j') (k : Str)
    (hk : assocGet k
      ([("nn_config".toList, nnSchema ts), ("tasks".toList, .all), ("epochs".toList, .all), ("dropout".toList, .all),
        ("batch_size".toList, .all)] ++
       ["self", "documents", "dev_tester", "seed", "model_dir", "model_name_format"].map (fun k => (k.toList, .all))) =
      some .all) : j.get k = j'.get k := (SameFor.of_get h hk : ResRel Eq _ _).eq

theorem mapM'_rel {α β γ : Type} {S : β → γ → Prop} {f : α → Res β} {g : α → Res γ} {l : List α}
    (h : ∀ x ∈ l, ResRel S (f x) (g x)) : ResRel (List.Forall₂ S) (mapM' f l) (mapM' g l) := by
  induction l with
  | nil => exact .ok .nil
  | cons x xs ih =>
    have h1 := h x List.mem_cons_self
    have h2 := ih (fun y hy => h y (List.mem_cons_of_mem _ hy))
    simp only [mapM']
    generalize f x = u at h1
    generalize g x = v at h1
    generalize mapM' f xs = us at h2
    generalize mapM' g xs = vs at h2
    cases h1 with
    | error e => exact .error e
    | ok h1 =>
      cases h2 with
      | error e => exact .error e
      | ok h2 => exact .ok (.cons h1 h2)

theorem tasks_same (h : SameHyper j j') : ResRel (List.Forall₂ (SameFor taskSchema)) (hyperTasks j) (hyperTasks j') := by
  unfold hyperTasks
  refine (nn_same h).bind (fun a b hn => ?_)
  rw [← top_get h "tasks".toList (by rfl)]
  cases ht : j.get "tasks".toList with
  | error e => exact .error e
  | ok t =>
    cases hi : t.iter with
    | error e =>
      simp only [bind, Except.bind, hi]
      exact .error e
    | ok l =>
      simp only [bind, Except.bind, hi]
      have hts : taskNamesIn j = t.words := by
        obtain ⟨m, rfl, hm⟩ := JV.get_ok.mp ht
        simp only [taskNamesIn, hm]
      rw [hts] at hn
      refine mapM'_rel (fun x hx => ?_)
      unfold hyperTask
      cases hk : x.key with
      | error e => exact .error e
      | ok s => exact nn_task hn (words_iter hi hx hk)

theorem construct_same (h : SameHyper j j') : hyperConstruct j = hyperConstruct j' := by
  unfold hyperConstruct
  refine bindEq (tasks_same h) (fun l l' hl => bindEq (shared_same h) (fun a b hab => ?_))
  rw [checkShared_same hab, checkEach_same hl]
  refine bindSame rfl (fun _ => bindSame rfl (fun _ => bindEq (optimizer_same h) (fun _ _ _ => ?_)))
  refine bindEq (shared_config hab) (fun c c' hc => ?_)
  rw [hc.plain_getD "sparse_input_prob" (by simp)]

theorem providers_same (h : SameHyper j j') (w : Outside) : hyperProviders w j = hyperProviders w j' := by
  unfold hyperProviders
  refine bindEq (features_same h) (fun a b hab => ?_)
  rw [sharedProviders_same hab]
  refine bindSame rfl (fun _ => bindEq (tasks_same h) (fun l l' hl => ?_))
  rw [mapM'_same (fun _ _ hxy => taskProviders_same hxy w) hl]

theorem net_same (h : SameHyper j j') (shapes : Dict Str Shape) : hyperNet shapes j = hyperNet shapes j' := by
  unfold hyperNet
  refine bindEq (shared_same h) (fun a b hab => ?_)
  rw [shared_builder hab]
  refine bindSame rfl (fun _ => bindSame rfl (fun n => bindEq (shared_config hab) (fun c c' hc => ?_)))
  rw [sharedKindOf_same hc]
  refine bindSame rfl (fun _ => bindEq (features_same h) (fun f f' hf => ?_))
  rw [sharedCfgOf_same hf]
  refine bindSame rfl (fun _ => bindEq (tasks_same h) (fun l l' hl => ?_))
  rw [mapM'_same (fun _ _ hxy => taskRead_same hxy shapes) hl]
  refine bindSame rfl (fun _ => bindEq (optimizer_same h) (fun o o' ho => ?_))
  rw [optimizerName_same ho]

theorem keys_same (h : SameHyper j j') : hyperKeys j = hyperKeys j' := by
  have h1 : (do (← (← hyperOptimizer j).get "lr_decay".toList).number : Res Rat) =
      (do (← (← hyperOptimizer j').get "lr_decay".toList).number) :=
    bindEq (optimizer_same h) (fun o o' ho => by rw [ho.plain_get "lr_decay" (by simp)])
  have h2 : (do (← (← hyperOptimizer j).get "lr_decrease_factor".toList).number : Res Rat) =
      (do (← (← hyperOptimizer j').get "lr_decrease_factor".toList).number) :=
    bindEq (optimizer_same h) (fun o o' ho => by rw [ho.plain_get "lr_decrease_factor" (by simp)])
  unfold hyperKeys
  rw [h1, h2, top_get h "dropout".toList (by rfl), top_get h "batch_size".toList (by rfl)]

theorem initialLr_same (h : SameHyper j j') : hyperInitialLr j = hyperInitialLr j' :=
  bindEq (optimizer_same h) (fun o o' ho => by rw [ho.plain_get "initial_lr" (by simp)])

theorem pass_same (h : SameHyper j j') : passParams j = passParams j' := by
  rcases h with rfl | ⟨l, l', rfl, rfl, h⟩
  · rfl
  · have : ∀ k ∈ reservedArgs, (assocGet k l).isSome = (assocGet k l').isSome := by
      intro k hk
      have hm : k ∈ ([("nn_config".toList, nnSchema (taskNamesIn (.obj l))), ("tasks".toList, Schema.all),
          ("epochs".toList, .all), ("dropout".toList, .all), ("batch_size".toList, .all)] ++
          ["self", "documents", "dev_tester", "seed", "model_dir", "model_name_format"].map
            (fun k => (k.toList, Schema.all))).map Prod.fst := by
        rw [List.map_append]
        exact List.mem_append.mpr (Or.inr hk)
      rcases h k hm with ⟨h1, h2⟩ | ⟨x, y, h1, h2, _⟩ <;> rw [h1, h2] <;> rfl
    unfold passParams
    have hiff : (∃ k ∈ reservedArgs, (assocGet k l).isSome = true) ↔ ∃ k ∈ reservedArgs, (assocGet k l').isSome = true :=
      exists_congr (fun k => and_congr_right (fun hk => by rw [this k hk]))
    simp only [hiff]

end whole

end Verif
