import Verif.Spec.HyperDoc
import Verif.Proofs.HyperRequired

/-!
# Lemmas on reading documented hyperparameters
-/

namespace Verif

theorem okBindL {α β : Type} (a : α) (f : α → Res β) : ((.ok a : Res α) >>= f) = f a := rfl

theorem jnat_size (n : Nat) : (jnat n).size = .ok n := by
  have h1 : ((n : Rat)).den = 1 := Rat.den_natCast n
  have h2 : ((n : Rat)).num = n := Rat.num_natCast n
  have h3 : ¬ ((n : Rat)).num < 0 := by omega
  simp only [jnat, JV.size]
  rw [if_pos h1, if_neg h3, h2]
  rfl

theorem jnat_int (n : Nat) : (jnat n).int = .ok (n : Int) := by
  simp only [jnat, JV.int, Rat.den_natCast, Rat.num_natCast, if_true]

theorem jnat_atLeast (n : Nat) : (jnat n).atLeast = .ok (n : Int) := by
  simp only [jnat, JV.atLeast, JV.number]
  congr 1

theorem num_above (q : Rat) : (JV.num q).above = .ok q.floor := rfl

theorem mapM'_map_ok {α β γ : Type} {f : β → Res γ} {g : α → β} {h : α → γ} (l : List α)
    (H : ∀ a, f (g a) = .ok (h a)) : mapM' f (l.map g) = .ok (l.map h) := by
  rw [mapM'_ok_iff]
  induction l with
  | nil => exact .nil
  | cons a l ih => exact .cons (H a) ih

theorem kernel_doc (k : Kernel) : kernelOf k.toJson = .ok k := by
  have h1 : k.toJson.get "size".toList = .ok (jnat k.size) := by rfl
  have h2 : k.toJson.get "count".toList = .ok (jnat k.count) := by rfl
  have h3 : k.toJson.get "dilation".toList = .ok (jnat k.dilation) := by rfl
  unfold kernelOf
  simp only [h1, h2, h3, okBindL, jnat_size]
  rfl

theorem kernels_doc (l : List Kernel) : kernelsOf (kernelsJson l) = .ok l := by
  unfold kernelsOf kernelsJson
  simp only [JV.list, okBindL]
  rw [mapM'_map_ok (h := id) l kernel_doc, List.map_id]

theorem weights_doc (l : List (Str × Rat)) : mapM' weightOf (l.map (fun p => (p.1, JV.num p.2))) = .ok l := by
  have := mapM'_map_ok (f := weightOf) (g := fun p : Str × Rat => (p.1, JV.num p.2)) (h := id) l (fun p => rfl)
  rw [this, List.map_id]

theorem assocGet_app {V : Type} (k : Str) (l l' : List (Str × V)) :
    assocGet k (l ++ l') = (assocGet k l).or (assocGet k l') := by
  induction l with
  | nil => rfl
  | cons x xs ih =>
    obtain ⟨a, b⟩ := x
    simp only [List.cons_append, assocGet]
    split
    · rfl
    · exact ih

theorem assocGet_jopt {α : Type} (k : String) (f : α → JV) (o : Option α) :
    assocGet k.toList (jopt k f o) = o.map f := by
  cases o with
  | none => rfl
  | some v => simp [jopt, jkey, assocGet]

theorem assocGet_jopt_ne {α : Type} (k k' : String) (f : α → JV) (o : Option α) (h : k.toList ≠ k'.toList) :
    assocGet k.toList (jopt k' f o) = none := by
  cases o with
  | none => rfl
  | some v => simp only [jopt, jkey, assocGet, if_neg h.symm]

theorem assocGet_jkey (k : String) (v : JV) (l : List (Str × JV)) : assocGet k.toList (jkey k v :: l) = some v := by
  simp only [jkey, assocGet, if_true]

theorem assocGet_jkey_ne (k k' : String) (v : JV) (l : List (Str × JV)) (h : k.toList ≠ k'.toList) :
    assocGet k.toList (jkey k' v :: l) = assocGet k.toList l := by
  rw [jkey, assocGet, if_neg h.symm]

theorem assocGet_nil {V : Type} (k : Str) : assocGet k ([] : List (Str × V)) = none := rfl

theorem get_obj (k : Str) (l : List (Str × JV)) (v : JV) (h : assocGet k l = some v) : (JV.obj l).get k = .ok v := by
  simp only [JV.get, h]

theorem getD_obj (k : Str) (l : List (Str × JV)) (d : JV) : (JV.obj l).getD k d = .ok ((assocGet k l).getD d) := rfl

theorem has_obj (k : Str) (l : List (Str × JV)) : (JV.obj l).has k = .ok (assocGet k l).isSome := rfl

/-- A segmenter is read, whatever entries follow. -/
theorem segmenter_doc (w : Outside) (s : SegmenterDoc) (l : List (Str × JV))
    (h : assocGet "segmenter_config".toList l = none) :
    segmenterOf w (.obj (s.entries ++ l)) = s.segmenter w := by
  cases s with
  | char =>
    have h1 : (JV.obj (SegmenterDoc.char.entries ++ l)).get "segmenter".toList = .ok (jtext "char") := by rfl
    have h2 : (JV.obj (SegmenterDoc.char.entries ++ l)).getD "segmenter_config".toList (.obj []) = .ok (.obj []) := by
      rw [getD_obj, assocGet_app, h]
      rfl
    unfold segmenterOf
    rw [h1, h2]
    rfl
  | bpe a b => rfl
  | morfessor p => rfl

/-! ### Subword features -/

theorem segmenter_entries (k : String) (s : SegmenterDoc) (h1 : k.toList ≠ "segmenter".toList)
    (h2 : k.toList ≠ "segmenter_config".toList) : assocGet k.toList s.entries = none := by
  cases s <;> simp only [SegmenterDoc.entries, assocGet_jkey_ne _ _ _ _ h1, assocGet_jkey_ne _ _ _ _ h2, assocGet_nil]

theorem aggregator_entries (k : String) (s : AggregatorDoc) (h1 : k.toList ≠ "aggregator".toList)
    (h2 : k.toList ≠ "aggregator_config".toList) : assocGet k.toList s.entries = none := by
  cases s <;> simp only [AggregatorDoc.entries, assocGet_jkey_ne _ _ _ _ h1, assocGet_jkey_ne _ _ _ _ h2, assocGet_nil]

theorem vectors_entries (k : String) (s : VectorsDoc) (h1 : k.toList ≠ "embed_size".toList)
    (h2 : k.toList ≠ "min_frequency".toList) (h3 : k.toList ≠ "trainable".toList)
    (h4 : k.toList ≠ "embedding_path".toList) : assocGet k.toList s.entries = none := by
  cases s <;> simp only [VectorsDoc.entries, assocGet_jkey_ne _ _ _ _ h1, assocGet_jkey_ne _ _ _ _ h2,
    assocGet_jkey_ne _ _ _ _ h3, assocGet_jkey_ne _ _ _ _ h4, assocGet_jopt_ne _ _ _ _ h1,
    assocGet_jopt_ne _ _ _ _ h2, assocGet_nil, assocGet_app, Option.or]

/-- An entry of a subword feature that is one of the vectors. -/
theorem subword_vectors (d : SubwordDoc) (k : String) (h1 : k.toList ≠ "segmenter".toList)
    (h2 : k.toList ≠ "segmenter_config".toList) (h3 : k.toList ≠ "aggregator".toList)
    (h4 : k.toList ≠ "aggregator_config".toList) (h5 : k.toList ≠ "highway_layer".toList) :
    assocGet k.toList (d.segmenter.entries ++ d.vectors.entries ++ d.aggregator.entries ++
      jopt "highway_layer" .bool d.highway) = assocGet k.toList d.vectors.entries := by
  simp only [assocGet_app, segmenter_entries k _ h1 h2, aggregator_entries k _ h3 h4, assocGet_jopt_ne _ _ _ _ h5,
    Option.or_none, Option.none_or]

theorem subword_aggregator (d : SubwordDoc) (k : String) (h1 : k.toList ≠ "segmenter".toList)
    (h2 : k.toList ≠ "segmenter_config".toList) (h3 : k.toList ≠ "embed_size".toList)
    (h4 : k.toList ≠ "min_frequency".toList) (h5 : k.toList ≠ "trainable".toList)
    (h6 : k.toList ≠ "embedding_path".toList) (h7 : k.toList ≠ "highway_layer".toList) :
    assocGet k.toList (d.segmenter.entries ++ d.vectors.entries ++ d.aggregator.entries ++
      jopt "highway_layer" .bool d.highway) = assocGet k.toList d.aggregator.entries := by
  simp only [assocGet_app, segmenter_entries k _ h1 h2, vectors_entries k _ h3 h4 h5 h6, assocGet_jopt_ne _ _ _ _ h7,
    Option.or_none, Option.none_or]

theorem subword_highway (d : SubwordDoc) : d.toJson.getD "highway_layer".toList (.bool false) =
    .ok (.bool (d.highway.getD false)) := by
  unfold SubwordDoc.toJson
  rw [getD_obj, assocGet_app, assocGet_app, assocGet_app,
    segmenter_entries "highway_layer" _ (by decide) (by decide),
    vectors_entries "highway_layer" _ (by decide) (by decide) (by decide) (by decide),
    aggregator_entries "highway_layer" _ (by decide) (by decide), assocGet_jopt]
  cases d.highway <;> rfl

theorem aggregator_doc (d : SubwordDoc) : aggregatorOf d.toJson = .ok d.aggregator.aggregator := by
  have h1 : d.toJson.get "aggregator".toList = .ok (match d.aggregator with
      | .average => jtext "average"
      | .cnn _ => jtext "cnn"
      | .rnn _ _ => jtext "rnn"
      | .selfAttention => jtext "self-attention") := by
    refine get_obj _ _ _ ?_
    rw [subword_aggregator d "aggregator" (by decide) (by decide) (by decide) (by decide) (by decide) (by decide)
      (by decide)]
    cases d.aggregator <;> rfl
  have h2 : d.toJson.getD "aggregator_config".toList (.obj []) = .ok (match d.aggregator with
      | .cnn ks => .obj [jkey "cnn_kernels" (kernelsJson ks)]
      | .rnn c n => .obj [jkey "lstm_cell_size" (jnat c), jkey "bilstm_layer_count" (jnat n)]
      | _ => .obj []) := by
    unfold SubwordDoc.toJson
    rw [getD_obj, subword_aggregator d "aggregator_config" (by decide) (by decide) (by decide) (by decide) (by decide)
      (by decide) (by decide)]
    cases d.aggregator <;> rfl
  unfold aggregatorOf
  rw [h1, h2]
  cases d.aggregator with
  | average => rfl
  | selfAttention => rfl
  | cnn ks =>
    have h3 : (JV.obj [jkey "cnn_kernels" (kernelsJson ks)]).get "cnn_kernels".toList = .ok (kernelsJson ks) := by rfl
    have h4 : lookupName aggNames (jtext "cnn") = .ok .cnn := by rfl
    simp only [okBindL, h3, h4, kernels_doc]
    rfl
  | rnn c n =>
    have h3 : (JV.obj [jkey "lstm_cell_size" (jnat c), jkey "bilstm_layer_count" (jnat n)]).get
      "lstm_cell_size".toList = .ok (jnat c) := by rfl
    have h4 : (JV.obj [jkey "lstm_cell_size" (jnat c), jkey "bilstm_layer_count" (jnat n)]).get
      "bilstm_layer_count".toList = .ok (jnat n) := by rfl
    have h5 : lookupName aggNames (jtext "rnn") = .ok .rnn := by rfl
    simp only [okBindL, h3, h4, h5, jnat_size, jnat_int]
    rfl

theorem segmenter_sub (w : Outside) (d : SubwordDoc) : segmenterOf w d.toJson = d.segmenter.segmenter w := by
  unfold SubwordDoc.toJson
  rw [List.append_assoc, List.append_assoc]
  refine segmenter_doc w _ _ ?_
  rw [assocGet_app, assocGet_app, vectors_entries "segmenter_config" _ (by decide) (by decide) (by decide) (by decide),
    aggregator_entries "segmenter_config" _ (by decide) (by decide), assocGet_jopt_ne _ _ _ _ (by decide)]
  rfl

theorem provider_doc (w : Outside) (name : Str) (d : SubwordDoc) :
    subwordProvider w name d.toJson = d.provider w name := by
  have hv := subword_vectors d
  unfold subwordProvider SubwordDoc.provider
  rw [segmenter_sub]
  have h1 : d.toJson.has "embedding_path".toList = .ok (assocGet "embedding_path".toList d.vectors.entries).isSome := by
    rw [SubwordDoc.toJson, has_obj, hv "embedding_path" (by decide) (by decide) (by decide) (by decide) (by decide)]
  rw [h1]
  cases hd : d.vectors with
  | random n m t =>
    rw [hd] at hv
    have h2 : assocGet "embedding_path".toList (VectorsDoc.random n m t).entries = none := by rfl
    have h3 : d.toJson.get "min_frequency".toList = .ok (jnat m) := by
      refine get_obj _ _ _ ?_
      rw [hd, hv "min_frequency" (by decide) (by decide) (by decide) (by decide) (by decide)]
      rfl
    rw [h2, h3]
    simp only [okBindL, Option.isSome_none, Bool.false_eq_true, if_false, jnat_atLeast]
  | pretrained p t m n =>
    rw [hd] at hv
    have h2 : assocGet "embedding_path".toList (VectorsDoc.pretrained p t m n).entries = some (.str p) := by rfl
    have h3 : d.toJson.get "embedding_path".toList = .ok (.str p) := by
      refine get_obj _ _ _ ?_
      rw [hd, hv "embedding_path" (by decide) (by decide) (by decide) (by decide) (by decide)]
      rfl
    rw [h2, h3]
    simp only [okBindL, Option.isSome_some, if_true, JV.string]

theorem subword_doc (shapes : Dict Str Shape) (name : Str) (d : SubwordDoc) (h : d.Trains) :
    subwordCfgOf shapes name d.toJson = d.net shapes name := by
  have hv := subword_vectors d
  unfold subwordCfgOf SubwordDoc.net
  rw [aggregator_doc, subword_highway]
  have h1 : d.toJson.has "embedding_path".toList = .ok (assocGet "embedding_path".toList d.vectors.entries).isSome := by
    rw [SubwordDoc.toJson, has_obj, hv "embedding_path" (by decide) (by decide) (by decide) (by decide) (by decide)]
  rw [h1]
  cases hd : d.vectors with
  | random n m t =>
    rw [hd] at hv
    have ht : t = true := by
      cases t with
      | true => rfl
      | false => exact absurd hd (h n m)
    subst ht
    have h2 : assocGet "embedding_path".toList (VectorsDoc.random n m true).entries = none := by rfl
    have h3 : d.toJson.get "embed_size".toList = .ok (jnat n) := by
      refine get_obj _ _ _ ?_
      rw [hd, hv "embed_size" (by decide) (by decide) (by decide) (by decide) (by decide)]
      rfl
    rw [h2, h3]
    simp only [okBindL, Option.isSome_none, Bool.false_eq_true, if_false, jnat_size, JV.truthy]
    rfl
  | pretrained p t m n =>
    rw [hd] at hv
    have h2 : assocGet "embedding_path".toList (VectorsDoc.pretrained p t m n).entries = some (.str p) := by rfl
    have h3 : d.toJson.get "trainable".toList = .ok (.bool t) := by
      refine get_obj _ _ _ ?_
      rw [hd, hv "trainable" (by decide) (by decide) (by decide) (by decide) (by decide)]
      rfl
    rw [h2, h3]
    simp only [okBindL, Option.isSome_some, if_true, JV.truthy]

/-! ### Features -/

theorem word_provider_doc (w : Outside) (d : WordDoc) : wordProvider w d.toJson = d.provider w := by
  have h1 : d.toJson.get "path".toList = .ok (.str d.path) := by
    refine get_obj _ _ _ ?_
    rw [assocGet_app, assocGet_jopt_ne _ _ _ _ (by decide)]
    rfl
  have h2 : d.toJson.get "lowercase".toList = .ok (.bool d.lowercase) := by
    refine get_obj _ _ _ ?_
    rw [assocGet_app, assocGet_jopt_ne _ _ _ _ (by decide)]
    rfl
  unfold wordProvider WordDoc.provider
  rw [h1, h2]
  simp only [okBindL, JV.string, JV.truthy]

theorem word_doc (shapes : Dict Str Shape) (d : WordDoc) : wordCfgOf shapes d.toJson = d.net shapes := by
  have h1 : d.toJson.get "trainable".toList = .ok (.bool d.trainable) := by
    refine get_obj _ _ _ ?_
    rw [assocGet_app, assocGet_jopt_ne _ _ _ _ (by decide)]
    rfl
  have h2 : assocGet "we_dense_size".toList (jopt "we_dense_size" jnat d.denseSize ++
    [jkey "path" (.str d.path), jkey "trainable" (.bool d.trainable), jkey "lowercase" (.bool d.lowercase)]) =
      d.denseSize.map jnat := by
    rw [assocGet_app, assocGet_jopt, assocGet_jkey_ne _ _ _ _ (by decide), assocGet_jkey_ne _ _ _ _ (by decide),
      assocGet_jkey_ne _ _ _ _ (by decide), assocGet_nil, Option.or_none]
  have h3 : d.toJson.has "we_dense_size".toList = .ok d.denseSize.isSome := by
    rw [WordDoc.toJson, has_obj, h2, Option.isSome_map]
  unfold wordCfgOf WordDoc.net
  rw [h1, h3]
  cases hd : d.denseSize with
  | none =>
    simp only [okBindL, Option.isSome_none, Bool.false_eq_true, if_false, JV.truthy]
  | some n =>
    have h4 : d.toJson.get "we_dense_size".toList = .ok (jnat n) := by
      refine get_obj _ _ _ ?_
      rw [h2, hd]
      rfl
    simp only [okBindL, Option.isSome_some, if_true, JV.truthy, h4, jnat_size]

theorem trained_provider_doc (d : TrainedDoc) : trainedProvider d.toJson = d.provider := by
  have h1 : d.toJson.get "min_frequency".toList = .ok (jnat d.minFrequency) := by rfl
  have h2 : d.toJson.get "lowercase".toList = .ok (.bool d.lowercase) := by rfl
  unfold trainedProvider TrainedDoc.provider
  rw [h1, h2]
  simp only [okBindL, jnat_atLeast, JV.truthy]
  rfl

theorem trained_doc (d : TrainedDoc) : trainedCfgOf d.toJson = d.net := by
  have h1 : d.toJson.get "size".toList = .ok (jnat d.size) := by rfl
  have h2 : d.toJson.get "trainable".toList = .ok (.bool d.trainable) := by rfl
  unfold trainedCfgOf TrainedDoc.net
  rw [h1, h2]
  simp only [okBindL, jnat_size, JV.truthy]
  rfl

theorem optPart_doc {α β : Type} (l : List (Str × JV)) (k : Str) (j : α → JV) (o : Option α) (f : JV → Res β)
    (g : α → Res β) (h : assocGet k l = o.map j) (hf : ∀ a, o = some a → f (j a) = g a) :
    optPart (.obj l) k f = readOpt g o := by
  unfold optPart
  rw [has_obj, h]
  cases o with
  | none => rfl
  | some a =>
    rw [get_obj k l (j a) h]
    simp only [okBindL, Option.map_some, Option.isSome_some, if_true, hf a rfl, readOpt]
    cases g a with
    | error e => rfl
    | ok b => rfl

section
variable (d : FeaturesDoc)

theorem features_word : assocGet "word_embedding".toList (jopt "word_embedding" WordDoc.toJson d.word ++
    jopt "word_characters" SubwordDoc.toJson d.chars ++ jopt "bpe_subwords" SubwordDoc.toJson d.bpe ++
    jopt "morfessor_subwords" SubwordDoc.toJson d.morfessor ++
    jopt "word_trained_embedding" TrainedDoc.toJson d.trained) = d.word.map WordDoc.toJson := by
  simp (disch := decide) only [assocGet_app, assocGet_jopt, assocGet_jopt_ne, Option.or_none, Option.none_or]

theorem features_chars : assocGet "word_characters".toList (jopt "word_embedding" WordDoc.toJson d.word ++
    jopt "word_characters" SubwordDoc.toJson d.chars ++ jopt "bpe_subwords" SubwordDoc.toJson d.bpe ++
    jopt "morfessor_subwords" SubwordDoc.toJson d.morfessor ++
    jopt "word_trained_embedding" TrainedDoc.toJson d.trained) = d.chars.map SubwordDoc.toJson := by
  simp (disch := decide) only [assocGet_app, assocGet_jopt, assocGet_jopt_ne, Option.or_none, Option.none_or]

theorem features_bpe : assocGet "bpe_subwords".toList (jopt "word_embedding" WordDoc.toJson d.word ++
    jopt "word_characters" SubwordDoc.toJson d.chars ++ jopt "bpe_subwords" SubwordDoc.toJson d.bpe ++
    jopt "morfessor_subwords" SubwordDoc.toJson d.morfessor ++
    jopt "word_trained_embedding" TrainedDoc.toJson d.trained) = d.bpe.map SubwordDoc.toJson := by
  simp (disch := decide) only [assocGet_app, assocGet_jopt, assocGet_jopt_ne, Option.or_none, Option.none_or]

theorem features_morfessor : assocGet "morfessor_subwords".toList (jopt "word_embedding" WordDoc.toJson d.word ++
    jopt "word_characters" SubwordDoc.toJson d.chars ++ jopt "bpe_subwords" SubwordDoc.toJson d.bpe ++
    jopt "morfessor_subwords" SubwordDoc.toJson d.morfessor ++
    jopt "word_trained_embedding" TrainedDoc.toJson d.trained) = d.morfessor.map SubwordDoc.toJson := by
  simp (disch := decide) only [assocGet_app, assocGet_jopt, assocGet_jopt_ne, Option.or_none, Option.none_or]

theorem features_trained : assocGet "word_trained_embedding".toList (jopt "word_embedding" WordDoc.toJson d.word ++
    jopt "word_characters" SubwordDoc.toJson d.chars ++ jopt "bpe_subwords" SubwordDoc.toJson d.bpe ++
    jopt "morfessor_subwords" SubwordDoc.toJson d.morfessor ++
    jopt "word_trained_embedding" TrainedDoc.toJson d.trained) = d.trained.map TrainedDoc.toJson := by
  simp (disch := decide) only [assocGet_app, assocGet_jopt, assocGet_jopt_ne, Option.or_none, Option.none_or]

theorem features_providers_doc (w : Outside) : sharedProviders w d.toJson = d.providers w := by
  unfold sharedProviders FeaturesDoc.providers FeaturesDoc.toJson
  rw [optPart_doc _ _ _ _ _ _ (features_word d) (fun a _ => word_provider_doc w a),
    optPart_doc _ _ _ _ _ _ (features_trained d) (fun a _ => trained_provider_doc a),
    optPart_doc _ _ _ _ _ _ (features_chars d) (fun a _ => provider_doc w _ a),
    optPart_doc _ _ _ _ _ _ (features_bpe d) (fun a _ => provider_doc w _ a),
    optPart_doc _ _ _ _ _ _ (features_morfessor d) (fun a _ => provider_doc w _ a)]

theorem features_doc (shapes : Dict Str Shape) (h1 : ∀ c, d.chars = some c → c.Trains)
    (h2 : ∀ c, d.bpe = some c → c.Trains) (h3 : ∀ c, d.morfessor = some c → c.Trains) :
    sharedCfgOf shapes d.toJson = d.net shapes := by
  unfold sharedCfgOf FeaturesDoc.net FeaturesDoc.toJson
  rw [optPart_doc _ _ _ _ _ _ (features_word d) (fun a _ => word_doc shapes a),
    optPart_doc _ _ _ _ _ _ (features_trained d) (fun a _ => trained_doc a),
    optPart_doc _ _ _ _ _ _ (features_chars d) (fun a ha => subword_doc shapes _ a (h1 a ha)),
    optPart_doc _ _ _ _ _ _ (features_bpe d) (fun a ha => subword_doc shapes _ a (h2 a ha)),
    optPart_doc _ _ _ _ _ _ (features_morfessor d) (fun a ha => subword_doc shapes _ a (h3 a ha))]

theorem features_check : checkFeatures d.toJson = .ok () := by
  have hs : ∀ a : SubwordDoc, checkSubword a.toJson = .ok () := fun a => by
    unfold checkSubword SubwordDoc.toJson
    rw [has_obj]
    rfl
  have hw : ∀ a : WordDoc, checkWord a.toJson = .ok () := fun a => by
    have h1 : a.toJson.get "path".toList = .ok (.str a.path) := by
      refine get_obj _ _ _ ?_
      rw [assocGet_app, assocGet_jopt_ne _ _ _ _ (by decide)]
      rfl
    have h2 : a.toJson.get "lowercase".toList = .ok (.bool a.lowercase) := by
      refine get_obj _ _ _ ?_
      rw [assocGet_app, assocGet_jopt_ne _ _ _ _ (by decide)]
      rfl
    unfold checkWord
    rw [h1, h2]
    rfl
  have ht : ∀ a : TrainedDoc, checkTrained a.toJson = .ok () := fun a => by rfl
  unfold checkFeatures FeaturesDoc.toJson
  rw [optPart_doc _ _ _ _ _ (fun _ => .ok ()) (features_word d) (fun a _ => hw a),
    optPart_doc _ _ _ _ _ (fun _ => .ok ()) (features_trained d) (fun a _ => ht a),
    optPart_doc _ _ _ _ _ (fun _ => .ok ()) (features_chars d) (fun a _ => hs a),
    optPart_doc _ _ _ _ _ (fun _ => .ok ()) (features_bpe d) (fun a _ => hs a),
    optPart_doc _ _ _ _ _ (fun _ => .ok ()) (features_morfessor d) (fun a _ => hs a)]
  cases d.word <;> cases d.trained <;> cases d.chars <;> cases d.bpe <;> cases d.morfessor <;> rfl

end

/-! ### The shared part -/

def ArchitectureDoc.named : ArchitectureDoc → SharedName
  | .words => .words
  | .bilstm _ _ _ => .bilstm
  | .bilstmCnn _ _ _ _ => .bilstmCnn
  | .dilatedCnn _ _ => .dilatedCnn

theorem name_doc (a : ArchitectureDoc) : lookupName sharedNames a.name = .ok a.named := by
  cases a <;> rfl

theorem skip_doc (o : Option SkipDoc) : skipOf ((o.map SkipDoc.toJson).getD .null) = o.map SkipDoc.text := by
  cases o with
  | none => rfl
  | some s => cases s <;> rfl

theorem layers_doc (o : Option Nat) : ((o.map jnat).getD (.num 1)).int = .ok ((o.getD 1 : Nat) : Int) := by
  cases o with
  | none => exact jnat_int 1
  | some n => exact jnat_int n

section
variable (a : ArchitectureDoc) (sp : Option Rat)

def archConfig : JV := .obj (a.entries ++ jopt "sparse_input_prob" .num sp)

theorem arch_sparse : (archConfig a sp).getD "sparse_input_prob".toList (.num 0) = .ok (.num (sp.getD 0)) := by
  have : assocGet "sparse_input_prob".toList a.entries = none := by
    cases a <;> simp (disch := decide) only [ArchitectureDoc.entries, assocGet_app, assocGet_jkey_ne, assocGet_jopt_ne,
      assocGet_nil, Option.or_none]
  unfold archConfig
  rw [getD_obj, assocGet_app, this, assocGet_jopt]
  cases sp <;> rfl

theorem kind_doc : sharedKindOf (archConfig a sp) a.named = .ok a.kind := by
  cases a with
  | words => rfl
  | bilstm c n s =>
    have h1 : (archConfig (.bilstm c n s) sp).get "lstm_cell_size".toList = .ok (jnat c) := by rfl
    have h2 : (archConfig (.bilstm c n s) sp).getD "bilstm_layer_count".toList (.num 1) =
        .ok ((n.map jnat).getD (.num 1)) := by
      simp (disch := decide) only [archConfig, getD_obj, ArchitectureDoc.entries, assocGet_app, assocGet_jkey_ne,
        assocGet_jopt, assocGet_jopt_ne, assocGet_nil, Option.or_none, Option.none_or]
    have h3 : (archConfig (.bilstm c n s) sp).getD "skip_connection".toList .null =
        .ok ((s.map SkipDoc.toJson).getD .null) := by
      simp (disch := decide) only [archConfig, getD_obj, ArchitectureDoc.entries, assocGet_app, assocGet_jkey_ne,
        assocGet_jopt, assocGet_jopt_ne, assocGet_nil, Option.or_none, Option.none_or]
    simp only [ArchitectureDoc.named, sharedKindOf, h1, h2, h3, okBindL, jnat_size, layers_doc, skip_doc]
    rfl
  | bilstmCnn c n s ks =>
    have h1 : (archConfig (.bilstmCnn c n s ks) sp).get "lstm_cell_size".toList = .ok (jnat c) := by rfl
    have h2 : (archConfig (.bilstmCnn c n s ks) sp).getD "bilstm_layer_count".toList (.num 1) =
        .ok ((n.map jnat).getD (.num 1)) := by
      simp (disch := decide) only [archConfig, getD_obj, ArchitectureDoc.entries, assocGet_app, assocGet_jkey_ne,
        assocGet_jopt, assocGet_jopt_ne, assocGet_nil, Option.or_none, Option.none_or]
    have h3 : (archConfig (.bilstmCnn c n s ks) sp).getD "skip_connection".toList .null =
        .ok ((s.map SkipDoc.toJson).getD .null) := by
      simp (disch := decide) only [archConfig, getD_obj, ArchitectureDoc.entries, assocGet_app, assocGet_jkey_ne,
        assocGet_jopt, assocGet_jopt_ne, assocGet_nil, Option.or_none, Option.none_or]
    have h4 : (archConfig (.bilstmCnn c n s ks) sp).get "cnn_kernels".toList = .ok (kernelsJson ks) := by
      refine get_obj _ _ _ ?_
      simp (disch := decide) only [ArchitectureDoc.entries, assocGet_app, assocGet_jkey_ne,
        assocGet_jkey, assocGet_jopt_ne, assocGet_nil, Option.or_none, Option.none_or]
    simp only [ArchitectureDoc.named, sharedKindOf, h1, h2, h3, h4, okBindL, jnat_size, layers_doc, skip_doc, kernels_doc]
    rfl
  | dilatedCnn ks s =>
    have h3 : (archConfig (.dilatedCnn ks s) sp).getD "skip_connection".toList .null =
        .ok ((s.map SkipDoc.toJson).getD .null) := by
      simp (disch := decide) only [archConfig, getD_obj, ArchitectureDoc.entries, assocGet_app, assocGet_jkey_ne,
        assocGet_jopt, assocGet_jopt_ne, assocGet_nil, Option.or_none, Option.none_or]
    have h4 : (archConfig (.dilatedCnn ks s) sp).getD "cnn_kernels".toList .null = .ok (kernelsJson ks) := by rfl
    have h5 := kernels_doc ks
    unfold kernelsJson at h4 h5
    simp only [ArchitectureDoc.named, sharedKindOf, h3, h4, okBindL, skip_doc, h5]
    rfl

theorem arch_check : checkSharedConfig (archConfig a sp) a.named = .ok () := by
  cases a with
  | words => rfl
  | bilstm c n s => rfl
  | bilstmCnn c n s ks =>
    have h4 : (archConfig (.bilstmCnn c n s ks) sp).get "cnn_kernels".toList = .ok (kernelsJson ks) := by
      refine get_obj _ _ _ ?_
      simp (disch := decide) only [ArchitectureDoc.entries, assocGet_app, assocGet_jkey_ne,
        assocGet_jkey, assocGet_jopt_ne, assocGet_nil, Option.or_none, Option.none_or]
    have h1 : (archConfig (.bilstmCnn c n s ks) sp).get "lstm_cell_size".toList = .ok (jnat c) := by rfl
    unfold ArchitectureDoc.named checkSharedConfig
    rw [h1, h4]
    rfl
  | dilatedCnn ks s => rfl

end

section
variable (d : SharedDoc)

theorem shared_builder_doc : d.toJson.get "builder".toList = .ok d.architecture.name := by rfl
theorem shared_config_doc : d.toJson.get "config".toList = .ok (archConfig d.architecture d.sparse) := by rfl
theorem shared_features_doc : d.toJson.getD "features_config".toList (.obj []) = .ok d.features.toJson := by rfl

theorem shared_check : checkShared d.toJson = .ok () := by
  unfold checkShared
  simp only [shared_builder_doc, shared_config_doc, shared_features_doc, okBindL, name_doc, features_check, arch_check]

end

/-! ### Tasks -/

section
variable (shapes : Dict Str Shape)

theorem weightsOf_doc (c : JV) (l : List (Str × Rat)) (h : c.getD "loss_weights".toList .null = .ok (weightsJson l)) :
    weightsOf c = .ok (some l) := by
  unfold weightsOf
  rw [h]
  simp only [weightsJson, okBindL, weights_doc]
  rfl

theorem dense_doc (d : DenseDoc) (l : List (Str × JV)) (task : Task) :
    denseRead shapes (.obj (d.entries ++ l)) task = d.net shapes task := by
  have h1 : (JV.obj (d.entries ++ l)).get "shared_name".toList = .ok (.str d.sharedName) := by rfl
  have h2 : (JV.obj (d.entries ++ l)).get "dense_size".toList = .ok (jnat d.size) := by rfl
  have h3 : weightsOf (.obj (d.entries ++ l)) = .ok (some d.weights) := weightsOf_doc _ _ (by rfl)
  unfold denseRead DenseDoc.net
  simp only [h1, h2, h3, okBindL, JV.key, jnat_size]
  cases shapeParts shapes task.label <;> rfl

/-- The weight of the transducer is there. -/
def TaskDoc.Weighted (t : TaskDoc) : Prop :=
  ∀ x ks s e m h s' m' n, t = .lemmaCombo x ks s e m h s' m' n → "LEMMA".toList ∈ x.weights.map Prod.fst

theorem weightsJson_get (l : List (Str × Rat)) (k : Str) (h : k ∈ l.map Prod.fst) :
    ∃ v, (weightsJson l).get k = .ok v := by
  unfold weightsJson
  cases hx : assocGet k (l.map (fun p => (p.1, JV.num p.2))) with
  | some v => exact ⟨v, get_obj _ _ _ hx⟩
  | none =>
    refine absurd ?_ (assocGet_none.mp hx)
    rw [List.map_map]
    exact h

theorem task_check_doc (t : TaskDoc) (h : t.Weighted) : checkTask t.toJson = .ok () := by
  cases t with
  | pos d s => rfl
  | lemmaDense d => rfl
  | lemmaSuffix d n => rfl
  | lemmaCombo x ks s e m hw s' m' n =>
    obtain ⟨v, hv⟩ := weightsJson_get x.weights _ (h _ _ _ _ _ _ _ _ _ rfl)
    have hi : (JV.obj (s.entries ++ [jkey "embed_size" (jnat e), jkey "min_frequency" (jnat m)] ++
        jopt "highway_layer" .bool hw)).get "embed_size".toList = .ok (jnat e) := by
      refine get_obj _ _ _ ?_
      simp (disch := decide) only [assocGet_app, segmenter_entries, assocGet_jkey, assocGet_jopt_ne, Option.none_or,
        Option.or_none]
    have ho : (JV.obj (s'.entries ++ [jkey "min_frequency" (jnat m'), jkey "max_word_length" (jnat n)])).get
        "max_word_length".toList = .ok (jnat n) := by
      refine get_obj _ _ _ ?_
      simp (disch := decide) only [assocGet_app, segmenter_entries, assocGet_jkey, assocGet_jkey_ne, Option.none_or,
        Option.or_none]
    have hc : checkTask (TaskDoc.lemmaCombo x ks s e m hw s' m' n).toJson = (do
        let _ ← (JV.obj (s.entries ++ [jkey "embed_size" (jnat e), jkey "min_frequency" (jnat m)] ++
          jopt "highway_layer" .bool hw)).get "embed_size".toList
        let _ ← (JV.obj (s'.entries ++ [jkey "min_frequency" (jnat m'), jkey "max_word_length" (jnat n)])).get
          "max_word_length".toList
        let _ ← (weightsJson x.weights).get "LEMMA".toList
        return ()) := by rfl
    rw [hc, hi, ho, hv]
    rfl

theorem splitting_doc (s : Splitting) : splittingOf (splittingText s) = .ok s := by
  cases s <;> rfl

theorem task_providers_doc (w : Outside) (t : TaskDoc) : taskProviders w t.toJson = t.providers w := by
  cases t with
  | pos d s =>
    have hc : taskProviders w (TaskDoc.pos d s).toJson = (do
      let s ← splittingOf (splittingText s)
      return [Provider.posDict "pos_labels".toList s]) := by rfl
    rw [hc, splitting_doc]
    rfl
  | lemmaDense d => rfl
  | lemmaSuffix d n =>
    have hc : taskProviders w (TaskDoc.lemmaSuffix d n).toJson = (do
      let th ← (JV.num n).above
      return [Provider.lemmaRules "applicable_rules".toList "lemma_rule_labels".toList th]) := by rfl
    rw [hc, num_above]
    rfl
  | lemmaCombo x ks s e m hw s' m' n =>
    have hc : taskProviders w (TaskDoc.lemmaCombo x ks s e m hw s' m' n).toJson = (do
      let a ← lemmaCharsProvider w (.obj (s'.entries ++
          [jkey "min_frequency" (jnat m'), jkey "max_word_length" (jnat n)]))
      let b ← subwordProvider w "input_subwords".toList (.obj (s.entries ++
          [jkey "embed_size" (jnat e), jkey "min_frequency" (jnat m)] ++ jopt "highway_layer" .bool hw))
      return [a, b]) := by rfl
    have h1 : (JV.obj (s'.entries ++ [jkey "min_frequency" (jnat m'), jkey "max_word_length" (jnat n)])).get
        "max_word_length".toList = .ok (jnat n) := by
      refine get_obj _ _ _ ?_
      simp (disch := decide) only [assocGet_app, segmenter_entries, assocGet_jkey, assocGet_jkey_ne, Option.none_or,
        Option.or_none]
    have h2 : (JV.obj (s'.entries ++ [jkey "min_frequency" (jnat m'), jkey "max_word_length" (jnat n)])).get
        "min_frequency".toList = .ok (jnat m') := by
      refine get_obj _ _ _ ?_
      simp (disch := decide) only [assocGet_app, segmenter_entries, assocGet_jkey, Option.none_or, Option.or_none]
    have h3 : (JV.obj (s.entries ++ [jkey "embed_size" (jnat e), jkey "min_frequency" (jnat m)] ++
        jopt "highway_layer" .bool hw)).has "embedding_path".toList = .ok false := by
      rw [has_obj]
      simp (disch := decide) only [assocGet_app, segmenter_entries, assocGet_jkey_ne, assocGet_jopt_ne, assocGet_nil,
        Option.or_none, Option.isSome_none]
    have h4 : (JV.obj (s.entries ++ [jkey "embed_size" (jnat e), jkey "min_frequency" (jnat m)] ++
        jopt "highway_layer" .bool hw)).get "min_frequency".toList = .ok (jnat m) := by
      refine get_obj _ _ _ ?_
      simp (disch := decide) only [assocGet_app, segmenter_entries, assocGet_jkey, assocGet_jkey_ne, assocGet_jopt_ne,
        Option.none_or, Option.or_none]
    have h5 : segmenterOf w (.obj (s'.entries ++ [jkey "min_frequency" (jnat m'), jkey "max_word_length" (jnat n)])) =
        s'.segmenter w := segmenter_doc w s' _ (by rfl)
    have h6 : segmenterOf w (.obj (s.entries ++ [jkey "embed_size" (jnat e), jkey "min_frequency" (jnat m)] ++
        jopt "highway_layer" .bool hw)) = s.segmenter w := by
      rw [List.append_assoc]
      refine segmenter_doc w s _ ?_
      simp (disch := decide) only [assocGet_app, assocGet_jkey_ne, assocGet_jopt_ne, assocGet_nil, Option.or_none]
    rw [hc]
    unfold lemmaCharsProvider subwordProvider
    rw [h1, h2, h3, h4, h5, h6]
    simp only [okBindL, jnat_atLeast, jnat_size, Bool.false_eq_true, if_false, TaskDoc.providers]
    cases s'.segmenter w with
    | error e => rfl
    | ok a =>
      cases s.segmenter w with
      | error e => rfl
      | ok b => rfl

theorem task_doc (t : TaskDoc) : taskRead shapes t.toJson = t.net shapes := by
  cases t with
  | pos d s =>
    have hc : taskRead shapes (TaskDoc.pos d s).toJson =
      denseRead shapes (.obj (d.entries ++ [jkey "splitting" (splittingText s)])) .posDense := by rfl
    rw [hc, dense_doc]
    rfl
  | lemmaDense d =>
    have hc : taskRead shapes (TaskDoc.lemmaDense d).toJson =
      denseRead shapes (.obj (d.entries ++ [])) .lemmaDense := by rfl
    rw [hc, dense_doc]
    rfl
  | lemmaSuffix d n =>
    have hc : taskRead shapes (TaskDoc.lemmaSuffix d n).toJson =
      denseRead shapes (.obj (d.entries ++ [])) .lemmaSuffix := by rfl
    rw [hc, dense_doc]
    rfl
  | lemmaCombo x ks s e m hw s' m' n =>
    have hc : taskRead shapes (TaskDoc.lemmaCombo x ks s e m hw s' m' n).toJson =
      comboRead (.obj [jkey "shared_name" (.str x.sharedName), jkey "cnn_bilstm_dense_size" (jnat x.size),
        jkey "cnn_kernels" (kernelsJson ks), jkey "loss_weights" (weightsJson x.weights)])
      (.obj
        [jkey "input_subwords" (.obj (s.entries ++ [jkey "embed_size" (jnat e), jkey "min_frequency" (jnat m)] ++
          jopt "highway_layer" .bool hw)),
         jkey "output_subwords" (.obj (s'.entries ++
          [jkey "min_frequency" (jnat m'), jkey "max_word_length" (jnat n)]))]) := by rfl
    have h0 : weightsOf (.obj [jkey "shared_name" (.str x.sharedName), jkey "cnn_bilstm_dense_size" (jnat x.size),
        jkey "cnn_kernels" (kernelsJson ks), jkey "loss_weights" (weightsJson x.weights)]) = .ok (some x.weights) :=
      weightsOf_doc _ _ (by rfl)
    have h1 : (JV.obj [jkey "shared_name" (.str x.sharedName), jkey "cnn_bilstm_dense_size" (jnat x.size),
        jkey "cnn_kernels" (kernelsJson ks), jkey "loss_weights" (weightsJson x.weights)]).get "shared_name".toList =
        .ok (.str x.sharedName) := by rfl
    have h2 : (JV.obj [jkey "shared_name" (.str x.sharedName), jkey "cnn_bilstm_dense_size" (jnat x.size),
        jkey "cnn_kernels" (kernelsJson ks), jkey "loss_weights" (weightsJson x.weights)]).get
        "cnn_bilstm_dense_size".toList = .ok (jnat x.size) := by rfl
    have h2' : (JV.obj [jkey "shared_name" (.str x.sharedName), jkey "cnn_bilstm_dense_size" (jnat x.size),
        jkey "cnn_kernels" (kernelsJson ks), jkey "loss_weights" (weightsJson x.weights)]).get
        "cnn_kernels".toList = .ok (kernelsJson ks) := by rfl
    have h3 : (JV.obj (s.entries ++ [jkey "embed_size" (jnat e), jkey "min_frequency" (jnat m)] ++
        jopt "highway_layer" .bool hw)).has "embedding_path".toList = .ok false := by
      rw [has_obj]
      simp (disch := decide) only [assocGet_app, segmenter_entries, assocGet_jkey_ne, assocGet_jopt_ne, assocGet_nil,
        Option.or_none, Option.isSome_none]
    have h4 : (JV.obj (s.entries ++ [jkey "embed_size" (jnat e), jkey "min_frequency" (jnat m)] ++
        jopt "highway_layer" .bool hw)).getD "highway_layer".toList (.bool false) = .ok (.bool (hw.getD false)) := by
      rw [getD_obj]
      simp (disch := decide) only [assocGet_app, segmenter_entries, assocGet_jkey_ne, assocGet_jopt, assocGet_nil,
        Option.none_or]
      cases hw <;> rfl
    have h5 : (JV.obj (s.entries ++ [jkey "embed_size" (jnat e), jkey "min_frequency" (jnat m)] ++
        jopt "highway_layer" .bool hw)).get "embed_size".toList = .ok (jnat e) := by
      refine get_obj _ _ _ ?_
      simp (disch := decide) only [assocGet_app, segmenter_entries, assocGet_jkey, assocGet_jopt_ne, Option.none_or,
        Option.or_none]
    have h6 : (JV.obj
        [jkey "input_subwords" (.obj (s.entries ++ [jkey "embed_size" (jnat e), jkey "min_frequency" (jnat m)] ++
          jopt "highway_layer" .bool hw)),
         jkey "output_subwords" (.obj (s'.entries ++
          [jkey "min_frequency" (jnat m'), jkey "max_word_length" (jnat n)]))]).get "input_subwords".toList =
        .ok (.obj (s.entries ++ [jkey "embed_size" (jnat e), jkey "min_frequency" (jnat m)] ++
          jopt "highway_layer" .bool hw)) := by rfl
    rw [hc]
    unfold comboRead
    simp only [h0, h1, h2, h2', h3, h4, h5, h6, okBindL, JV.key, jnat_size, kernels_doc, JV.truthy]
    rfl

end

/-! ### The whole of it -/

section
variable (d : HyperDoc)

def nnJson : JV := .obj ([
      jkey "general" (.obj [jkey "optimizer" (.obj [jkey "type" d.optimizer.toJson,
        jkey "lr_decrease_factor" (.num d.factor), jkey "initial_lr" (.num d.initialLr),
        jkey "lr_decay" (.num d.decay)])]),
      jkey "shared_part" d.shared.toJson] ++ d.tasks.map (fun t => (t.1, t.2.toJson)))

theorem nn_doc : hyperNN d.toJson = .ok (nnJson d) := by rfl
theorem hyper_shared_doc : hyperShared d.toJson = .ok d.shared.toJson := by rfl
theorem hyper_features_doc : hyperSharedFeatures d.toJson = .ok d.shared.features.toJson := by rfl

theorem assocGet_tasks (l : List (Str × TaskDoc)) (h : (l.map Prod.fst).Nodup) (t : Str × TaskDoc) (ht : t ∈ l) :
    assocGet t.1 (l.map (fun t => (t.1, t.2.toJson))) = some t.2.toJson := by
  induction l with
  | nil => cases ht
  | cons x xs ih =>
    rw [List.map_cons, List.nodup_cons] at h
    simp only [List.map_cons, assocGet]
    rcases List.mem_cons.mp ht with rfl | ht
    · rw [if_pos rfl]
    · rw [if_neg, ih h.2 ht]
      intro he
      exact h.1 (he ▸ List.mem_map.mpr ⟨t, ht, rfl⟩)

theorem assocGet_two {a b : Str × JV} {k : Str} {l : List (Str × JV)} (h1 : k ≠ a.1) (h2 : k ≠ b.1) :
    assocGet k ([a, b] ++ l) = assocGet k l := by
  obtain ⟨a, x⟩ := a
  obtain ⟨b, y⟩ := b
  simp only [List.cons_append, List.nil_append, assocGet, if_neg h1.symm, if_neg h2.symm]

theorem task_get (h1 : (d.tasks.map Prod.fst).Nodup) (t : Str × TaskDoc) (ht : t ∈ d.tasks)
    (h2 : t.1 ≠ "general".toList ∧ t.1 ≠ "shared_part".toList) :
    hyperTask (nnJson d) (.str t.1) = .ok t.2.toJson := by
  unfold hyperTask
  rw [JV.key, okBindL]
  exact get_obj _ _ _ ((assocGet_two h2.1 h2.2).trans (assocGet_tasks _ h1 t ht))

theorem tasks_doc (h1 : (d.tasks.map Prod.fst).Nodup)
    (h2 : ∀ t ∈ d.tasks, t.1 ≠ "general".toList ∧ t.1 ≠ "shared_part".toList) :
    hyperTasks d.toJson = .ok (d.tasks.map (fun t => t.2.toJson)) := by
  have ht : d.toJson.get "tasks".toList = .ok (.arr (d.tasks.map (fun t => .str t.1))) := by rfl
  unfold hyperTasks
  rw [nn_doc, ht]
  simp only [okBindL, JV.iter]
  rw [mapM'_ok_iff, List.forall₂_map_left_iff, List.forall₂_map_right_iff, List.forall₂_same]
  intro t ht
  exact task_get d h1 t ht (h2 t ht)

theorem checkEach_doc (l : List TaskDoc) (h : ∀ t ∈ l, t.Weighted) : checkEach (l.map TaskDoc.toJson) = .ok () := by
  induction l with
  | nil => rfl
  | cons t ts ih =>
    simp only [List.map_cons, checkEach, task_check_doc t (h t List.mem_cons_self), okBindL]
    exact ih (fun x hx => h x (List.mem_cons_of_mem _ hx))

theorem construct_doc (h : d.Fine) : hyperConstruct d.toJson = .ok (d.shared.sparse.getD 0) := by
  have ho : ∃ o, hyperOptimizer d.toJson = .ok o := ⟨_, rfl⟩
  obtain ⟨o, ho⟩ := ho
  have he : checkEach (d.tasks.map (fun t => t.2.toJson)) = .ok () := by
    have := checkEach_doc (d.tasks.map Prod.snd) (by
      intro t ht
      obtain ⟨x, hx, rfl⟩ := List.mem_map.mp ht
      exact h.weight x hx)
    rwa [List.map_map] at this
  unfold hyperConstruct
  simp only [tasks_doc d h.names h.other, hyper_shared_doc, okBindL, shared_check, he, ho, shared_config_doc,
    arch_sparse]
  rfl

theorem mapM'_doc {α β γ : Type} (f : β → Res γ) (g : α → β) (k : α → Res γ) (l : List α)
    (h : ∀ a ∈ l, f (g a) = k a) : mapM' f (l.map g) = mapM' k l := by
  induction l with
  | nil => rfl
  | cons a l ih =>
    rw [List.map_cons, mapM', mapM', h a List.mem_cons_self, ih (fun x hx => h x (List.mem_cons_of_mem _ hx))]

theorem providers_doc (w : Outside) (h : d.Fine) : hyperProviders w d.toJson = d.providers w := by
  unfold hyperProviders HyperDoc.providers
  rw [hyper_features_doc, tasks_doc d h.names h.other]
  simp only [okBindL, features_providers_doc]
  rw [mapM'_doc _ _ (fun t => t.2.providers w) _ (fun t _ => task_providers_doc w t.2)]
  rfl

theorem net_doc (shapes : Dict Str Shape) (h : d.Fine) : hyperNet shapes d.toJson = d.net shapes := by
  have ho : ∃ o, hyperOptimizer d.toJson = .ok o ∧ optimizerName o = .ok (some d.optimizer.text) := by
    refine ⟨_, rfl, ?_⟩
    cases d.optimizer <;> rfl
  obtain ⟨o, ho, hn⟩ := ho
  unfold hyperNet HyperDoc.net
  rw [hyper_shared_doc, hyper_features_doc, tasks_doc d h.names h.other, ho]
  simp only [okBindL, shared_builder_doc, shared_config_doc, name_doc, kind_doc,
    features_doc _ shapes h.chars h.bpe h.morfessor, hn]
  rw [mapM'_doc _ _ (fun t => t.2.net shapes) _ (fun t _ => task_doc shapes t.2)]

theorem keys_doc : hyperKeys d.toJson = ⟨.ok d.decay, .ok d.dropout, .ok (d.batchSize : Int), .ok d.factor⟩ := by
  have h1 : (hyperKeys d.toJson).decay = .ok d.decay := by rfl
  have h2 : (hyperKeys d.toJson).dropout = .ok d.dropout := by rfl
  have h3 : (hyperKeys d.toJson).batchSize = (jnat d.batchSize).atLeast := by rfl
  have h4 : (hyperKeys d.toJson).factor = .ok d.factor := by rfl
  rw [jnat_atLeast] at h3
  rw [← h1, ← h2, ← h3, ← h4]

theorem loop_doc {μ σ : Type} (train : Rat → μ → List σ → Rat → Res (μ × Rat)) (decay dropout factor lr : Rat)
    (batch epochs : Int) (dir : List Str) (sents : Nat → List σ)
    (dev : Option (Nat → List Str × μ → Res ScoreTable)) (init : μ) :
    trainLoopKeys train ⟨.ok decay, .ok dropout, .ok batch, .ok factor⟩ lr epochs dir sents dev init =
    trainLoop (train dropout) ⟨lr, decay, factor, epochs, batch⟩ dir sents dev init := by
  have : trainStepKeys train ⟨.ok decay, .ok dropout, .ok batch, .ok factor⟩ dir sents dev =
      trainStep (train dropout) ⟨lr, decay, factor, epochs, batch⟩ dir sents dev := by
    funext st n
    rfl
  unfold trainLoopKeys trainLoop
  rw [this]

end

end Verif
