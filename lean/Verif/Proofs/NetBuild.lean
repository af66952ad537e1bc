import Verif.Proofs.Network2

/-!
# Which network configurations can be built
-/

namespace Verif

/-- New variables: different from each other and from those there are. -/
def Fresh (vars new : List VarName) : Prop := new.Nodup ∧ ∀ v ∈ new, v ∉ vars

theorem fresh_append {vars n m : List VarName} :
    Fresh vars (n ++ m) ↔ Fresh vars n ∧ Fresh (vars ++ n) m := by
  unfold Fresh
  rw [List.nodup_append]
  constructor
  · rintro ⟨⟨h1, h2, h3⟩, h4⟩
    refine ⟨⟨h1, fun v hv => h4 v (by simp [hv])⟩, h2, fun v hv hm => ?_⟩
    rcases List.mem_append.mp hm with hm | hm
    · exact h4 v (by simp [hv]) hm
    · exact h3 v hm v hv rfl
  · rintro ⟨⟨h1, h2⟩, h3, h4⟩
    refine ⟨⟨h1, h3, fun a ha b hb e => ?_⟩, fun v hv hm => ?_⟩
    · subst e
      exact h4 a hb (by simp [ha])
    · rcases List.mem_append.mp hv with hv | hv
      · exact h2 v hv hm
      · exact h4 v hv (by simp [hm])

/-- A step of building succeeds exactly under a condition if its variables are new; then it gives this
value. -/
def Builds {α : Type} (f : Build α) (c : Prop) (a : α) (new : List VarName) : Prop :=
  ∀ vars r, f vars = .ok r ↔ c ∧ Fresh vars new ∧ r = (a, vars ++ new)

theorem Builds.pure {α : Type} (a : α) : Builds (Pure.pure a) True a [] := by
  intro vars r
  show (Except.ok (a, vars) : Except Err _) = .ok r ↔ _
  simp [Fresh]
  exact eq_comm

theorem Builds.fail {α : Type} (e : Err) (a : α) (new : List VarName) : Builds (Build.fail e) False a new := by
  intro vars r
  simp [Build.fail]

theorem Builds.require (p : Prop) [Decidable p] (e : Err) : Builds (Build.require p e) p () [] := by
  intro vars r
  unfold Build.require
  split
  · rename_i h
    simp [Fresh, h]
    exact eq_comm
  · rename_i h
    simp [h]

theorem Builds.newVar (v : VarName) : Builds (newVar v) True () [v] := by
  intro vars r
  unfold Verif.newVar
  split
  · rename_i h
    simp [Fresh, h]
  · rename_i h
    simp [Fresh, h]
    exact eq_comm

theorem Builds.bind {α β : Type} {f : Build α} {g : α → Build β} {c c' : Prop} {a : α} {b : β}
    {n m : List VarName} (hf : Builds f c a n) (hg : c → Builds (g a) c' b m) :
    Builds (f >>= g) (c ∧ c') b (n ++ m) := by
  intro vars r
  have h0 : (f >>= g) vars = (match f vars with
      | .error e => .error e
      | .ok r => g r.1 r.2 : Except Err _) := by
    show Except.bind (f vars) _ = _
    cases f vars <;> rfl
  rw [h0, fresh_append]
  cases hfv : f vars with
  | error e =>
    constructor
    · intro h
      cases h
    · rintro ⟨⟨h1, _⟩, ⟨h2, _⟩, _⟩
      have := (hf vars (a, vars ++ n)).mpr ⟨h1, h2, rfl⟩
      rw [hfv] at this
      cases this
  | ok x =>
    obtain ⟨h1, h2, rfl⟩ := (hf vars x).mp hfv
    simp only
    rw [hg h1 (vars ++ n) r, List.append_assoc]
    tauto

/-- Changing how condition, value and variables are written. -/
theorem Builds.of {α : Type} {f : Build α} {c c' : Prop} {a a' : α} {n n' : List VarName}
    (h : Builds f c a n) (hc : c ↔ c') (ha : c' → a = a') (hn : c' → n = n') : Builds f c' a' n' := by
  intro vars r
  rw [h vars r, hc]
  constructor
  · rintro ⟨h1, h2, h3⟩
    rw [ha h1, hn h1] at h3
    rw [hn h1] at h2
    exact ⟨h1, h2, h3⟩
  · rintro ⟨h1, h2, h3⟩
    rw [← ha h1, ← hn h1] at h3
    rw [← hn h1] at h2
    exact ⟨h1, h2, h3⟩

theorem embeddingLayer_builds (name : Str) (size : Nat) :
    Builds (embeddingLayer name size) (size ≠ 0) () [.layer name] :=
  ((Builds.require _ _).bind (fun _ => Builds.newVar _)).of (by simp) (fun _ => rfl) (fun _ => rfl)

/-- The variables of convolution layers. -/
def kernelVars (scope : Str) : Nat → List Kernel → List VarName
  | _, [] => []
  | i, k :: ks => .kernel scope i k :: kernelVars scope (i + 1) ks

theorem convLayers_builds (scope : Str) (i : Nat) (ks : List Kernel) :
    Builds (convLayers scope i ks) True () (kernelVars scope i ks) := by
  induction ks generalizing i with
  | nil => exact Builds.pure ()
  | cons k ks ih =>
    exact ((Builds.newVar _).bind (fun _ => ih (i + 1))).of (by simp) (fun _ => rfl) (fun _ => rfl)

def rnnVars (scope : Str) : Nat → Nat → List VarName
  | _, 0 => []
  | i, n + 1 => .rnn scope i :: rnnVars scope (i + 1) n

theorem rnnLayers_builds (scope : Str) (i n : Nat) :
    Builds (rnnLayers scope i n) True () (rnnVars scope i n) := by
  induction n generalizing i with
  | zero => exact Builds.pure ()
  | succ n ih =>
    exact ((Builds.newVar _).bind (fun _ => ih (i + 1))).of (by simp) (fun _ => rfl) (fun _ => rfl)

def Aggregator.vars (feature : Str) : Aggregator → List VarName
  | .rnn _ layers => rnnVars feature 0 layers
  | .cnn ks => kernelVars (feature ++ "_cnn".toList) 0 ks
  | _ => []

def Aggregator.Ok : Aggregator → Prop
  | .cnn ks => ks ≠ []
  | .other => False
  | _ => True

theorem aggregator_builds (feature : Str) (a : Aggregator) : Builds (a.build feature) a.Ok () (a.vars feature) := by
  cases a with
  | rnn cell layers => exact rnnLayers_builds _ _ _
  | cnn ks =>
    exact ((convLayers_builds _ 0 ks).bind (fun _ => Builds.require _ _)).of (by simp [Aggregator.Ok])
      (fun _ => rfl) (fun _ => by simp [Aggregator.vars])
  | average => exact Builds.pure ()
  | selfAttention => exact Builds.pure ()
  | other => exact Builds.fail _ _ _

def SubwordCfg.vars (feature : Str) (c : SubwordCfg) : List VarName :=
  .layer feature :: (c.agg.vars feature ++
    (if c.highway then [.layer (feature ++ "_dense_highway".toList)] else []))

theorem convSize_eq (n : Nat) (ks : List Kernel) : convSize n ks = afterLayers n ks := by
  unfold convSize afterLayers
  induction ks generalizing n with
  | nil => rfl
  | cons k ks ih =>
    rw [List.foldl_cons, ← ih]
    cases ks with
    | nil => rfl
    | cons k' ks => rw [List.getLast?_cons_cons]; cases h : (k' :: ks).getLast? with
      | none => simp at h
      | some x => rfl

theorem agg_size (c : SubwordCfg) : c.agg.size c.size = c.vectors := by
  obtain ⟨size, pre, agg, hw⟩ := c
  cases agg with
  | rnn cell layers =>
    cases layers with
    | zero => rfl
    | succ n => simp [Aggregator.size, SubwordCfg.vectors]; omega
  | cnn ks => exact convSize_eq _ _
  | average => rfl
  | selfAttention => rfl
  | other => rfl

theorem subword_builds (feature : Str) (c : SubwordCfg) :
    Builds (c.build feature) c.Ok c.vectors (c.vars feature) := by
  have h3 : Builds (highwayLayer feature c.highway)
      True () (if c.highway then [.layer (feature ++ "_dense_highway".toList)] else []) := by
    unfold highwayLayer
    split
    · exact Builds.newVar _
    · exact Builds.pure ()
  refine ((embeddingLayer_builds feature c.size).bind (fun _ => (aggregator_builds feature c.agg).bind (fun _ =>
    h3.bind (fun _ => Builds.pure (c.agg.size c.size))))).of ?_ (fun _ => agg_size c) (fun _ => ?_)
  · simp only [true_and, and_true]
    unfold SubwordCfg.Ok Aggregator.Ok
    cases c.agg <;> simp
  · rw [List.append_nil]
    rfl

def WordCfg.vars (c : WordCfg) : List VarName :=
  .layer "word_embeddings".toList :: (if c.dense.isSome then [.layer "we_dense_layer".toList] else [])

theorem word_builds (c : WordCfg) : Builds c.build (c.size ≠ 0) (c.dense.getD c.size) c.vars := by
  unfold WordCfg.build WordCfg.vars
  cases c.dense with
  | none =>
    exact ((embeddingLayer_builds _ c.size).bind (fun _ => Builds.pure c.size)).of (by simp) (fun _ => rfl)
      (fun _ => rfl)
  | some n =>
    exact ((embeddingLayer_builds _ c.size).bind (fun _ => (Builds.newVar _).bind (fun _ => Builds.pure n))).of
      (by simp) (fun _ => rfl) (fun _ => rfl)

theorem trained_builds (n : Nat) : Builds (buildTrained n) (n ≠ 0) n [.layer "trained_words".toList] :=
  ((embeddingLayer_builds _ n).bind (fun _ => Builds.pure n)).of (by simp) (fun _ => rfl) (fun _ => rfl)

def optVars {κ : Type} (f : κ → List VarName) : Option κ → List VarName
  | none => []
  | some c => f c

def optSized {κ : Type} (name : Str) (f : κ → Nat) : Option κ → List (Str × Nat)
  | none => []
  | some c => [(name, f c)]

theorem optFeature_builds {κ : Type} {name : Str} {build : κ → Build Nat} {ok : κ → Prop} {size : κ → Nat}
    {vars : κ → List VarName} (h : ∀ c, Builds (build c) (ok c) (size c) (vars c)) (o : Option κ) :
    Builds (optFeature name build o) (∀ c, o = some c → ok c) (optSized name size o) (optVars vars o) := by
  cases o with
  | none =>
    exact (Builds.pure []).of (by simp) (fun _ => rfl) (fun _ => rfl)
  | some c =>
    exact ((h c).bind (fun _ => Builds.pure [(name, size c)])).of (by simp) (fun _ => rfl)
      (fun _ => by simp [optVars])

/-- The features of the shared part with their sizes. -/
def SharedCfg.sized (c : SharedCfg) : List (Str × Nat) :=
  optSized "word_embedding".toList (fun w => w.dense.getD w.size) c.word ++
  optSized "trained_embedding".toList id c.trained ++
  optSized "characters".toList SubwordCfg.vectors c.chars ++
  optSized "bpe_subwords".toList SubwordCfg.vectors c.bpe ++
  optSized "morfessor_subwords".toList SubwordCfg.vectors c.morfessor

def SharedCfg.vars (c : SharedCfg) : List VarName :=
  optVars WordCfg.vars c.word ++
  (optVars (fun _ => [.layer "trained_words".toList]) c.trained ++
  (optVars (SubwordCfg.vars "characters".toList) c.chars ++
  (optVars (SubwordCfg.vars "bpe_subwords".toList) c.bpe ++
  optVars (SubwordCfg.vars "morfessor_subwords".toList) c.morfessor)))

def SharedCfg.results (c : SharedCfg) : List (Str × Option Nat) :=
  c.sized.map (fun p => (p.1, some p.2)) ++
    [("word_features".toList, some (c.sized.map Prod.snd).sum),
     ("sentence_mask".toList, none), ("sentence_norm".toList, none)]

theorem sized_nil (c : SharedCfg) : c.sized ≠ [] ↔
    (c.word.isSome ∨ c.trained.isSome ∨ c.chars.isSome ∨ c.bpe.isSome ∨ c.morfessor.isSome) := by
  obtain ⟨w, t, x, b, m⟩ := c
  unfold SharedCfg.sized
  cases w <;> cases t <;> cases x <;> cases b <;> cases m <;> simp [optSized]

theorem sized_sizes (c : SharedCfg) : c.sized.map Prod.snd = c.sizes := by
  obtain ⟨w, t, x, b, m⟩ := c
  unfold SharedCfg.sized SharedCfg.sizes
  cases w <;> cases t <;> cases x <;> cases b <;> cases m <;> simp [optSized, optSize]

theorem shared_builds (c : SharedCfg) : Builds c.build c.Ok (c.results, c.sizes.sum) c.vars := by
  refine ((optFeature_builds word_builds c.word).bind (fun _ =>
    (optFeature_builds trained_builds c.trained).bind (fun _ =>
    (optFeature_builds (subword_builds _) c.chars).bind (fun _ =>
    (optFeature_builds (subword_builds _) c.bpe).bind (fun _ =>
    (optFeature_builds (subword_builds _) c.morfessor).bind (fun _ =>
    (Builds.require (c.sized ≠ []) .value).bind (fun _ => Builds.pure (c.results, (c.sized.map Prod.snd).sum)))))))).of
    ?_ (fun _ => ?_) (fun _ => ?_)
  · rw [sized_nil]
    constructor
    · rintro ⟨h1, h2, h3, h4, h5, h6, _⟩
      exact ⟨h6, h1, h2, h3, h4, h5⟩
    · rintro ⟨h6, h1, h2, h3, h4, h5⟩
      exact ⟨h1, h2, h3, h4, h5, h6, trivial⟩
  · rw [sized_sizes]
  · simp [SharedCfg.vars]

theorem skip_builds (name : Str) (n total : Nat) (skip : Option Str) :
    ∃ m, Builds (skipConnection name n total skip) (SkipOk n total skip)
      (if skip.isSome then [(name ++ "_and_word_features".toList, some m)] else []) [] := by
  cases skip with
  | none => exact ⟨0, (Builds.pure []).of (by simp [SkipOk]) (fun _ => rfl) (fun _ => rfl)⟩
  | some s =>
    have hne : "sum".toList ≠ "concat".toList := by decide
    simp only [skipConnection]
    by_cases h1 : s = "sum".toList
    · refine ⟨n, ?_⟩
      rw [if_pos h1]
      refine ((Builds.require (n = total) .value).bind (fun _ =>
        Builds.pure [(name ++ "_and_word_features".toList, some n)])).of ?_ (fun _ => rfl) (fun _ => rfl)
      simp only [SkipOk, and_true, Option.some.injEq]
      constructor
      · rintro h _ rfl
        exact Or.inr ⟨h1, h⟩
      · intro h
        rcases h s rfl with h | h
        · exact absurd (h1.symm.trans h) hne
        · exact h.2
    · rw [if_neg h1]
      by_cases h2 : s = "concat".toList
      · refine ⟨n + total, ?_⟩
        rw [if_pos h2]
        refine (Builds.pure _).of ?_ (fun _ => rfl) (fun _ => rfl)
        simp only [SkipOk, Option.some.injEq, true_iff]
        rintro _ rfl
        exact Or.inl h2
      · refine ⟨0, ?_⟩
        rw [if_neg h2]
        refine (Builds.fail .value _ _).of ?_ (fun _ => rfl) (fun _ => rfl)
        simp only [SkipOk, Option.some.injEq, false_iff]
        intro h
        rcases h s rfl with h | h
        · exact h2 h
        · exact h1 h.1

theorem bilstm_builds (cell : Nat) (layers : Int) (skip : Option Str) (total : Nat) :
    ∃ m, Builds (bilstmPart cell layers skip total) (0 < layers ∧ SkipOk (2 * cell) total skip)
      (("bilstm".toList, some (2 * cell)) ::
        (if skip.isSome then [("bilstm_and_word_features".toList, some m)] else []))
      (rnnVars [] 0 layers.toNat) := by
  obtain ⟨m, hm⟩ := skip_builds "bilstm".toList (2 * cell) total skip
  refine ⟨m, ((Builds.require _ _).bind (fun _ => (rnnLayers_builds _ _ _).bind (fun _ =>
    hm.bind (fun _ => Builds.pure (("bilstm".toList, some (2 * cell)) :: _))))).of ?_ (fun _ => rfl) (fun _ => ?_)⟩
  · simp
  · simp

/-- The variables of the shared layers. -/
def SharedKind.vars : SharedKind → List VarName
  | .words => []
  | .bilstm _ layers _ => rnnVars [] 0 layers.toNat
  | .bilstmCnn _ layers _ ks => rnnVars [] 0 layers.toNat ++ kernelVars "cnn_kernel".toList 0 ks
  | .dilatedCnn none _ => []
  | .dilatedCnn (some ks) _ => kernelVars "dilated_cnn".toList 0 ks

/-- What the kind of the shared part adds. -/
def SharedKind.names : SharedKind → List Str
  | .words => []
  | .bilstm _ _ skip => "bilstm".toList ::
      (if skip.isSome then ["bilstm_and_word_features".toList] else [])
  | .bilstmCnn _ _ skip _ => "bilstm".toList ::
      (if skip.isSome then ["bilstm_and_word_features".toList] else []) ++ ["bilstm_cnn".toList]
  | .dilatedCnn _ skip => "dilated_cnn".toList ::
      (if skip.isSome then ["dilated_cnn_and_word_features".toList] else [])

theorem kind_builds (k : SharedKind) (c : SharedCfg) :
    ∃ l : List (Str × Nat), l.map Prod.fst = k.names ∧
      Builds (k.build c) (c.Ok ∧ k.Ok c) (c.results ++ l.map (fun p => (p.1, some p.2))) (c.vars ++ k.vars) := by
  cases k with
  | words =>
    refine ⟨[], rfl, ((shared_builds c).bind (fun _ => Builds.pure c.results)).of ?_ (fun _ => ?_) (fun _ => rfl)⟩
    · simp [SharedKind.Ok]
    · simp
  | bilstm cell layers skip =>
    obtain ⟨m, hm⟩ := bilstm_builds cell layers skip c.sizes.sum
    refine ⟨("bilstm".toList, 2 * cell) ::
        (if skip.isSome then [("bilstm_and_word_features".toList, m)] else []), ?_,
      ((shared_builds c).bind (fun _ => hm.bind (fun _ => Builds.pure (c.results ++ _)))).of ?_ (fun _ => ?_) (fun _ => ?_)⟩
    · cases skip <;> rfl
    · simp [SharedKind.Ok]
    · cases skip <;> rfl
    · simp [SharedKind.vars]
  | bilstmCnn cell layers skip ks =>
    obtain ⟨m, hm⟩ := bilstm_builds cell layers skip c.sizes.sum
    refine ⟨("bilstm".toList, 2 * cell) ::
        (if skip.isSome then [("bilstm_and_word_features".toList, m)] else []) ++
          [("bilstm_cnn".toList, convSize 0 ks)], ?_,
      ((shared_builds c).bind (fun _ => hm.bind (fun _ => (convLayers_builds _ 0 ks).bind (fun _ =>
        (Builds.require (ks ≠ []) .index).bind (fun _ => Builds.pure (c.results ++ _ ++ [("bilstm_cnn".toList, some (convSize 0 ks))])))))).of
        ?_ (fun _ => ?_) (fun _ => ?_)⟩
    · cases skip <;> rfl
    · simp only [SharedKind.Ok, true_and, and_true, and_assoc]
    · cases skip <;> simp
    · simp [SharedKind.vars]
  | dilatedCnn o skip =>
    cases o with
    | none =>
      refine ⟨("dilated_cnn".toList, 0) ::
          (if skip.isSome then [("dilated_cnn_and_word_features".toList, 0)] else []), ?_,
        ((shared_builds c).bind (fun _ => Builds.fail _ (c.results ++ _) [])).of ?_ (fun _ => rfl) (fun _ => rfl)⟩
      · cases skip <;> rfl
      · simp [SharedKind.Ok]
    | some ks =>
      obtain ⟨m, hm⟩ := skip_builds "dilated_cnn".toList (convSize 0 ks) c.sizes.sum skip
      refine ⟨("dilated_cnn".toList, convSize 0 ks) ::
          (if skip.isSome then [("dilated_cnn_and_word_features".toList, m)] else []), ?_,
        ((shared_builds c).bind (fun _ => (convLayers_builds _ 0 ks).bind (fun _ =>
          (Builds.require (ks ≠ []) .index).bind (fun _ => hm.bind (fun _ =>
            Builds.pure (c.results ++ ("dilated_cnn".toList, some (convSize 0 ks)) :: _)))))).of
          ?_ (fun _ => ?_) (fun _ => ?_)⟩
      · cases skip <;> rfl
      · simp only [SharedKind.Ok, true_and, and_true, convSize_eq]
      · cases skip <;> rfl
      · simp [SharedKind.vars]

/-! ### Tasks -/

theorem each_builds {κ : Type} {f : κ → Build Unit} {ok : κ → Prop} {vars : κ → List VarName}
    (l : List κ) (h : ∀ t ∈ l, Builds (f t) (ok t) () (vars t)) :
    Builds (Build.each f l) (∀ t ∈ l, ok t) () (l.flatMap vars) := by
  induction l with
  | nil => exact (Builds.pure ()).of (by simp) (fun _ => rfl) (fun _ => rfl)
  | cons t l ih =>
    exact ((h t (by simp)).bind (fun _ => ih (fun t ht => h t (by simp [ht])))).of (by simp) (fun _ => rfl)
      (fun _ => by rw [List.flatMap_cons])

/-- The weight of the character task. -/
def TaskCfg.ConstructOk (t : TaskCfg) : Prop :=
  t.task = .lemmaCombo → ∃ ws, t.weights = some ws ∧ "LEMMA".toList ∈ ws

theorem construct_builds (t : TaskCfg) : Builds t.construct t.ConstructOk () [] := by
  unfold TaskCfg.construct TaskCfg.ConstructOk
  split
  · rename_i h1 h2
    exact (Builds.fail _ _ _).of (by simp [h1, h2]) (fun _ => rfl) (fun _ => rfl)
  · rename_i ws h1 h2
    exact (Builds.require _ _).of (by simp only [h1, h2, true_implies, Option.some.injEq, exists_eq_left'])
      (fun _ => rfl) (fun _ => rfl)
  · rename_i h1 h2
    refine (Builds.pure ()).of ?_ (fun _ => rfl) (fun _ => rfl)
    simp only [true_iff]
    intro h
    cases hw : t.weights with
    | none => exact absurd hw (h1 h)
    | some ws => exact absurd hw (h2 ws h)

/-- The layer is a vector. -/
def Vector' (shared : List (Str × Option Nat)) (name : Str) : Prop := ∃ n, assocGet name shared = some (some n)

theorem readShared_builds (shared : List (Str × Option Nat)) (name : Str) :
    Builds (readShared shared name) (Vector' shared name) () [] := by
  unfold readShared Vector'
  split
  · rename_i h
    exact (Builds.fail _ _ _).of (by simp [h]) (fun _ => rfl) (fun _ => rfl)
  · rename_i h
    exact (Builds.fail _ _ _).of (by simp [h]) (fun _ => rfl) (fun _ => rfl)
  · rename_i h
    exact (Builds.pure ()).of (by simp [h]) (fun _ => rfl) (fun _ => rfl)

def slotVars (label : Str) : Nat → List Str → List VarName
  | _, [] => []
  | i, _ :: slots => .scoped i ("dense_".toList ++ label) :: .scoped i ("logits_".toList ++ label) ::
      slotVars label (i + 1) slots

theorem denseSlots_builds (shared : List (Str × Option Nat)) (t : TaskCfg) (i : Nat) (slots : List Str) :
    Builds (denseSlots shared t i slots) (slots ≠ [] → Vector' shared t.sharedName) ()
      (slotVars t.task.label i slots) := by
  induction slots generalizing i with
  | nil => exact (Builds.pure ()).of (by simp) (fun _ => rfl) (fun _ => rfl)
  | cons s slots ih =>
    refine ((readShared_builds shared t.sharedName).bind (fun _ => (Builds.newVar _).bind (fun _ =>
      (Builds.newVar _).bind (fun _ => ih (i + 1))))).of ?_ (fun _ => rfl) (fun _ => rfl)
    simp only [true_and, ne_eq, reduceCtorEq, not_false_eq_true, true_implies]
    tauto

theorem sumLosses_builds (slots : List Str) (w : Option (List Str)) :
    Builds (sumLosses slots w) (∃ ws, w = some ws ∧ ∀ s ∈ slots, s ∈ ws ∨ "default".toList ∈ ws) () [] := by
  cases w with
  | none => exact (Builds.fail _ _ _).of (by simp) (fun _ => rfl) (fun _ => rfl)
  | some ws =>
    exact (Builds.require _ _).of (by simp only [Option.some.injEq, exists_eq_left']) (fun _ => rfl) (fun _ => rfl)

/-- The variables of a task. -/
def TaskCfg.vars (t : TaskCfg) : List VarName :=
  match t.task with
  | .lemmaCombo => .layer "input_subwords_e".toList :: .layer "dense_cnn".toList ::
      (kernelVars "cnn_kernel".toList 0 t.kernels ++ [.layer "output_subwords".toList])
  | .lemmaBinary => []
  | _ => slotVars t.task.label 0 t.slots

/-- The conditions of a task, given the shared layers. -/
def TaskCfg.BuildOk (shared : List (Str × Option Nat)) (t : TaskCfg) : Prop :=
  Vector' shared t.sharedName ∧
  match t.task with
  | .lemmaBinary => False
  | .lemmaCombo => t.embed ≠ 0 ∧
      (t.highway = true → afterLayers (t.embed + t.dense) t.kernels = t.embed ∨
        afterLayers (t.embed + t.dense) t.kernels = 1 ∨ t.embed = 1)
  | _ => t.slots ≠ [] ∧ ∃ ws, t.weights = some ws ∧ ∀ s ∈ t.slots, s ∈ ws ∨ "default".toList ∈ ws

theorem dense_builds (shared : List (Str × Option Nat)) (t : TaskCfg) :
    Builds (denseTask shared t) (Vector' shared t.sharedName ∧ t.slots ≠ [] ∧
      ∃ ws, t.weights = some ws ∧ ∀ s ∈ t.slots, s ∈ ws ∨ "default".toList ∈ ws) ()
      (slotVars t.task.label 0 t.slots) := by
  refine ((denseSlots_builds shared t 0 t.slots).bind (fun _ => (sumLosses_builds t.slots t.weights).bind (fun _ =>
    Builds.require _ _))).of ?_ (fun _ => rfl) (fun _ => ?_)
  · tauto
  · simp only [List.append_nil]

theorem combo_builds (shared : List (Str × Option Nat)) (t : TaskCfg) :
    Builds (comboTask shared t) (Vector' shared t.sharedName ∧ t.embed ≠ 0 ∧
      (t.highway = true → afterLayers (t.embed + t.dense) t.kernels = t.embed ∨
        afterLayers (t.embed + t.dense) t.kernels = 1 ∨ t.embed = 1)) ()
      (.layer "input_subwords_e".toList :: .layer "dense_cnn".toList ::
        (kernelVars "cnn_kernel".toList 0 t.kernels ++ [.layer "output_subwords".toList])) := by
  refine ((Builds.require _ _).bind (fun _ => (embeddingLayer_builds _ _).bind (fun _ =>
    (readShared_builds shared t.sharedName).bind (fun _ => (Builds.newVar _).bind (fun _ =>
    (convLayers_builds _ 0 t.kernels).bind (fun _ => (Builds.require _ _).bind (fun _ =>
    Builds.newVar _))))))).of ?_ (fun _ => rfl) (fun _ => rfl)
  simp only [true_and, and_true, convSize_eq]
  constructor
  · rintro ⟨_, h1, h2, h3⟩
    exact ⟨h2, h1, h3⟩
  · rintro ⟨h2, h1, h3⟩
    refine ⟨?_, h1, h2, h3⟩
    obtain ⟨n, hn⟩ := h2
    rw [hn]
    rfl

theorem task_builds (shared : List (Str × Option Nat)) (t : TaskCfg) :
    Builds (t.build shared) (t.BuildOk shared) () t.vars := by
  unfold TaskCfg.build TaskCfg.BuildOk TaskCfg.vars
  split
  · rename_i h
    simp only [h]
    exact combo_builds shared t
  · rename_i h
    simp only [h, and_false]
    intro vars r
    simp only [false_and, iff_false]
    intro hh
    have h0 : (binaryTask shared t >>= fun _ => (Build.fail .type : Build Unit)) vars =
        (match binaryTask shared t vars with
        | .error e => .error e
        | .ok _ => .error .type : Except Err _) := by
      show Except.bind (binaryTask shared t vars) _ = _
      cases binaryTask shared t vars <;> rfl
    rw [h0] at hh
    split at hh <;> cases hh
  · rename_i h1 h2
    have h3 := dense_builds shared t
    cases ht : t.task with
    | lemmaCombo => exact absurd ht h1
    | lemmaBinary => exact absurd ht h2
    | posDense => simp only [ht] at h3 ⊢; exact h3
    | lemmaDense => simp only [ht] at h3 ⊢; exact h3
    | lemmaSuffix => simp only [ht] at h3 ⊢; exact h3

theorem optimizer_builds (o : Option Str) :
    Builds (getOptimizer o) (∃ x ∈ optimizers, o = some x) () [] := by
  cases o with
  | none => exact (Builds.fail _ _ _).of (by simp) (fun _ => rfl) (fun _ => rfl)
  | some x =>
    refine (Builds.require _ _).of ?_ (fun _ => rfl) (fun _ => rfl)
    constructor
    · exact fun h => ⟨x, h, rfl⟩
    · rintro ⟨y, hy, e⟩
      injection e with e
      rw [e]
      exact hy

/-- All variables of a network. -/
def NetCfg.vars (c : NetCfg) : List VarName :=
  c.features.vars ++ c.kind.vars ++ c.tasks.flatMap TaskCfg.vars

theorem net_builds (c : NetCfg) :
    ∃ l : List (Str × Nat), l.map Prod.fst = c.kind.names ∧
      Builds c.layers ((∀ t ∈ c.tasks, t.ConstructOk) ∧ (c.features.Ok ∧ c.kind.Ok c.features) ∧
        (∀ t ∈ c.tasks, t.BuildOk (c.features.results ++ l.map (fun p => (p.1, some p.2)))) ∧
        c.tasks ≠ [] ∧ ∃ x ∈ optimizers, c.optimizer = some x) () c.vars := by
  obtain ⟨l, hl, hb⟩ := kind_builds c.kind c.features
  refine ⟨l, hl, ((each_builds c.tasks (fun t _ => construct_builds t)).bind (fun _ => hb.bind (fun _ =>
    (each_builds c.tasks (fun t _ => task_builds _ t)).bind (fun _ => (Builds.require _ _).bind (fun _ =>
    optimizer_builds c.optimizer))))).of Iff.rfl (fun _ => rfl) (fun _ => ?_)⟩
  simp only [List.append_nil, NetCfg.vars, List.append_assoc]
  have h0 : c.tasks.flatMap (fun _ => ([] : List VarName)) = [] := List.flatMap_eq_nil_iff.mpr (fun _ _ => rfl)
  rw [h0, List.nil_append]

end Verif
