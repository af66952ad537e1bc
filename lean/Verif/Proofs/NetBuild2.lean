import Verif.Proofs.NetBuild

/-!
# Which network configurations can be built: names of layers and variables
-/

namespace Verif

/-! ### Layers that can be read -/

theorem assocGet_append_left {K V : Type} [DecidableEq K] {k : K} {l m : List (K × V)} (h : k ∈ l.map Prod.fst) :
    assocGet k (l ++ m) = assocGet k l := by
  induction l with
  | nil => cases h
  | cons p l ih =>
    simp only [List.cons_append, assocGet]
    split
    · rfl
    · rename_i hne
      refine ih ?_
      rcases List.mem_cons.mp h with h | h
      · exact absurd h.symm hne
      · exact h

theorem assocGet_append_right {K V : Type} [DecidableEq K] {k : K} {l m : List (K × V)} (h : k ∉ l.map Prod.fst) :
    assocGet k (l ++ m) = assocGet k m := by
  induction l with
  | nil => rfl
  | cons p l ih =>
    simp only [List.map_cons, List.mem_cons, not_or] at h
    simp only [List.cons_append, assocGet]
    rw [if_neg (fun e => h.1 e.symm)]
    exact ih h.2

theorem assocGet_some_values {name : Str} {l : List (Str × Nat)} (h : name ∈ l.map Prod.fst) :
    ∃ n, assocGet name (l.map (fun p => (p.1, some p.2))) = some (some n) := by
  induction l with
  | nil => cases h
  | cons p l ih =>
    simp only [List.map_cons, assocGet]
    split
    · exact ⟨p.2, rfl⟩
    · rename_i hne
      refine ih ?_
      rcases List.mem_cons.mp h with h | h
      · exact absurd h.symm hne
      · exact h

theorem vector_iff (xs ys : List (Str × Nat)) (zs : List Str) (name : Str) (hd : ∀ z ∈ zs, z ∉ ys.map Prod.fst)
    : Vector' (xs.map (fun p => (p.1, some p.2)) ++ zs.map (fun z => (z, none)) ++ ys.map (fun p => (p.1, some p.2))) name ↔
      name ∈ xs.map Prod.fst ∨ name ∈ ys.map Prod.fst := by
  have hfst : ∀ l : List (Str × Nat), (l.map (fun p => (p.1, some p.2))).map Prod.fst = l.map Prod.fst := by
    intro l
    simp [Function.comp_def]
  unfold Vector'
  by_cases hx : name ∈ xs.map Prod.fst
  · simp only [hx, true_or, iff_true]
    rw [List.append_assoc, assocGet_append_left (by rw [hfst]; exact hx)]
    exact assocGet_some_values hx
  · rw [List.append_assoc, assocGet_append_right (by rw [hfst]; exact hx)]
    simp only [hx, false_or]
    by_cases hz : name ∈ zs
    · have hz' : name ∈ (zs.map (fun z => (z, (none : Option Nat)))).map Prod.fst := by
        simpa [Function.comp_def] using hz
      rw [assocGet_append_left hz']
      constructor
      · rintro ⟨n, hn⟩
        have := assocGet_mem hn
        obtain ⟨z, _, e⟩ := List.mem_map.mp this
        cases (congrArg Prod.snd e)
      · intro h
        exact absurd h (hd name hz)
    · have hz' : name ∉ (zs.map (fun z => (z, (none : Option Nat)))).map Prod.fst := by
        simpa [Function.comp_def] using hz
      rw [assocGet_append_right hz']
      constructor
      · rintro ⟨n, hn⟩
        have := List.mem_map_of_mem (f := Prod.fst) (assocGet_mem hn)
        rw [hfst] at this
        exact this
      · exact assocGet_some_values

theorem optSized_fst {κ : Type} (name : Str) (f : κ → Nat) (o : Option κ) :
    (optSized name f o).map Prod.fst = if o.isSome then [name] else [] := by
  cases o <;> rfl

theorem names_mem (k : SharedKind) : ∀ z ∈ k.names,
    z ∈ ["bilstm".toList, "bilstm_and_word_features".toList, "bilstm_cnn".toList, "dilated_cnn".toList,
      "dilated_cnn_and_word_features".toList] := by
  have a1 : ∀ z ∈ ["bilstm".toList], z ∈ ["bilstm".toList, "bilstm_and_word_features".toList,
      "bilstm_cnn".toList, "dilated_cnn".toList, "dilated_cnn_and_word_features".toList] := by decide
  have a2 : ∀ z ∈ ["bilstm".toList, "bilstm_and_word_features".toList], z ∈ ["bilstm".toList,
      "bilstm_and_word_features".toList, "bilstm_cnn".toList, "dilated_cnn".toList,
      "dilated_cnn_and_word_features".toList] := by decide
  have a3 : ∀ z ∈ ["bilstm".toList, "bilstm_cnn".toList], z ∈ ["bilstm".toList,
      "bilstm_and_word_features".toList, "bilstm_cnn".toList, "dilated_cnn".toList,
      "dilated_cnn_and_word_features".toList] := by decide
  have a4 : ∀ z ∈ ["bilstm".toList, "bilstm_and_word_features".toList, "bilstm_cnn".toList], z ∈ ["bilstm".toList,
      "bilstm_and_word_features".toList, "bilstm_cnn".toList, "dilated_cnn".toList,
      "dilated_cnn_and_word_features".toList] := by decide
  have a5 : ∀ z ∈ ["dilated_cnn".toList], z ∈ ["bilstm".toList,
      "bilstm_and_word_features".toList, "bilstm_cnn".toList, "dilated_cnn".toList,
      "dilated_cnn_and_word_features".toList] := by decide
  have a6 : ∀ z ∈ ["dilated_cnn".toList, "dilated_cnn_and_word_features".toList], z ∈ ["bilstm".toList,
      "bilstm_and_word_features".toList, "bilstm_cnn".toList, "dilated_cnn".toList,
      "dilated_cnn_and_word_features".toList] := by decide
  intro z hz
  cases k with
  | words => cases hz
  | bilstm a b skip =>
    cases skip with
    | none => exact a1 z hz
    | some s => exact a2 z hz
  | bilstmCnn a b skip ks =>
    cases skip with
    | none => exact a3 z hz
    | some s => exact a4 z hz
  | dilatedCnn ks skip =>
    cases skip with
    | none => exact a5 z hz
    | some s => exact a6 z hz

theorem readable_iff (c : NetCfg) (l : List (Str × Nat)) (hl : l.map Prod.fst = c.kind.names) (name : Str) :
    Vector' (c.features.results ++ l.map (fun p => (p.1, some p.2))) name ↔ name ∈ c.readable := by
  have h := vector_iff (c.features.sized ++ [("word_features".toList, (c.features.sized.map Prod.snd).sum)]) l
    ["sentence_mask".toList, "sentence_norm".toList] name (by
      rw [hl]
      have h2 : ∀ z ∈ ["sentence_mask".toList, "sentence_norm".toList],
          z ∉ ["bilstm".toList, "bilstm_and_word_features".toList, "bilstm_cnn".toList, "dilated_cnn".toList,
            "dilated_cnn_and_word_features".toList] := by decide
      intro z hz hm
      refine h2 z hz ?_
      exact names_mem c.kind z hm)
  have e1 : c.features.results ++ l.map (fun p => (p.1, some p.2)) =
      (c.features.sized ++ [("word_features".toList, (c.features.sized.map Prod.snd).sum)]).map (fun p => (p.1, some p.2)) ++
        ["sentence_mask".toList, "sentence_norm".toList].map (fun z => (z, none)) ++
        l.map (fun p => (p.1, some p.2)) := by
    simp only [SharedCfg.results, List.map_append, List.map_cons, List.map_nil, List.append_assoc, List.cons_append,
      List.nil_append]
  rw [e1, h, hl]
  have e2 : (c.features.sized ++ [("word_features".toList, (c.features.sized.map Prod.snd).sum)]).map Prod.fst =
      (if c.features.word.isSome then ["word_embedding".toList] else []) ++
      (if c.features.trained.isSome then ["trained_embedding".toList] else []) ++
      (if c.features.chars.isSome then ["characters".toList] else []) ++
      (if c.features.bpe.isSome then ["bpe_subwords".toList] else []) ++
      (if c.features.morfessor.isSome then ["morfessor_subwords".toList] else []) ++
      ["word_features".toList] := by
    simp only [SharedCfg.sized, List.map_append, optSized_fst, List.map_cons, List.map_nil]
  rw [e2, ← List.mem_append]
  have e3 : ∀ (A : List Str), A ++ c.kind.names = A ++ (match c.kind with
      | .words => []
      | .bilstm _ _ skip => "bilstm".toList ::
          (if skip.isSome then ["bilstm_and_word_features".toList] else [])
      | .bilstmCnn _ _ skip _ => "bilstm".toList ::
          (if skip.isSome then ["bilstm_and_word_features".toList] else []) ++ ["bilstm_cnn".toList]
      | .dilatedCnn _ skip => "dilated_cnn".toList ::
          (if skip.isSome then ["dilated_cnn_and_word_features".toList] else [])) := by
    intro A
    cases c.kind <;> rfl
  rw [e3]
  rfl

/-! ### Variables -/

/-- Which part of the network makes a variable. -/
def VarName.owner : VarName → Nat
  | .layer n =>
    if n = "word_embeddings".toList ∨ n = "we_dense_layer".toList then 1
    else if n = "trained_words".toList then 2
    else if n = "characters".toList ∨ n = "characters".toList ++ "_dense_highway".toList then 3
    else if n = "bpe_subwords".toList ∨ n = "bpe_subwords".toList ++ "_dense_highway".toList then 4
    else if n = "morfessor_subwords".toList ∨ n = "morfessor_subwords".toList ++ "_dense_highway".toList then 5
    else 8
  | .kernel s _ _ =>
    if s = "characters".toList ++ "_cnn".toList then 3
    else if s = "bpe_subwords".toList ++ "_cnn".toList then 4
    else if s = "morfessor_subwords".toList ++ "_cnn".toList then 5
    else if s = "dilated_cnn".toList then 6
    else 7
  | .rnn s _ =>
    if s = "characters".toList then 3
    else if s = "bpe_subwords".toList then 4
    else if s = "morfessor_subwords".toList then 5
    else 6
  | .scoped _ _ => 9

theorem mem_kernelVars {scope : Str} {i : Nat} {ks : List Kernel} {v : VarName} :
    v ∈ kernelVars scope i ks ↔ ∃ (j : Nat) (k : Kernel), ks[j]? = some k ∧ v = .kernel scope (i + j) k := by
  induction ks generalizing i with
  | nil => simp [kernelVars]
  | cons k ks ih =>
    simp only [kernelVars, List.mem_cons, ih]
    constructor
    · rintro (rfl | ⟨j, k', h1, rfl⟩)
      · exact ⟨0, k, rfl, rfl⟩
      · exact ⟨j + 1, k', h1, by congr 1; omega⟩
    · rintro ⟨j, k', h1, rfl⟩
      cases j with
      | zero =>
        simp at h1
        subst h1
        exact Or.inl rfl
      | succ j => exact Or.inr ⟨j, k', by simpa using h1, by congr 1; omega⟩

theorem mem_rnnVars {scope : Str} {i n : Nat} {v : VarName} :
    v ∈ rnnVars scope i n ↔ ∃ j < n, v = .rnn scope (i + j) := by
  induction n generalizing i with
  | zero => simp [rnnVars]
  | succ n ih =>
    simp only [rnnVars, List.mem_cons, ih]
    constructor
    · rintro (rfl | ⟨j, h1, rfl⟩)
      · exact ⟨0, by omega, rfl⟩
      · exact ⟨j + 1, by omega, by congr 1; omega⟩
    · rintro ⟨j, h1, rfl⟩
      cases j with
      | zero => exact Or.inl rfl
      | succ j => exact Or.inr ⟨j, by omega, by congr 1; omega⟩

theorem mem_slotVars {label : Str} {i : Nat} {slots : List Str} {v : VarName} :
    v ∈ slotVars label i slots ↔ ∃ j < slots.length,
      v = .scoped (i + j) ("dense_".toList ++ label) ∨ v = .scoped (i + j) ("logits_".toList ++ label) := by
  induction slots generalizing i with
  | nil => simp [slotVars]
  | cons s slots ih =>
    simp only [slotVars, List.mem_cons, ih, List.length_cons]
    constructor
    · rintro (h | h | ⟨j, h1, h2⟩)
      · exact ⟨0, by omega, Or.inl h⟩
      · exact ⟨0, by omega, Or.inr h⟩
      · refine ⟨j + 1, by omega, ?_⟩
        rw [show i + (j + 1) = i + 1 + j by omega]
        exact h2
    · rintro ⟨j, h1, h2⟩
      cases j with
      | zero =>
        rcases h2 with h2 | h2
        · exact Or.inl h2
        · exact Or.inr (Or.inl h2)
      | succ j =>
        refine Or.inr (Or.inr ⟨j, by omega, ?_⟩)
        rw [show i + 1 + j = i + (j + 1) by omega]
        exact h2

theorem kernelVars_nodup (scope : Str) (i : Nat) (ks : List Kernel) : (kernelVars scope i ks).Nodup := by
  induction ks generalizing i with
  | nil => simp [kernelVars]
  | cons k ks ih =>
    rw [kernelVars, List.nodup_cons]
    refine ⟨fun h => ?_, ih _⟩
    obtain ⟨j, k', _, e⟩ := mem_kernelVars.mp h
    injection e with _ e
    omega

theorem rnnVars_nodup (scope : Str) (i n : Nat) : (rnnVars scope i n).Nodup := by
  induction n generalizing i with
  | zero => simp [rnnVars]
  | succ n ih =>
    rw [rnnVars, List.nodup_cons]
    refine ⟨fun h => ?_, ih _⟩
    obtain ⟨j, _, e⟩ := mem_rnnVars.mp h
    injection e with _ e
    omega

theorem slotVars_nodup (t : Task) (i : Nat) (slots : List Str) : (slotVars t.label i slots).Nodup := by
  have hne : "dense_".toList ++ t.label ≠ "logits_".toList ++ t.label := by cases t <;> decide
  induction slots generalizing i with
  | nil => simp [slotVars]
  | cons s slots ih =>
    rw [slotVars, List.nodup_cons, List.nodup_cons]
    refine ⟨fun h => ?_, fun h => ?_, ih _⟩
    · rcases List.mem_cons.mp h with h | h
      · injection h with _ h
        exact hne h
      · obtain ⟨j, _, e | e⟩ := mem_slotVars.mp h <;> injection e with e _ <;> omega
    · obtain ⟨j, _, e | e⟩ := mem_slotVars.mp h <;> injection e with e _ <;> omega

/-- Lists of variables with different owners can be put together. -/
theorem nodup_owner {l m : List VarName} {a b : Nat → Prop} (hl : l.Nodup) (hm : m.Nodup)
    (h1 : ∀ v ∈ l, a v.owner) (h2 : ∀ v ∈ m, b v.owner) (hab : ∀ n, a n → ¬ b n) : (l ++ m).Nodup := by
  rw [List.nodup_append]
  refine ⟨hl, hm, fun x hx y hy e => ?_⟩
  subst e
  exact hab _ (h1 x hx) (h2 x hy)

theorem subword_vars_nodup (feature : Str) (c : SubwordCfg)
    (hne : feature ≠ feature ++ "_dense_highway".toList) : (c.vars feature).Nodup := by
  unfold SubwordCfg.vars
  have ha : (c.agg.vars feature).Nodup := by
    unfold Aggregator.vars
    cases c.agg with
    | rnn a n => exact rnnVars_nodup _ _ _
    | cnn ks => exact kernelVars_nodup _ _ _
    | average => simp
    | selfAttention => simp
    | other => simp
  have hl : ∀ n, VarName.layer n ∉ c.agg.vars feature := by
    intro n
    unfold Aggregator.vars
    cases c.agg with
    | rnn a n =>
      intro h
      obtain ⟨_, _, e⟩ := mem_rnnVars.mp h
      cases e
    | cnn ks =>
      intro h
      obtain ⟨_, _, _, e⟩ := mem_kernelVars.mp h
      cases e
    | average => simp
    | selfAttention => simp
    | other => simp
  rw [List.nodup_cons]
  constructor
  · intro h
    rcases List.mem_append.mp h with h | h
    · exact hl _ h
    · split at h
      · rw [List.mem_singleton] at h
        injection h with h
        exact hne h
      · cases h
  · rw [List.nodup_append]
    refine ⟨ha, by split <;> simp, fun x hx y hy e => ?_⟩
    subst e
    split at hy
    · rw [List.mem_singleton] at hy
      subst hy
      exact hl _ hx
    · cases hy

theorem subword_owner (feature : Str) (n : Nat) (c : SubwordCfg) (h1 : (VarName.layer feature).owner = n)
    (h2 : (VarName.layer (feature ++ "_dense_highway".toList)).owner = n)
    (h3 : ∀ i k, (VarName.kernel (feature ++ "_cnn".toList) i k).owner = n)
    (h4 : ∀ i, (VarName.rnn feature i).owner = n) : ∀ v ∈ c.vars feature, v.owner = n := by
  intro v hv
  rcases List.mem_cons.mp hv with rfl | hv
  · exact h1
  rcases List.mem_append.mp hv with hv | hv
  · unfold Aggregator.vars at hv
    cases hc : c.agg with
    | rnn a m =>
      rw [hc] at hv
      obtain ⟨_, _, rfl⟩ := mem_rnnVars.mp hv
      exact h4 _
    | cnn ks =>
      rw [hc] at hv
      obtain ⟨_, _, _, rfl⟩ := mem_kernelVars.mp hv
      exact h3 _ _
    | average => rw [hc] at hv; cases hv
    | selfAttention => rw [hc] at hv; cases hv
    | other => rw [hc] at hv; cases hv
  · split at hv
    · rw [List.mem_singleton] at hv
      subst hv
      exact h2
    · cases hv

theorem word_owner (c : WordCfg) : c.vars.Nodup ∧ ∀ v ∈ c.vars, v.owner = 1 := by
  unfold WordCfg.vars
  cases c.dense with
  | none => decide
  | some n =>
    show [VarName.layer "word_embeddings".toList, .layer "we_dense_layer".toList].Nodup ∧
      ∀ v ∈ [VarName.layer "word_embeddings".toList, .layer "we_dense_layer".toList], v.owner = 1
    decide

theorem opt_all {κ : Type} {f : κ → List VarName} {o : Option κ} {P : List VarName → Prop} (h0 : P [])
    (h : ∀ c, P (f c)) : P (optVars f o) := by
  cases o with
  | none => exact h0
  | some c => exact h c

theorem features_vars (c : SharedCfg) : c.vars.Nodup ∧ ∀ v ∈ c.vars, v.owner ≤ 5 := by
  have hw : (optVars WordCfg.vars c.word).Nodup ∧ ∀ v ∈ optVars WordCfg.vars c.word, v.owner = 1 :=
    opt_all (P := fun l => l.Nodup ∧ ∀ v ∈ l, VarName.owner v = 1) (by simp) word_owner
  have ht : (optVars (fun _ : Nat => [VarName.layer "trained_words".toList]) c.trained).Nodup ∧
      ∀ v ∈ optVars (fun _ : Nat => [VarName.layer "trained_words".toList]) c.trained, v.owner = 2 :=
    opt_all (P := fun l => l.Nodup ∧ ∀ v ∈ l, VarName.owner v = 2) (by simp) (by intro _; decide)
  have h3 : (optVars (SubwordCfg.vars "characters".toList) c.chars).Nodup ∧
      ∀ v ∈ optVars (SubwordCfg.vars "characters".toList) c.chars, v.owner = 3 :=
    opt_all (P := fun l => l.Nodup ∧ ∀ v ∈ l, VarName.owner v = 3) (by simp) (fun s =>
      ⟨subword_vars_nodup _ s (by decide), subword_owner _ 3 s (by decide) (by decide)
        (by intro i k; simp [VarName.owner]) (by intro i; simp [VarName.owner])⟩)
  have h4 : (optVars (SubwordCfg.vars "bpe_subwords".toList) c.bpe).Nodup ∧
      ∀ v ∈ optVars (SubwordCfg.vars "bpe_subwords".toList) c.bpe, v.owner = 4 :=
    opt_all (P := fun l => l.Nodup ∧ ∀ v ∈ l, VarName.owner v = 4) (by simp) (fun s =>
      ⟨subword_vars_nodup _ s (by decide), subword_owner _ 4 s (by decide) (by decide)
        (by intro i k; rfl) (by intro i; rfl)⟩)
  have h5 : (optVars (SubwordCfg.vars "morfessor_subwords".toList) c.morfessor).Nodup ∧
      ∀ v ∈ optVars (SubwordCfg.vars "morfessor_subwords".toList) c.morfessor, v.owner = 5 :=
    opt_all (P := fun l => l.Nodup ∧ ∀ v ∈ l, VarName.owner v = 5) (by simp) (fun s =>
      ⟨subword_vars_nodup _ s (by decide), subword_owner _ 5 s (by decide) (by decide)
        (by intro i k; rfl) (by intro i; rfl)⟩)
  have m4 : ∀ v ∈ optVars (SubwordCfg.vars "bpe_subwords".toList) c.bpe ++
      optVars (SubwordCfg.vars "morfessor_subwords".toList) c.morfessor, 4 ≤ v.owner ∧ v.owner ≤ 5 := by
    intro v hv
    rcases List.mem_append.mp hv with hv | hv
    · have := h4.2 v hv; omega
    · have := h5.2 v hv; omega
  have n4 := nodup_owner (a := fun n => n = 4) (b := fun n => n = 5) h4.1 h5.1 h4.2 h5.2 (by intro n h h'; omega)
  have m3 : ∀ v ∈ optVars (SubwordCfg.vars "characters".toList) c.chars ++
      (optVars (SubwordCfg.vars "bpe_subwords".toList) c.bpe ++
      optVars (SubwordCfg.vars "morfessor_subwords".toList) c.morfessor), 3 ≤ v.owner ∧ v.owner ≤ 5 := by
    intro v hv
    rcases List.mem_append.mp hv with hv | hv
    · have := h3.2 v hv; omega
    · have := m4 v hv; omega
  have n3 := nodup_owner (a := fun n => n = 3) (b := fun n => 4 ≤ n ∧ n ≤ 5) h3.1 n4 h3.2 m4 (by intro n h h'; omega)
  have m2 : ∀ v ∈ optVars (fun _ : Nat => [VarName.layer "trained_words".toList]) c.trained ++
      (optVars (SubwordCfg.vars "characters".toList) c.chars ++
      (optVars (SubwordCfg.vars "bpe_subwords".toList) c.bpe ++
      optVars (SubwordCfg.vars "morfessor_subwords".toList) c.morfessor)), 2 ≤ v.owner ∧ v.owner ≤ 5 := by
    intro v hv
    rcases List.mem_append.mp hv with hv | hv
    · have := ht.2 v hv; omega
    · have := m3 v hv; omega
  have n2 := nodup_owner (a := fun n => n = 2) (b := fun n => 3 ≤ n ∧ n ≤ 5) ht.1 n3 ht.2 m3 (by intro n h h'; omega)
  have n1 := nodup_owner (a := fun n => n = 1) (b := fun n => 2 ≤ n ∧ n ≤ 5) hw.1 n2 hw.2 m2 (by intro n h h'; omega)
  refine ⟨n1, fun v hv => ?_⟩
  rcases List.mem_append.mp hv with hv | hv
  · have := hw.2 v hv; omega
  · have := m2 v hv; omega

theorem kind_vars (k : SharedKind) : k.vars.Nodup ∧
    (∀ v ∈ k.vars, v.owner = 6 ∨ v ∈ kernelVars "cnn_kernel".toList 0 k.cnnKernels ∧ v.owner = 7) ∧
    ∀ v ∈ kernelVars "cnn_kernel".toList 0 k.cnnKernels, v ∈ k.vars := by
  have hr : ∀ n, ∀ v ∈ rnnVars [] 0 n, v.owner = 6 := by
    intro n v hv
    obtain ⟨_, _, rfl⟩ := mem_rnnVars.mp hv
    rfl
  have hk : ∀ ks, ∀ v ∈ kernelVars "cnn_kernel".toList 0 ks, v.owner = 7 := by
    intro n v hv
    obtain ⟨_, _, _, rfl⟩ := mem_kernelVars.mp hv
    rfl
  cases k with
  | words => exact ⟨List.nodup_nil, fun v hv => (by cases hv), fun v hv => (by cases hv)⟩
  | bilstm a n s =>
    exact ⟨rnnVars_nodup _ _ _, fun v hv => Or.inl (hr _ v hv), fun v hv => (by cases hv)⟩
  | bilstmCnn a n s ks =>
    refine ⟨nodup_owner (a := fun n => n = 6) (b := fun n => n = 7) (rnnVars_nodup _ _ _) (kernelVars_nodup _ _ _)
      (hr _) (hk _) (by intro n h h'; omega), fun v hv => ?_, fun v hv => List.mem_append.mpr (Or.inr hv)⟩
    rcases List.mem_append.mp hv with hv | hv
    · exact Or.inl (hr _ v hv)
    · exact Or.inr ⟨hv, hk _ v hv⟩
  | dilatedCnn o s =>
    cases o with
    | none => exact ⟨List.nodup_nil, fun v hv => (by cases hv), fun v hv => (by cases hv)⟩
    | some ks =>
      refine ⟨kernelVars_nodup _ _ _, fun v hv => Or.inl ?_, fun v hv => (by cases hv)⟩
      obtain ⟨_, _, _, rfl⟩ := mem_kernelVars.mp hv
      rfl

/-- The variables of a task: those of the character task, or those of a dense task. -/
theorem task_vars (t : TaskCfg) : t.vars.Nodup ∧
    (∀ v ∈ t.vars, v.owner = 9 ∧ t.task ≠ .lemmaCombo ∨ v.owner = 8 ∧ t.task = .lemmaCombo ∨
      t.task = .lemmaCombo ∧ v ∈ kernelVars "cnn_kernel".toList 0 t.kernels ∧ v.owner = 7) := by
  have hs : ∀ label i slots, ∀ v ∈ slotVars label i slots, v.owner = 9 := by
    intro label i slots v hv
    obtain ⟨_, _, rfl | rfl⟩ := mem_slotVars.mp hv <;> rfl
  have hk : ∀ ks, ∀ v ∈ kernelVars "cnn_kernel".toList 0 ks, v.owner = 7 := by
    intro n v hv
    obtain ⟨_, _, _, rfl⟩ := mem_kernelVars.mp hv
    rfl
  unfold TaskCfg.vars
  cases ht : t.task with
  | lemmaCombo =>
    simp only
    refine ⟨?_, fun v hv => ?_⟩
    · have h1 := nodup_owner (a := fun n => n = 7) (b := fun n => n = 8)
        (m := [.layer "output_subwords".toList]) (kernelVars_nodup "cnn_kernel".toList 0 t.kernels) (by simp) (hk _)
        (by decide) (by intro n h h'; omega)
      rw [List.nodup_cons, List.nodup_cons]
      refine ⟨fun h => ?_, fun h => ?_, h1⟩
      · rcases List.mem_cons.mp h with h | h
        · revert h; decide
        · rcases List.mem_append.mp h with h | h
          · have := hk _ _ h
            revert this; decide
          · revert h; decide
      · rcases List.mem_append.mp h with h | h
        · have := hk _ _ h
          revert this; decide
        · revert h; decide
    · rcases List.mem_cons.mp hv with rfl | hv
      · exact Or.inr (Or.inl ⟨by decide, trivial⟩)
      rcases List.mem_cons.mp hv with rfl | hv
      · exact Or.inr (Or.inl ⟨by decide, trivial⟩)
      rcases List.mem_append.mp hv with hv | hv
      · exact Or.inr (Or.inr ⟨trivial, hv, hk _ v hv⟩)
      · rw [List.mem_singleton] at hv
        subst hv
        exact Or.inr (Or.inl ⟨by decide, trivial⟩)
  | lemmaBinary => exact ⟨by simp, fun v hv => (by cases hv)⟩
  | posDense => exact ⟨slotVars_nodup .posDense _ _, fun v hv => Or.inl ⟨hs _ _ _ v hv, by decide⟩⟩
  | lemmaDense => exact ⟨slotVars_nodup .lemmaDense _ _, fun v hv => Or.inl ⟨hs _ _ _ v hv, by decide⟩⟩
  | lemmaSuffix => exact ⟨slotVars_nodup .lemmaSuffix _ _, fun v hv => Or.inl ⟨hs _ _ _ v hv, by decide⟩⟩

/-- Two tasks that can be built have common variables exactly if they have the same label. -/
theorem tasks_disjoint {shared : List (Str × Option Nat)} {s t : TaskCfg} (hs : s.BuildOk shared) (ht : t.BuildOk shared) :
    List.Disjoint s.vars t.vars ↔ s.label ≠ t.label := by
  constructor
  · intro h e
    have hst : s.task = t.task := by
      have hb : s.task ≠ .lemmaBinary := fun h => by
        have := hs.2
        rw [h] at this
        exact this
      have hb' : t.task ≠ .lemmaBinary := fun h => by
        have := ht.2
        rw [h] at this
        exact this
      unfold TaskCfg.label at e
      revert e hb hb'
      cases s.task <;> cases t.task <;> decide
    have key : ∃ v, v ∈ s.vars ∧ v ∈ t.vars := by
      have hds : ∀ (x : TaskCfg) (k : Task), x.task = k → k ≠ .lemmaCombo → k ≠ .lemmaBinary → x.BuildOk shared →
          VarName.scoped 0 ("dense_".toList ++ k.label) ∈ x.vars := by
        intro x k hk h1 h2 hx
        have hx2 := hx.2
        unfold TaskCfg.vars
        rw [hk] at hx2 ⊢
        have : x.slots ≠ [] := by
          cases k with
          | lemmaCombo => exact absurd rfl h1
          | lemmaBinary => exact absurd rfl h2
          | posDense => exact hx2.1
          | lemmaDense => exact hx2.1
          | lemmaSuffix => exact hx2.1
        have hl : 0 < x.slots.length := List.length_pos_iff.mpr this
        cases k with
        | lemmaCombo => exact absurd rfl h1
        | lemmaBinary => exact absurd rfl h2
        | posDense => exact mem_slotVars.mpr ⟨0, hl, Or.inl rfl⟩
        | lemmaDense => exact mem_slotVars.mpr ⟨0, hl, Or.inl rfl⟩
        | lemmaSuffix => exact mem_slotVars.mpr ⟨0, hl, Or.inl rfl⟩
      by_cases hc : s.task = .lemmaCombo
      · refine ⟨.layer "input_subwords_e".toList, ?_, ?_⟩
        · unfold TaskCfg.vars
          rw [hc]
          exact List.mem_cons_self
        · unfold TaskCfg.vars
          rw [← hst, hc]
          exact List.mem_cons_self
      · have hb : s.task ≠ .lemmaBinary := fun h => by
          have := hs.2
          rw [h] at this
          exact this
        exact ⟨_, hds s s.task rfl hc hb hs, hds t s.task hst.symm hc hb ht⟩
    obtain ⟨v, h1, h2⟩ := key
    exact h h1 h2
  · intro hne v h1 h2
    rcases (task_vars s).2 v h1 with ⟨a, b⟩ | ⟨a, b⟩ | ⟨b, _, a⟩ <;>
      rcases (task_vars t).2 v h2 with ⟨a', b'⟩ | ⟨a', b'⟩ | ⟨b', _, a'⟩ <;> try omega
    · have key : ∀ (x : TaskCfg), x.task ≠ .lemmaCombo → v ∈ x.vars →
          ∃ i, v = .scoped i ("dense_".toList ++ x.label) ∨ v = .scoped i ("logits_".toList ++ x.label) := by
        intro x hx hv
        unfold TaskCfg.vars at hv
        unfold TaskCfg.label
        cases hxt : x.task with
        | lemmaCombo => exact absurd hxt hx
        | lemmaBinary => rw [hxt] at hv; cases hv
        | posDense =>
          rw [hxt] at hv
          obtain ⟨j, _, h⟩ := mem_slotVars.mp hv
          exact ⟨_, h⟩
        | lemmaDense =>
          rw [hxt] at hv
          obtain ⟨j, _, h⟩ := mem_slotVars.mp hv
          exact ⟨_, h⟩
        | lemmaSuffix =>
          rw [hxt] at hv
          obtain ⟨j, _, h⟩ := mem_slotVars.mp hv
          exact ⟨_, h⟩
      have hdl : ∀ x y : Str, "dense_".toList ++ x ≠ "logits_".toList ++ y := by
        intro x y h
        have := congrArg List.head? h
        revert this
        simp
      obtain ⟨i, k1⟩ := key s b h1
      obtain ⟨j, k2⟩ := key t b' h2
      rcases k1 with k1 | k1 <;> rcases k2 with k2 | k2 <;> rw [k1] at k2 <;> injection k2 with _ k2
      · exact hne (List.append_cancel_left k2)
      · exact hdl _ _ k2
      · exact hdl _ _ k2.symm
      · exact hne (List.append_cancel_left k2)
    · exact hne (by unfold TaskCfg.label; rw [b, b'])
    · exact hne (by unfold TaskCfg.label; rw [b, b'])

/-- The variables of a network are different exactly if no two tasks have the same label and the character
task has no kernel of the shared part. -/
theorem net_fresh (c : NetCfg) (shared : List (Str × Option Nat)) (ht : ∀ t ∈ c.tasks, t.BuildOk shared) :
    Fresh [] c.vars ↔ (c.tasks.map (fun t => t.task.label)).Nodup ∧
      ∀ t ∈ c.tasks, t.task = .lemmaCombo →
        ∀ (i : Nat) k, t.kernels[i]? = some k → c.kind.cnnKernels[i]? ≠ some k := by
  have hf := features_vars c.features
  have hk := kind_vars c.kind
  have n1 : (c.features.vars ++ c.kind.vars).Nodup :=
    nodup_owner (a := fun n => n ≤ 5) (b := fun n => n = 6 ∨ n = 7) hf.1 hk.1 hf.2
      (fun v hv => (hk.2.1 v hv).imp id And.right) (by intro n h h'; omega)
  have h1 : (c.tasks.flatMap TaskCfg.vars).Nodup ↔ (c.tasks.map (fun t => t.task.label)).Nodup := by
    rw [List.nodup_flatMap]
    simp only [(task_vars _).1, implies_true, true_and]
    unfold List.Nodup
    rw [List.pairwise_map]
    constructor
    · exact List.Pairwise.imp_of_mem (fun ha hb h => (tasks_disjoint (ht _ ha) (ht _ hb)).mp h)
    · exact List.Pairwise.imp_of_mem (fun ha hb h => (tasks_disjoint (ht _ ha) (ht _ hb)).mpr h)
  unfold Fresh NetCfg.vars
  simp only [List.not_mem_nil, not_false_eq_true, implies_true, and_true]
  rw [List.nodup_append, h1]
  constructor
  · rintro ⟨_, h2, h3⟩
    refine ⟨h2, fun t htm hc i k hi hki => ?_⟩
    have m1 : VarName.kernel "cnn_kernel".toList (0 + i) k ∈ c.kind.vars :=
      hk.2.2 _ (mem_kernelVars.mpr ⟨i, k, hki, rfl⟩)
    have m2 : VarName.kernel "cnn_kernel".toList (0 + i) k ∈ t.vars := by
      unfold TaskCfg.vars
      rw [hc]
      exact List.mem_cons_of_mem _ (List.mem_cons_of_mem _ (List.mem_append.mpr (Or.inl
        (mem_kernelVars.mpr ⟨i, k, hi, rfl⟩))))
    exact h3 _ (List.mem_append.mpr (Or.inr m1)) _ (List.mem_flatMap.mpr ⟨t, htm, m2⟩) rfl
  · rintro ⟨h2, h3⟩
    refine ⟨n1, h2, fun x hx y hy e => ?_⟩
    subst e
    obtain ⟨t, htm, hv⟩ := List.mem_flatMap.mp hy
    rcases List.mem_append.mp hx with hx | hx
    · have := hf.2 x hx
      rcases (task_vars t).2 x hv with h | h | h <;> omega
    · rcases hk.2.1 x hx with h | ⟨h, ho⟩
      · rcases (task_vars t).2 x hv with h' | h' | h' <;> omega
      · rcases (task_vars t).2 x hv with h' | h' | ⟨hc, h', _⟩
        · omega
        · omega
        · obtain ⟨i, k, e1, rfl⟩ := mem_kernelVars.mp h
          obtain ⟨j, k', e2, e⟩ := mem_kernelVars.mp h'
          injection e with _ e3 e4
          subst e4
          have : i = j := by omega
          subst this
          exact h3 t htm hc i k e2 e1

/-- Exactly the configurations that are fine can be built. -/
theorem layers_ok_iff (c : NetCfg) : (∃ r, c.layers [] = .ok r) ↔ c.Ok := by
  obtain ⟨l, hl, hb⟩ := net_builds c
  have e0 : (∃ r, c.layers [] = .ok r) ↔ (((∀ t ∈ c.tasks, t.ConstructOk) ∧ (c.features.Ok ∧ c.kind.Ok c.features) ∧
        (∀ t ∈ c.tasks, t.BuildOk (c.features.results ++ l.map (fun p => (p.1, some p.2)))) ∧
        c.tasks ≠ [] ∧ ∃ x ∈ optimizers, c.optimizer = some x) ∧ Fresh [] c.vars) := by
    constructor
    · rintro ⟨r, hr⟩
      obtain ⟨a, b, _⟩ := (hb [] r).mp hr
      exact ⟨a, b⟩
    · rintro ⟨a, b⟩
      exact ⟨_, (hb [] _).mpr ⟨a, b, rfl⟩⟩
  rw [e0]
  constructor
  · rintro ⟨⟨h1, h2, h3, h4, h5⟩, h6⟩
    obtain ⟨h7, h8⟩ := (net_fresh c _ h3).mp h6
    refine ⟨h2.1, h2.2, fun t ht => ⟨(readable_iff c l hl _).mp (h3 t ht).1, ?_⟩, h4, h7, h5⟩
    have hb := (h3 t ht).2
    have hcn := h1 t ht
    have hkn := h8 t ht
    cases htt : t.task with
    | lemmaBinary => rw [htt] at hb; exact hb
    | lemmaCombo =>
      rw [htt] at hb
      exact ⟨hcn htt, hb.1, hb.2, hkn htt⟩
    | posDense => rw [htt] at hb; exact hb
    | lemmaDense => rw [htt] at hb; exact hb
    | lemmaSuffix => rw [htt] at hb; exact hb
  · intro h
    have hB : ∀ t ∈ c.tasks, t.BuildOk (c.features.results ++ l.map (fun p => (p.1, some p.2))) := by
      intro t ht
      obtain ⟨h1, h2⟩ := h.tasks t ht
      refine ⟨(readable_iff c l hl _).mpr h1, ?_⟩
      cases htt : t.task with
      | lemmaBinary => rw [htt] at h2; exact h2
      | lemmaCombo =>
        rw [htt] at h2
        exact ⟨h2.2.1, h2.2.2.1⟩
      | posDense => rw [htt] at h2; exact h2
      | lemmaDense => rw [htt] at h2; exact h2
      | lemmaSuffix => rw [htt] at h2; exact h2
    refine ⟨⟨fun t ht hc => ?_, ⟨h.features, h.kind⟩, hB, h.nonempty, h.optimizer⟩,
      (net_fresh c _ hB).mpr ⟨h.labels, fun t ht hc => ?_⟩⟩
    · have h2 := (h.tasks t ht).2
      rw [hc] at h2
      exact h2.1
    · have h2 := (h.tasks t ht).2
      rw [hc] at h2
      exact h2.2.2.2

end Verif
