import Verif.Proofs.Providers3
import Verif.Props.Extractors
import Verif.Props.Embeddings

/-! # Proofs about assembled extractors: what the leaves yield -/

namespace Verif

section
variable {F : Type} {lower : Str → Str} {float : Str → Res F} {zero : F} {tok : Nat → TextToken}

theorem tokenX_ok {name : Str} {get : TextToken → Res Feat} {o : Obj} {D : Features}
    (h : tokenX tok name get o = .ok D) :
    ∃ v, get (tok o.handle) = .ok v ∧ D = Dict.ofList [(name, v)] := by
  cases o with
  | mk id items =>
    simp only [tokenX] at h
    split at h
    · simp at h
    · rename_i v hv
      injection h with h
      exact ⟨v, hv, h.symm⟩

theorem get?_single {V : Type} (k : Str) (v : V) (k' : Str) (w : V) :
    (Dict.ofList [(k, v)]).get? k' = some w ↔ k' = k ∧ w = v := by
  rw [Dict.get?_mem, Dict.ofList_entries _ (by simp)]
  simp

theorem ofList_single_inj {V : Type} {k : Str} {v w : V}
    (h : Dict.ofList [(k, v)] = Dict.ofList [(k, w)]) : v = w :=
  ((get?_single k w k v).1 (h ▸ (get?_single k v k v).2 ⟨rfl, rfl⟩)).2

/-- The value a leaf extractor yields for an object. -/
def Yields (lower : Str → Str) (float : Str → Res F) (zero : F) (tok : Nat → TextToken)
    (dataset : List Document) (s : LeafSpec) (o : Obj) (v : Feat) : Prop :=
  ∃ x, s.build lower float zero tok dataset = .ok x ∧ x.extract o = .ok (Dict.ofList [(s.name, v)])

theorem leaf_yields {dataset : List Document} {s : LeafSpec} {x : BuiltX F} {o : Obj} {D : Features}
    (h : s.build lower float zero tok dataset = .ok x) (hD : x.extract o = .ok D) :
    ∃ v, D = Dict.ofList [(s.name, v)] := by
  cases s <;> simp only [LeafSpec.build] at h
  case sentLength n =>
    injection h with h
    subst h
    simp only [Except.ok.injEq] at hD
    exact ⟨_, hD.symm⟩
  case trainable | subwords =>
    injection h with h
    subst h
    simp only [constInit, embInit] at hD
    obtain ⟨v, _, hv⟩ := tokenX_ok hD
    exact ⟨v, hv⟩
  case posDict =>
    split at h
    · simp at h
    · split at h
      · simp at h
      · injection h with h
        subst h
        simp only [constInit, embInit] at hD
        obtain ⟨v, _, hv⟩ := tokenX_ok hD
        exact ⟨v, hv⟩
  all_goals
    split at h
    · simp at h
    · injection h with h
      subst h
      simp only [constInit, embInit] at hD
      obtain ⟨v, _, hv⟩ := tokenX_ok hD
      exact ⟨v, hv⟩

/-- All scalars of a value are indices below `n`. -/
def ScalarsFit (n : Int) (v : Feat) : Prop :=
  ∀ p x, v.at p = some x → x.isList = false → ∃ i, x = .int i ∧ 0 ≤ i ∧ i < n

theorem scalarsFit_int {n i : Int} (h : 0 ≤ i ∧ i < n) : ScalarsFit n (.int i) := by
  intro p x hx hl
  cases p with
  | nil =>
    rw [Feat.at_nil] at hx
    injection hx with hx
    exact ⟨i, hx.symm, h⟩
  | cons j p => simp [Feat.at] at hx

theorem scalarsFit_ids {n : Int} {ids : List Int} (h : ∀ i ∈ ids, 0 ≤ i ∧ i < n) :
    ScalarsFit n (idsFeat ids) := by
  refine scalars_list (P := fun x => ∃ i, x = .int i ∧ 0 ≤ i ∧ i < n) ?_
  intro x hx
  obtain ⟨i, hi, rfl⟩ := List.mem_map.1 hx
  exact scalarsFit_int (h i hi)

theorem embeddingIds_range {base : Int} {vecs : Dict Str (List F)} {w : Str} {i : Int}
    (h : (embeddingIds base vecs).get? w = some i) :
    base ≤ i ∧ i < ((embeddingIds base vecs).entries.length : Int) + base := by
  unfold embeddingIds at h ⊢
  rw [enumerate_entries (ws := vecs.keys) vecs.nodup]
  obtain ⟨j, hj, rfl⟩ := (enumerate_get? (ws := vecs.keys) vecs.nodup base w i).1 h
  have := (List.getElem?_eq_some_iff.1 hj).1
  simp only [List.length_map, List.length_zipIdx]
  omega

theorem wordId_range {d : Dict Str Int} (hd : ∀ w i, d.get? w = some i → 2 ≤ i ∧ i < (d.entries.length : Int) + 2)
    (lc : Bool) (text : Str) :
    0 ≤ wordId lower d lc text ∧ wordId lower d lc text < (d.entries.length : Int) + 2 := by
  unfold wordId
  cases h : d.get? (if lc = true then lower text else text) with
  | none => simp only [Option.getD_none, OOV]; omega
  | some i =>
    have := hd _ _ h
    simp only [Option.getD_some]
    omega

theorem subwordIds_range {segment : Str → List Str} {d : Dict Str Int}
    (hd : ∀ w i, d.get? w = some i → 4 ≤ i ∧ i < (d.entries.length : Int) + 4) (text : Str) :
    ∀ i ∈ subwordIds segment d text, 0 ≤ i ∧ i < (d.entries.length : Int) + 4 := by
  intro i hi
  simp only [subwordIds, List.mem_append, List.mem_singleton, List.mem_map, START, END] at hi
  rcases hi with (rfl | ⟨s, _, rfl⟩) | rfl
  · omega
  · cases h : d.get? s with
    | none => simp only [Option.getD_none, OOV]; omega
    | some i =>
      have := hd _ _ h
      simp only [Option.getD_some]
      omega
  · omega

theorem vocabulary_fits {threshold base : Int} {xs : List Str} (w : Str) (i : Int)
    (h : (vocabulary threshold base xs).get? w = some i) :
    base ≤ i ∧ i < ((vocabulary threshold base xs).entries.length : Int) + base := by
  obtain ⟨h1, h2, _⟩ := vocabulary_range h
  omega

/-- Leaves with ids: what is announced, and the ids that occur. -/
theorem leaf_ids {dataset : List Document} {s : LeafSpec} {x : BuiltX F}
    (h : s.build lower float zero tok dataset = .ok x) :
    match s with
    | .wordEmb _ init _ _ | .subwordEmb _ init _ _ => ∃ n w,
        x.shapes = .ok (Dict.ofList [(init, .dims [some n, w])]) ∧ 2 ≤ n ∧
        ∀ o v, x.extract o = .ok (Dict.ofList [(s.name, v)]) → ScalarsFit n v
    | .trainable name _ _ | .subwords name _ _ | .lemmaChars name _ _ _ => ∃ n,
        x.shapes = .ok (Dict.ofList [(name, .dims [some n])]) ∧ 2 ≤ n ∧
        ∀ o v, x.extract o = .ok (Dict.ofList [(s.name, v)]) → ScalarsFit n v
    | _ => True := by
  cases s <;> simp only [LeafSpec.build] at h <;> try trivial
  case wordEmb =>
    split at h
    · simp at h
    · rename_i st hst
      injection h with h
      subst h
      refine ⟨_, _, rfl, by omega, ?_⟩
      intro o v hv
      simp only [constInit, embInit] at hv
      obtain ⟨v', h1, h2⟩ := tokenX_ok hv
      cases ofList_single_inj h2
      injection h1 with h1
      subst h1
      exact scalarsFit_int (wordId_range (fun w i => embeddingIds_range) _ _)
  case subwordEmb =>
    split at h
    · simp at h
    · rename_i st hst
      injection h with h
      subst h
      refine ⟨_, _, rfl, by omega, ?_⟩
      intro o v hv
      simp only [constInit, embInit] at hv
      obtain ⟨v', h1, h2⟩ := tokenX_ok hv
      cases ofList_single_inj h2
      injection h1 with h1
      subst h1
      exact scalarsFit_ids (subwordIds_range (fun w i => embeddingIds_range) _)
  case trainable =>
    injection h with h
    subst h
    refine ⟨_, rfl, by omega, ?_⟩
    intro o v hv
    simp only [constInit, embInit] at hv
    obtain ⟨v', h1, h2⟩ := tokenX_ok hv
    cases ofList_single_inj h2
    injection h1 with h1
    subst h1
    exact scalarsFit_int (wordId_range vocabulary_fits _ _)
  case subwords =>
    injection h with h
    subst h
    refine ⟨_, rfl, by omega, ?_⟩
    intro o v hv
    simp only [constInit, embInit] at hv
    obtain ⟨v', h1, h2⟩ := tokenX_ok hv
    cases ofList_single_inj h2
    injection h1 with h1
    subst h1
    exact scalarsFit_ids (subwordIds_range vocabulary_fits _)
  case lemmaChars name threshold maxLen segment =>
    split at h
    · simp at h
    · rename_i voc hvoc
      injection h with h
      subst h
      refine ⟨_, rfl, by omega, ?_⟩
      intro o v hv
      simp only [constInit, embInit] at hv
      obtain ⟨v', h1, h2⟩ := tokenX_ok hv
      cases ofList_single_inj h2
      have hfit : ∀ w i, voc.get? w = some i → 4 ≤ i ∧ i < (voc.entries.length : Int) + 4 := by
        unfold lemmaVocabulary at hvoc
        split at hvoc
        · simp at hvoc
        · injection hvoc with hvoc
          subst hvoc
          exact vocabulary_fits
      cases hl : (tok o.handle).2.lemma' with
      | none => simp [encodeChars, hl, Except.map] at h1
      | some l =>
        simp only [encodeChars, hl, Except.map, Except.ok.injEq] at h1
        subst h1
        refine scalarsFit_ids ?_
        intro i hi
        unfold fitLength at hi
        split at hi
        · exact subwordIds_range hfit l i (List.mem_of_mem_take hi)
        · rcases List.mem_append.1 hi with hi | hi
          · exact subwordIds_range hfit l i hi
          · rw [List.mem_replicate] at hi
            rw [hi.2]
            simp only [PADDING]
            omega

/-- The applicability leaf. -/
theorem leaf_mask {dataset : List Document} {name : Str} {threshold : Int} {x : BuiltX F}
    (h : (LeafSpec.applicable name threshold).build lower float zero tok dataset = .ok x) :
    ∃ n : Nat, x.shapes = .ok (Dict.ofList [(name, .dims [some (n : Int)])]) ∧
      ∀ o v, x.extract o = .ok (Dict.ofList [(name, v)]) →
        ∃ l : List Bool, v = .list (l.map Feat.bool) ∧ l.length = n := by
  simp only [LeafSpec.build] at h
  split at h
  · simp at h
  · rename_i table ht
    injection h with h
    subst h
    refine ⟨table.length, rfl, ?_⟩
    intro o v hv
    simp only [constInit, embInit] at hv
    obtain ⟨v', h1, h2⟩ := tokenX_ok hv
    cases ofList_single_inj h2
    obtain ⟨l, hl, hlen, _⟩ := C48_gold_not_masked lower threshold dataset table ht
      (tok o.handle).1
    rw [hl] at h1
    simp only [Except.map, Except.ok.injEq] at h1
    exact ⟨l, h1.symm, hlen⟩

/-- The leaf of lemma rules. -/
theorem leaf_rules {dataset : List Document} {name : Str} {threshold : Int} {x : BuiltX F}
    (h : (LeafSpec.suffix name threshold).build lower float zero tok dataset = .ok x) :
    ∃ n : Nat, x.shapes = .ok (Dict.ofList [(name, .parts [("LEMMA".toList, n)])]) ∧ 0 < n ∧
      ∀ o v, x.extract o = .ok (Dict.ofList [(name, v)]) → ∃ i : Nat, i < n ∧ v = idsFeat [(i : Int)] := by
  simp only [LeafSpec.build] at h
  split at h
  · simp at h
  · rename_i table ht
    injection h with h
    subst h
    refine ⟨table.length, rfl, ?_, ?_⟩
    · obtain ⟨all, _, h2⟩ := buildRules_ok ht
      obtain ⟨b, rest, _, _, h3, _⟩ := (id2obj_spec ruleEq_rel h2).best
      simp [h3]
    · intro o v hv
      simp only [constInit, embInit] at hv
      obtain ⟨v', h1, h2⟩ := tokenX_ok hv
      cases ofList_single_inj h2
      obtain ⟨ha, hb⟩ := C47_label_in_range lower threshold dataset table ht
        (tok o.handle)
      by_cases hn : (tok o.handle).2.lemma' = none
      · rw [ha hn] at h1
        simp [Except.map] at h1
      · obtain ⟨i, hi, he⟩ := hb hn
        rw [he] at h1
        simp only [Except.map, Except.ok.injEq] at h1
        exact ⟨i, hi, h1.symm⟩

/-- The leaf of lemmas. -/
theorem leaf_lemmas {dataset : List Document} {name : Str} {x : BuiltX F}
    (h : (LeafSpec.lemmaDict name).build lower float zero tok dataset = .ok x) :
    ∃ n : Nat, x.shapes = .ok (Dict.ofList [(name, .parts [("LEMMA".toList, n)])]) ∧ 0 < n ∧
      ∀ o v, x.extract o = .ok (Dict.ofList [(name, v)]) →
        ∃ i : Int, 0 ≤ i ∧ v = idsFeat [i] ∧
        (i < n ∨ (n = 1 ∧ i = 1 ∧ ∀ t ∈ datasetTokens dataset,
          t.2.lemma' ≠ (tok o.handle).2.lemma')) := by
  simp only [LeafSpec.build] at h
  split at h
  · simp at h
  · rename_i table ht
    injection h with h
    subst h
    have hs := id2obj_spec optStrEq_rel ht
    have hpos : 0 < table.length := by
      obtain ⟨b, rest, _, _, h3, _⟩ := hs.best
      simp [h3]
    refine ⟨table.length, rfl, hpos, ?_⟩
    intro o v hv
    simp only [constInit, embInit] at hv
    obtain ⟨v', h1, h2⟩ := tokenX_ok hv
    cases ofList_single_inj h2
    injection h1 with h1
    subst h1
    by_cases hm : (tok o.handle).2.lemma' ∈
        (datasetTokens dataset).map (fun t => t.2.lemma')
    · obtain ⟨table', ht', hall⟩ := C72_lemma_dictionary _ (List.ne_nil_of_mem hm)
      rw [ht] at ht'
      injection ht' with ht'
      subst ht'
      obtain ⟨i, hi, he, _⟩ := hall _ hm
      exact ⟨i, by omega, by rw [he], Or.inl (by omega)⟩
    · obtain ⟨he, _, _⟩ := C72_unknown_lemma _ table ht _ hm
      refine ⟨1, by omega, by rw [he], ?_⟩
      by_cases h2 : 2 ≤ table.length
      · exact Or.inl (by omega)
      · refine Or.inr ⟨by omega, rfl, ?_⟩
        intro t ht' e
        exact hm (List.mem_map.2 ⟨t, ht', e⟩)

/-- The leaf of tags. -/
theorem leaf_pos {dataset : List Document} {name : Str} {splitting : Splitting} {x : BuiltX F}
    (h : (LeafSpec.posDict name splitting).build lower float zero tok dataset = .ok x) :
    ∃ parts : List (Str × Nat), x.shapes = .ok (Dict.ofList [(name, .parts parts)]) ∧
      (∀ p ∈ parts, 0 < p.2) ∧
      ∀ o v, x.extract o = .ok (Dict.ofList [(name, v)]) → ∃ ids : List Int, v = idsFeat ids ∧
        List.Forall₂ (fun (i : Int) (p : Str × Nat) => 0 ≤ i ∧ i < p.2) ids parts := by
  simp only [LeafSpec.build] at h
  split at h
  · simp at h
  · rename_i table ht
    split at h
    · simp at h
    · rename_i counts hc
      injection h with h
      subst h
      obtain ⟨_, keys, hT⟩ := buildPosTable_spec ht
      obtain ⟨keys', hC, hsplit, hkeys'⟩ := countParts_spec hc
      have hlenk : counts.keys.length = table.id2parts.length := by
        rw [hC.keys_eq, hT.length]
        cases hcn : counter Token.optPosEq (posLabels dataset) with
        | nil => simp [hcn, countParts] at hc
        | cons c cs =>
          obtain ⟨ps, hps⟩ := hsplit c.1 (by simp [hcn])
          rw [← hkeys' _ _ hps, ← hT.keys_eq _ _ hps]
      refine ⟨_, rfl, ?_, ?_⟩
      · intro p hp
        have := (List.of_mem_zip hp).2
        obtain ⟨l, hl, he⟩ := List.mem_map.1 this
        rw [← he]
        exact List.length_pos_iff.2 (hT.distinct l hl).2
      · intro o v hv
        simp only [constInit, embInit] at hv
        obtain ⟨v', h1, h2⟩ := tokenX_ok hv
        cases ofList_single_inj h2
        cases hsp : table.splitter.split (tok o.handle).2.pos with
        | error e => simp [PosTable.encode, hsp, Except.map] at h1
        | ok ps =>
          obtain ⟨ids, he, hlen, hall⟩ := encode_spec hT hsp
          rw [he] at h1
          simp only [Except.map, Except.ok.injEq] at h1
          refine ⟨_, h1.symm, ?_⟩
          rw [List.forall₂_iff_get]
          have hl2 : (ids.map (fun (n : Nat) => (n : Int))).length =
              (counts.keys.zip (table.id2parts.map List.length)).length := by
            rw [List.length_map, List.length_zip, List.length_map, hlenk, hlen, hT.length]
            simp
          refine ⟨hl2, ?_⟩
          intro j hj1 hj2
          have hj : j < ids.length := by simpa using hj1
          have hjk : j < keys.length := by omega
          have hjt : j < table.id2parts.length := by rw [hT.length]; exact hjk
          obtain ⟨_, _, _, hlt, _⟩ := hall j ids[j] table.id2parts[j] keys[j]
            (List.getElem?_eq_getElem hj) (List.getElem?_eq_getElem hjt)
            (List.getElem?_eq_getElem hjk)
          simp only [List.get_eq_getElem, List.getElem_map, List.getElem_zip]
          omega

end

end Verif
