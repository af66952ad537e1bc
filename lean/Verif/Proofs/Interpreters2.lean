import Verif.Proofs.Interpreters

/-! # Proofs about assembled interpreters: the labels of a sentence -/

namespace Verif

section
variable {F : Type} {lower : Str → Str} {float : Str → Res F} {zero : F} {tok : Nat → TextToken}
  {sp : Sparsify} {dataset : List Document} {ps : List Provider}

/-- What the label of a known word is good for. -/
structure Gold (lower : Str → Str) (p : Provider) (g : TextToken) (w : WordInterp) (ids : List Int) : Prop where
  range : w.InRange ids
  tags : w.tagsPos = true ↔ p.tags
  pos : w.tagsPos = true → ∀ t : TextToken, ∃ u, w.apply lower t ids = .ok u ∧ Option.Rel SamePos u.pos g.2.pos
  lemma' : w.tagsPos = false → ∀ t : TextToken, t.1 = g.1 → ∃ u, w.apply lower t ids = .ok u ∧
    p.lemmaOf lower g = some u.lemma'

theorem fitLength_inRange {segment : Str → List Str} {v : Dict Str Int} (hv : CharTable v) (n : Nat) (l : Str) :
    ∀ i ∈ fitLength n (subwordIds segment v l), i = PADDING ∨ i = OOV ∨ i = START ∨ i = END ∨
      ((invert v).get? i).isSome := by
  have h1 : ∀ i ∈ subwordIds segment v l, i = OOV ∨ i = START ∨ i = END ∨ ((invert v).get? i).isSome := by
    intro i hi
    simp only [subwordIds, List.mem_append, List.mem_singleton, List.mem_map] at hi
    rcases hi with (rfl | ⟨s, _, rfl⟩) | rfl
    · exact Or.inr (Or.inl rfl)
    · cases hs : v.get? s with
      | none => exact Or.inl rfl
      | some j => exact Or.inr (Or.inr (Or.inr (by simp [hv.invert hs])))
    · exact Or.inr (Or.inr (Or.inl rfl))
  intro i hi
  unfold fitLength at hi
  split at hi
  · exact Or.inr (h1 i (List.mem_of_mem_take hi))
  · rcases List.mem_append.1 hi with hi | hi
    · exact Or.inr (h1 i hi)
    · exact Or.inl (List.eq_of_mem_replicate hi)

/-- The label of a known word. -/
theorem leaf_gold {p : Provider} {s : LeafSpec} {y : BuiltX F} {w : WordInterp} (hp : p.labelSpec = some s)
    (hy : s.build lower float zero tok dataset = .ok y) (hw : s.interp lower dataset = .ok (.word w)) :
    ∃ m : Nat, ∀ h, KnownFor lower dataset (tok h) p →
      w.Trained ∧ ∃ ids : List Int, ids.length = m ∧ y.extract (.mk h []) = .ok (Dict.ofList [(s.name, idsFeat ids)]) ∧
        Gold lower p (tok h) w ids := by
  cases p <;> simp only [Provider.labelSpec, reduceCtorEq, Option.some.injEq] at hp <;> subst hp
  case posDict lab splitting =>
    simp only [LeafSpec.interp] at hw
    cases ht : buildPosTable splitting (posLabels dataset) with
    | error e => rw [ht] at hw; cases hw
    | ok table =>
      rw [ht] at hw
      injection hw with hw
      injection hw with hw
      subst hw
      simp only [LeafSpec.build, ht] at hy
      cases hc : countParts (counter Token.optPosEq (posLabels dataset)) table.splitter with
      | error e => rw [hc] at hy; cases hy
      | ok counts =>
        rw [hc] at hy
        injection hy with hy
        subst hy
        refine ⟨table.id2parts.length, ?_⟩
        rintro h ⟨h1, h2⟩
        refine ⟨⟨splitting, _, ht⟩, ?_⟩
        obtain ⟨ids, q, h3, h4, h5⟩ := C45_partial splitting _ table ht h2 _ h1
        have hr : List.Forall₂ (fun (i : Int) (l : List TagPart) => 0 ≤ i ∧ i < l.length) ids table.id2parts := by
          obtain ⟨hsp, keys, hT⟩ := buildPosTable_spec ht
          have hps : ∃ pp, table.splitter.split (tok h).2.pos = .ok pp := by
            cases hps : table.splitter.split (tok h).2.pos with
            | error e => simp [PosTable.encode, hps] at h3
            | ok pp => exact ⟨pp, rfl⟩
          obtain ⟨pp, hps⟩ := hps
          obtain ⟨ids', henc, hlen, hid⟩ := encode_spec hT hps
          rw [h3] at henc
          injection henc with henc
          subst henc
          rw [forall₂_getElem?]
          refine ⟨by rw [List.length_map, hlen, hT.length], ?_⟩
          intro j i l hi hl
          rw [List.getElem?_map] at hi
          obtain ⟨n, hn, rfl⟩ := Option.map_eq_some_iff.1 hi
          have hj : j < keys.length := hlen ▸ (List.getElem?_eq_some_iff.1 hn).1
          obtain ⟨v, _, _, hlt, _⟩ := hid j n l _ hn hl (List.getElem?_eq_getElem hj)
          exact ⟨Int.natCast_nonneg n, by exact_mod_cast hlt⟩
        refine ⟨ids, hr.length_eq, ?_, hr, ?_, ?_, ?_⟩
        · simp [constInit, tokenX, h3, Except.map, LeafSpec.name]
        · simp [WordInterp.tagsPos, Provider.tags]
        · intro _ t
          exact ⟨_, h5 t.2, h4⟩
        · intro hf; cases hf
  case lemmaDict lab =>
    simp only [LeafSpec.interp] at hw
    cases ht : buildLemmaTable ((datasetTokens dataset).map (fun t => t.2.lemma')) with
    | error e => rw [ht] at hw; cases hw
    | ok table =>
      rw [ht] at hw
      injection hw with hw
      injection hw with hw
      subst hw
      simp only [LeafSpec.build, ht] at hy
      injection hy with hy
      subst hy
      refine ⟨1, ?_⟩
      rintro h ⟨t, h1, h2⟩
      refine ⟨trivial, ?_⟩
      have hm : (tok h).2.lemma' ∈ (datasetTokens dataset).map (fun t => t.2.lemma') :=
        List.mem_map.2 ⟨t, h1, h2⟩
      obtain ⟨table', ht', hall⟩ := C72_lemma_dictionary _ (List.ne_nil_of_mem hm)
      rw [ht] at ht'
      injection ht' with ht'
      subst ht'
      obtain ⟨i, hi, he, hd⟩ := hall _ hm
      refine ⟨[(i : Int)], rfl, ?_, ⟨i, [], rfl, by omega, by omega⟩, ?_, ?_, ?_⟩
      · simp [constInit, tokenX, he, LeafSpec.name]
      · simp [WordInterp.tagsPos, Provider.tags]
      · intro hf; cases hf
      · intro _ t _
        exact ⟨_, hd t.2, rfl⟩
  case lemmaRules f lab threshold =>
    simp only [LeafSpec.interp] at hw
    cases ht : buildRules lower threshold dataset with
    | error e => rw [ht] at hw; cases hw
    | ok table =>
      rw [ht] at hw
      injection hw with hw
      injection hw with hw
      subst hw
      simp only [LeafSpec.build, ht] at hy
      injection hy with hy
      subst hy
      refine ⟨1, ?_⟩
      rintro h ⟨l, h1, t, h2, l', h3, h4, h5⟩
      refine ⟨trivial, ?_⟩
      obtain ⟨l2, h6, h7⟩ := C47_training_rules lower threshold dataset table ht t h2
      rw [h3] at h6
      injection h6 with h6
      subst h6
      rw [h4] at h7
      obtain ⟨i, hi, he, hd⟩ := C47_round_trip lower threshold dataset table ht (tok h) l h1 (h7 h5)
      refine ⟨[(i : Int)], rfl, ?_, ⟨i, [], rfl, by omega, by omega⟩, ?_, ?_, ?_⟩
      · simp [constInit, tokenX, he, LeafSpec.name, Except.map]
      · simp [WordInterp.tagsPos, Provider.tags]
      · intro hf; cases hf
      · intro _ t ht1
        have h8 := WordInterp.apply_eq lower (.lemmaRule lab table) t [(i : Int)]
        have h9 := WordInterp.apply_eq lower (.lemmaRule lab table) (tok h) [(i : Int)]
        rw [show (WordInterp.lemmaRule lab table).apply lower (tok h) [(i : Int)] = _ from hd] at h9
        rw [ht1] at h8
        cases hv : (WordInterp.lemmaRule lab table).value lower (tok h).1 [(i : Int)] with
        | error e => rw [hv] at h9; cases h9
        | ok v =>
          rw [hv] at h8 h9
          injection h9 with h9
          refine ⟨_, h8, ?_⟩
          have hk : ∃ x, v = .inr x := by
            cases v with
            | inr x => exact ⟨x, rfl⟩
            | inl q =>
              exfalso
              simp only [WordInterp.value] at hv
              revert hv
              cases pyGet [(i : Int)] 0 with
              | error e => simp
              | ok i =>
                simp only
                cases pyGet table i with
                | error e => simp
                | ok r =>
                  simp only
                  split
                  · cases r.transform (lower (tok h).1) <;> simp
                  · simp
          obtain ⟨x, rfl⟩ := hk
          simp only [setMorph] at h9 ⊢
          have := congrArg Token.lemma' h9
          simp only at this
          simp [Provider.lemmaOf, h1, ← this]
  case lemmaChars lab threshold n segment =>
    simp only [LeafSpec.interp] at hw
    cases ht : lemmaVocabulary segment threshold dataset with
    | error e => rw [ht] at hw; cases hw
    | ok voc =>
      rw [ht] at hw
      injection hw with hw
      injection hw with hw
      subst hw
      simp only [LeafSpec.build, ht] at hy
      injection hy with hy
      subst hy
      refine ⟨n, ?_⟩
      rintro h ⟨rfl, l, h1, h2, h3⟩
      refine ⟨trivial, ?_⟩
      refine ⟨fitLength n (subwordIds charSegment voc l), fitLength_length _ _, ?_,
        fitLength_inRange (lemmaVocabulary_table ht) n l, ?_, ?_, ?_⟩
      · simp [constInit, tokenX, h1, encodeChars, LeafSpec.name, Except.map]
      · simp [WordInterp.tagsPos, Provider.tags]
      · intro hf; cases hf
      · intro _ t _
        obtain ⟨ids, h4, h5⟩ := C49_exact threshold dataset voc ht n t.2 l h2 h3
        simp only [encodeChars, Except.ok.injEq] at h4
        subst h4
        exact ⟨_, h5, by simp [Provider.lemmaOf, h1]⟩

end

end Verif
