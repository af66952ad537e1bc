import Verif.Props.Interchange
import Verif.Props.GridRun

/-! # C170: equal training documents -/

namespace Verif

theorem posLabels_equal {ds es : List Document} (h : EqualDocs ds es) :
    List.Forall₂ (fun p q => Token.optPosEq p q = true) (posLabels ds) (posLabels es) := by
  have hl : ∀ l : List Document, posLabels l = l.flatMap fun d => d.tokens.map fun t => t.pos := fun l => by
    simp [posLabels, datasetTokens, List.map_flatMap, Document.textTokens, Function.comp_def]
  rw [hl, hl]
  unfold EqualDocs at h
  induction h with
  | nil => exact .nil
  | @cons d e ds es heq _ ih =>
    simp only [List.flatMap_cons]
    refine List.rel_append ?_ ih
    rw [List.forall₂_map_left_iff, List.forall₂_map_right_iff]
    exact (Document.pyEq_iff.1 heq).2.1.imp fun a b r => optPosEq_iff.2 r.pos

theorem occurrences_equal {ps qs : List (Option Pos)} (h : List.Forall₂ (fun p q => Token.optPosEq p q = true) ps qs)
    {p q : Option Pos} (hpq : Token.optPosEq p q = true) :
    occurrences Token.optPosEq p ps = occurrences Token.optPosEq q qs := by
  unfold occurrences
  induction h with
  | nil => rfl
  | @cons a b ps qs hab _ ih =>
    rw [List.countP_cons, List.countP_cons, ih]
    have : Token.optPosEq p a = Token.optPosEq q b := by
      rw [Bool.eq_iff_iff]
      exact ⟨fun h => optPosEq_rel.trans _ _ _ (optPosEq_rel.symm _ _ hpq) (optPosEq_rel.trans _ _ _ h hab),
        fun h => optPosEq_rel.trans _ _ _ hpq (optPosEq_rel.trans _ _ _ h (optPosEq_rel.symm _ _ hab))⟩
    rw [this]

/-- C170: the stub tagger trained on equal documents has an equal tag, or both trainings fail in the same way. -/
theorem C170_train {ds es : List Document} (h : EqualDocs ds es) :
    (stubTrain ds = .error .index ∧ stubTrain es = .error .index) ∨
    ∃ p q, stubTrain ds = .ok [p] ∧ stubTrain es = .ok [q] ∧ Token.optPosEq p q = true := by
  have hl := posLabels_equal h
  rcases C61_trainer ds with ⟨h1, h2⟩ | ⟨p, pre, post, h1, h2, h3, h4⟩
  · rcases C61_trainer es with ⟨_, k2⟩ | ⟨q, pre', post', _, k2, _⟩
    · exact .inl ⟨h2, k2⟩
    · rw [h1, k2] at hl
      cases hpre : pre' <;> rw [hpre] at hl <;> cases hl
  · rcases C61_trainer es with ⟨k1, _⟩ | ⟨q, pre', post', k1, k2, k3, k4⟩
    · rw [k1, h2] at hl
      cases hpre : pre <;> rw [hpre] at hl <;> cases hl
    · refine .inr ⟨p, q, h1, k1, ?_⟩
      generalize posLabels ds = ps at *
      generalize posLabels es = qs at *
      have hp : ps[pre.length]? = some p := by rw [h2]; simp
      have hq : qs[pre'.length]? = some q := by rw [k2]; simp
      obtain ⟨q0, a1, a2⟩ := forall₂_getElem?_left hl hp
      obtain ⟨p0, b1, b2⟩ := forall₂_getElem?_right hl hq
      have e1 := occurrences_equal hl a2
      have e2 := occurrences_equal hl b2
      have c1 := h3 p0 (List.mem_of_getElem? b1)
      have c2 := k3 q0 (List.mem_of_getElem? a1)
      rcases Nat.lt_trichotomy pre.length pre'.length with hlt | heq | hlt
      · have : q0 ∈ pre' := by
          rw [k2, List.getElem?_append_left hlt] at a1
          exact List.mem_of_getElem? a1
        have := k4 q0 this
        omega
      · rw [heq, hq] at a1
        cases a1
        exact a2
      · have : p0 ∈ pre := by
          rw [h2, List.getElem?_append_left hlt] at b1
          exact List.mem_of_getElem? b1
        have := h4 p0 this
        omega

/-- C170: documents tagged by the stub tagger with equal tags are equal. -/
theorem C170_train_tag {p q : Option Pos} (hpq : Token.optPosEq p q = true) {ds : List Document} (hb : ∀ d ∈ ds, Built d) :
    ∃ xs ys, stubTagAll p ds = .ok xs ∧ stubTagAll q ds = .ok ys ∧ EqualDocs xs ys := by
  obtain ⟨xs, x1, x2⟩ := C61_tagger p ds hb
  obtain ⟨ys, y1, y2⟩ := C61_tagger q ds hb
  refine ⟨xs, ys, x1, y1, ?_⟩
  clear x1 y1
  unfold EqualDocs
  induction ds generalizing xs ys with
  | nil => cases x2; cases y2; exact .nil
  | cons d ds ih =>
    cases x2 with
    | cons a x2 =>
      cases y2 with
      | cons b y2 =>
        refine .cons ?_ (ih (fun x hx => hb x (by simp [hx])) _ x2 _ y2)
        have hd := hb d (by simp)
        refine retagged_equal hd hd (Document.pyEq_iff.2 ⟨rfl, List.forall₂_same.2 fun t _ => ⟨rfl, rfl, optPosEq_iff.1 (optPosEq_rel.refl t.pos), rfl, rfl, rfl, rfl, rfl, fun _ => rfl⟩, rfl⟩) a.1 b.1 ?_
        have a := a.2
        have b := b.2
        rw [List.forall₂_iff_get] at a b ⊢
        refine ⟨a.1.symm.trans b.1, fun i hi hi' => ?_⟩
        have r := a.2 i (a.1 ▸ hi) hi
        have r' := b.2 i (b.1 ▸ hi') hi'
        rw [r.1, r'.1, r.2, r'.2]
        exact ⟨optPosEq_iff.1 hpq, rfl⟩

example : EqualDocs [Demo.orderedFeats [(['c'], ['1']), (['n'], ['2'])]] [Demo.orderedFeats [(['n'], ['2']), (['c'], ['1'])]] ∧
    stubTrain [Demo.orderedFeats [(['c'], ['1']), (['n'], ['2'])]] ≠ stubTrain [Demo.orderedFeats [(['n'], ['2']), (['c'], ['1'])]] :=
  ⟨.cons (by decide +kernel) .nil, by decide +kernel⟩

end Verif
