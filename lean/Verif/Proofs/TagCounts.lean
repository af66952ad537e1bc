import Verif.Props.PosLabels
import Verif.Props.LabelOrder

/-! # Counts of the parts of tags, and tables made of equal counts -/

namespace Verif

section Generic
variable {α : Type} {eq : α → α → Bool} {lt : α → α → Res Bool}

/-- The counts of the entries with a property. -/
def wsum (P : α → Bool) (c : List (α × Nat)) : Nat := (c.map (fun e => if P e.1 then e.2 else 0)).sum

theorem wsum_nil (P : α → Bool) : wsum P [] = 0 := rfl

theorem wsum_cons (P : α → Bool) (e : α × Nat) (c : List (α × Nat)) :
    wsum P (e :: c) = (if P e.1 then e.2 else 0) + wsum P c := by simp [wsum]

theorem wsum_append (P : α → Bool) (c d : List (α × Nat)) : wsum P (c ++ d) = wsum P c + wsum P d := by
  simp [wsum]

theorem wsum_eqSet {P : α → Bool} (hP : ∀ a b, eq a b = true → P a = P b) (c : List (α × Nat)) (x : α) (n : Nat) :
    wsum P (eqSet eq x ((eqGet eq x c).getD 0 + n) c) = wsum P c + if P x then n else 0 := by
  induction c with
  | nil => simp [eqSet, eqGet, wsum]
  | cons e c ih =>
    by_cases h : eq e.1 x = true
    · simp only [eqSet, eqGet, h, if_true, Option.getD_some, wsum_cons, hP _ _ h]
      by_cases hx : P x = true <;> simp [hx]
      omega
    · simp only [eqSet, eqGet, h, wsum_cons, if_false, Bool.false_eq_true]
      have : wsum P (eqSet eq x ((eqGet eq x c).getD 0 + n) c) = wsum P c + if P x then n else 0 := ih
      omega

theorem wsum_countAdd {P : α → Bool} (hP : ∀ a b, eq a b = true → P a = P b) (c : List (α × Nat)) (x : α) (n : Nat) :
    wsum P (countAdd eq c x n) = wsum P c + if P x then n else 0 := wsum_eqSet hP c x n

theorem wsum_counter {P : α → Bool} (hP : ∀ a b, eq a b = true → P a = P b) (xs : List α) :
    wsum P (counter eq xs) = xs.countP P := by
  have key : ∀ (xs : List α) (c : List (α × Nat)),
      wsum P (xs.foldl (fun c x => countAdd eq c x 1) c) = wsum P c + xs.countP P := by
    intro xs
    induction xs with
    | nil => intro c; simp
    | cons x xs ih =>
      intro c
      rw [List.foldl_cons, ih, wsum_countAdd hP, List.countP_cons]
      omega
  unfold counter
  rw [key, wsum_nil]
  omega

theorem wsum_entry (he : EqRel eq) {c : List (α × Nat)} (hd : Distinct eq (c.map Prod.fst)) {e : α × Nat}
    (h : e ∈ c) : wsum (fun z => eq z e.1) c = e.2 := by
  induction c with
  | nil => simp at h
  | cons f c ih =>
    obtain ⟨h1, h2⟩ := List.pairwise_cons.1 (show List.Pairwise _ (f.1 :: c.map Prod.fst) from hd)
    have zero : ∀ c : List (α × Nat), (∀ g ∈ c, eq g.1 e.1 = false) → wsum (fun z => eq z e.1) c = 0 := by
      intro c hc
      induction c with
      | nil => rfl
      | cons g c ih => rw [wsum_cons, hc g (by simp), ih (fun x hx => hc x (by simp [hx]))]; simp
    rw [wsum_cons]
    rcases List.mem_cons.1 h with rfl | h
    · rw [he.refl, zero c]
      · simp
      · intro g hg
        have := h1 g.1 (List.mem_map.2 ⟨g, hg, rfl⟩)
        rw [he.symm_eq]
        exact this
    · have := h1 e.1 (List.mem_map.2 ⟨e, h, rfl⟩)
      rw [this, ih h2 h]
      simp

/-- Two increasing lists with the same elements, up to equality, are equal element by element. -/
theorem sorted_forall₂ (he : EqRel eq) (hcl : ∀ a a' b, eq a a' = true → lt a b = lt a' b)
    (hcr : ∀ a b b', eq b b' = true → lt a b = lt a b') (has : ∀ a b, lt a b = .ok true → lt b a ≠ .ok true)
    {l l' : List α} (h : l.Pairwise (fun a b => lt a b = .ok true))
    (h' : l'.Pairwise (fun a b => lt a b = .ok true)) (h1 : ∀ x ∈ l, ∃ y ∈ l', eq x y = true)
    (h2 : ∀ y ∈ l', ∃ x ∈ l, eq x y = true) : List.Forall₂ (fun a b => eq a b = true) l l' := by
  induction l generalizing l' with
  | nil =>
    cases l' with
    | nil => exact .nil
    | cons b l' => obtain ⟨x, hx, _⟩ := h2 b (by simp); simp at hx
  | cons a l ih =>
    cases l' with
    | nil => obtain ⟨x, hx, _⟩ := h1 a (by simp); simp at hx
    | cons b l' =>
      obtain ⟨ha, hl⟩ := List.pairwise_cons.1 h
      obtain ⟨hb, hl'⟩ := List.pairwise_cons.1 h'
      have hab : eq a b = true := by
        obtain ⟨b1, hb1, e1⟩ := h1 a (by simp)
        obtain ⟨a1, ha1, e2⟩ := h2 b (by simp)
        rcases List.mem_cons.1 hb1 with rfl | hb1
        · exact e1
        · rcases List.mem_cons.1 ha1 with rfl | ha1
          · exact e2
          · have g1 := hb b1 hb1
            rw [← hcr b a b1 e1] at g1
            have g2 := ha a1 ha1
            rw [hcr a a1 b e2] at g2
            exact absurd g1 (has _ _ g2)
      refine .cons hab (ih hl hl' ?_ ?_)
      · intro x hx
        obtain ⟨y, hy, e⟩ := h1 x (by simp [hx])
        rcases List.mem_cons.1 hy with rfl | hy
        · exfalso
          have g := ha x hx
          rw [hcl a x x (he.trans _ _ _ hab (he.symm _ _ e))] at g
          exact has _ _ g g
        · exact ⟨y, hy, e⟩
      · intro y hy
        obtain ⟨x, hx, e⟩ := h2 y (by simp [hy])
        rcases List.mem_cons.1 hx with rfl | hx
        · exfalso
          have g := hb y hy
          rw [hcl b y y (he.trans _ _ _ (he.symm _ _ hab) e)] at g
          exact has _ _ g g
        · exact ⟨x, hx, e⟩

/-- The first element of a table has the largest count. -/
theorem id2obj_first (he : EqRel eq) {c : List (α × Nat)} (hd : Distinct eq (c.map Prod.fst)) {table : List α}
    (h : id2obj eq lt c 0 = .ok table) :
    ∃ b rest, table = b :: rest ∧ b ∈ c.map Prod.fst ∧
      ∀ y ∈ c.map Prod.fst, wsum (fun z => eq z y) c ≤ wsum (fun z => eq z b) c := by
  unfold id2obj at h
  cases hm : firstMax c with
  | none => rw [hm] at h; simp at h
  | some best =>
    rw [hm] at h
    simp only at h
    split at h
    · simp at h
    · injection h with h
      obtain ⟨pre, post, hc, h1, h2⟩ := firstMax_spec hm
      have hbm : best ∈ c := by rw [hc]; simp
      refine ⟨best.1, _, h.symm, List.mem_map.2 ⟨best, hbm, rfl⟩, ?_⟩
      intro y hy
      obtain ⟨e, hec, rfl⟩ := List.mem_map.1 hy
      rw [wsum_entry he hd hec, wsum_entry he hd hbm]
      rw [hc] at hec
      rcases List.mem_append.1 hec with hec | hec
      · exact le_of_lt (h1 e hec)
      · rcases List.mem_cons.1 hec with rfl | hec
        · exact le_refl _
        · exact h2 e hec

/-- Tables made of counts that are the same up to equality. -/
theorem id2obj_same (he : EqRel eq) (hcl : ∀ a a' b, eq a a' = true → lt a b = lt a' b)
    (hcr : ∀ a b b', eq b b' = true → lt a b = lt a b') (has : ∀ a b, lt a b = .ok true → lt b a ≠ .ok true)
    {c c' : List (α × Nat)} (hd : Distinct eq (c.map Prod.fst)) (hd' : Distinct eq (c'.map Prod.fst))
    (ho : OrderedBy eq lt (c.map Prod.fst)) (ho' : OrderedBy eq lt (c'.map Prod.fst))
    (hs : ∀ y, wsum (fun z => eq z y) c = wsum (fun z => eq z y) c')
    (h12 : ∀ x ∈ c.map Prod.fst, ∃ y ∈ c'.map Prod.fst, eq x y = true)
    (h21 : ∀ y ∈ c'.map Prod.fst, ∃ x ∈ c.map Prod.fst, eq x y = true)
    {m : α} (hm : m ∈ c.map Prod.fst)
    (hmax : ∀ y ∈ c.map Prod.fst, eq y m = false → wsum (fun z => eq z y) c < wsum (fun z => eq z m) c)
    {t t' : List α} (h : id2obj eq lt c 0 = .ok t) (h' : id2obj eq lt c' 0 = .ok t') :
    List.Forall₂ (fun a b => eq a b = true) t t' := by
  have cong : ∀ (c : List (α × Nat)) a b, eq a b = true →
      wsum (fun z => eq z a) c = wsum (fun z => eq z b) c := by
    intro c a b hab
    unfold wsum
    congr 2
    funext e
    simp only [he.congr_right hab]
  obtain ⟨b, r, rfl, hb, hbm⟩ := id2obj_first he hd h
  obtain ⟨b', r', rfl, hb', hbm'⟩ := id2obj_first he hd' h'
  have ebm : eq b m = true := by
    by_contra hne
    have := hmax b hb (by simpa using hne)
    have := hbm m hm
    omega
  have ebm' : eq b' m = true := by
    by_contra hne
    obtain ⟨x, hx, hxb⟩ := h21 b' hb'
    have g1 : eq x m = false := by
      rw [he.congr_left hxb]; simpa using hne
    have g2 := hmax x hx g1
    obtain ⟨m', hm', hmm⟩ := h12 m hm
    have g3 := hbm' m' hm'
    rw [hs, cong c' x b' hxb, hs, cong c' m m' hmm] at g2
    omega
  have ebb : eq b b' = true := he.trans _ _ _ ebm (he.symm _ _ ebm')
  have hrest : ∀ (c : List (α × Nat)) (b : α) (r : List α), Distinct eq (c.map Prod.fst) →
      OrderedBy eq lt (c.map Prod.fst) → id2obj eq lt c 0 = .ok (b :: r) →
      r.Pairwise (fun a b => lt a b = .ok true) ∧ (∀ y, y ∈ r ↔ y ∈ c.map Prod.fst ∧ eq y b = false) := by
    intro c b r hd ho h
    unfold id2obj at h
    cases hm : firstMax c with
    | none => rw [hm] at h; simp at h
    | some best =>
      rw [hm] at h
      simp only [aboveThreshold, gt_iff_lt, Int.lt_irrefl, if_false] at h
      split at h
      · simp at h
      · rename_i l hl
        injection h with h
        injection h with hb hr
        subst hr hb
        have hp := sortM_perm hl
        refine ⟨sortM_sorted hl (List.Pairwise.filter _ hd) ⟨?_, ?_⟩, ?_⟩
        · intro a ha b hb c hc
          exact ho.trans a (List.mem_filter.1 ha).1 b (List.mem_filter.1 hb).1 c (List.mem_filter.1 hc).1
        · intro a ha b hb
          exact ho.total a (List.mem_filter.1 ha).1 b (List.mem_filter.1 hb).1
        · intro y
          rw [hp.mem_iff, List.mem_filter]
          simp
  obtain ⟨s1, s2⟩ := hrest c b r hd ho h
  obtain ⟨s1', s2'⟩ := hrest c' b' r' hd' ho' h'
  refine .cons ebb (sorted_forall₂ he hcl hcr has s1 s1' ?_ ?_)
  · intro x hx
    obtain ⟨g1, g2⟩ := (s2 x).1 hx
    obtain ⟨y, hy, e⟩ := h12 x g1
    refine ⟨y, (s2' y).2 ⟨hy, ?_⟩, e⟩
    rw [← he.congr_left e, ← he.congr_right ebb]
    exact g2
  · intro y hy
    obtain ⟨g1, g2⟩ := (s2' y).1 hy
    obtain ⟨x, hx, e⟩ := h21 y g1
    refine ⟨x, (s2 x).2 ⟨hx, ?_⟩, e⟩
    rw [he.congr_left e, he.congr_right ebb]
    exact g2

/-- Tables with equal elements give equal ids. -/
theorem eqGet_same (he : EqRel eq) {t t' : List α} (hd : Distinct eq t) (hd' : Distinct eq t')
    (h : List.Forall₂ (fun a b => eq a b = true) t t') (x : α) :
    eqGet eq x (obj2id eq t) = eqGet eq x (obj2id eq t') := by
  have key : ∀ i, eqGet eq x (obj2id eq t) = some i ↔ eqGet eq x (obj2id eq t') = some i := by
    intro i
    rw [eqGet_obj2id he hd, eqGet_obj2id he hd']
    rw [forall₂_getElem?] at h
    obtain ⟨hlen, h⟩ := h
    constructor
    · rintro ⟨y, hy, e⟩
      have hi : i < t'.length := hlen ▸ (List.getElem?_eq_some_iff.1 hy).1
      have g := List.getElem?_eq_getElem hi
      exact ⟨_, g, he.trans _ _ _ (he.symm _ _ (h i y _ hy g)) e⟩
    · rintro ⟨y, hy, e⟩
      have hi : i < t.length := hlen ▸ (List.getElem?_eq_some_iff.1 hy).1
      have g := List.getElem?_eq_getElem hi
      exact ⟨_, g, he.trans _ _ _ (h i _ y g hy) e⟩
  cases h1 : eqGet eq x (obj2id eq t) with
  | some i => exact ((key i).1 h1).symm
  | none =>
    cases h2 : eqGet eq x (obj2id eq t') with
    | none => rfl
    | some i => rw [(key i).2 h2] at h1; cases h1

end Generic

/-! ### the order of parts -/

theorem posLt_congr_left {p p' q : Pos} (h : p.pyEq p' = true) : p.lt q = p'.lt q := by
  have := Pos.tupleView_eq_iff.2 (Pos.pyEq_iff.1 h)
  obtain ⟨h1, h2, _⟩ := Pos.pyEq_iff.1 h
  unfold Pos.lt
  rw [this, h1, h2]

theorem posLt_congr_right {p q q' : Pos} (h : q.pyEq q' = true) : p.lt q = p.lt q' := by
  have := Pos.tupleView_eq_iff.2 (Pos.pyEq_iff.1 h)
  obtain ⟨h1, h2, _⟩ := Pos.pyEq_iff.1 h
  unfold Pos.lt
  rw [this, h1, h2]

theorem partLt_congr_left (a a' b : TagPart) (h : TagPart.eq a a' = true) : TagPart.lt a b = TagPart.lt a' b := by
  cases a <;> cases a' <;> simp only [TagPart.eq, Bool.and_eq_true, decide_eq_true_eq, Bool.false_eq_true] at h
  · rename_i p p'
    cases p <;> cases p' <;> simp only [Token.optPosEq, Bool.false_eq_true] at h
    · rfl
    · rename_i p p'
      cases b with
      | pos q =>
        cases q with
        | none => rfl
        | some q =>
          have h0 : Token.optPosEq (some p) (some p') = true := h
          have := optPosEq_rel.congr_left h0 (some q)
          simp only [Token.optPosEq] at this
          simp only [TagPart.lt, posLt_congr_left h, this]
      | _ => rfl
  · rw [h]
  · rw [h]
  · rw [h.1, h.2]

theorem partLt_congr_right (a b b' : TagPart) (h : TagPart.eq b b' = true) : TagPart.lt a b = TagPart.lt a b' := by
  cases b <;> cases b' <;> simp only [TagPart.eq, Bool.and_eq_true, decide_eq_true_eq, Bool.false_eq_true] at h
  · rename_i p p'
    cases p <;> cases p' <;> simp only [Token.optPosEq, Bool.false_eq_true] at h
    · rfl
    · rename_i p p'
      cases a with
      | pos q =>
        cases q with
        | none => rfl
        | some q =>
          have h0 : Token.optPosEq (some p) (some p') = true := h
          have := optPosEq_rel.congr_right h0 (some q)
          simp only [Token.optPosEq] at this
          simp only [TagPart.lt, posLt_congr_right h, this]
      | str s => cases s <;> rfl
      | _ => rfl
  · rw [h]
  · rw [h]
  · rw [h.1, h.2]

theorem optStrLt_asymm {a b : Option Str} (h : optStrLt a b = .ok true) : optStrLt b a ≠ .ok true := by
  cases a <;> cases b <;> simp_all [optStrLt]
  exact le_of_lt h

theorem partLt_asymm (a b : TagPart) (h : TagPart.lt a b = .ok true) : TagPart.lt b a ≠ .ok true := by
  cases a <;> cases b <;> simp only [TagPart.lt, reduceCtorEq] at h
  · rename_i p q
    cases p <;> cases q <;> simp only [TagPart.lt, Except.ok.injEq, Option.isSome_none, Option.isSome_some,
      Bool.false_eq_true] at h ⊢
    · simp
    · rename_i p q
      split at h
      · cases h
      · rename_i hpq
        have hqp : ¬ q.pyEq p = true := fun e => hpq (optPosEq_rel.symm (some q) (some p) e)
        rw [if_neg hqp]
        intro h2
        have hc := (C14_lt_defined p q).1.1 ⟨_, h⟩
        rcases (C14_trichotomy hc).1 with ⟨_, _, g⟩ | ⟨g, _, _⟩ | ⟨g, _, _⟩
        · rw [h2] at g; cases g
        · rw [h] at g; cases g
        · rw [h] at g; cases g
  · rename_i s t
    cases s <;> cases t <;> simp_all [TagPart.lt]
    exact le_of_lt h
  · rename_i s t
    rcases itemsLt_trichotomy s t with ⟨_, _, g⟩ | ⟨g, _, _⟩ | ⟨g, _, _⟩ <;> simp_all [TagPart.lt]
  · rename_i x s y t
    simp only [TagPart.lt]
    split at h
    · rename_i hxy
      rw [if_pos (fun e => hxy e.symm)]
      exact optStrLt_asymm h
    · rename_i hxy
      have hxy : x = y := by simpa using hxy
      rw [if_neg (by simp [hxy])]
      rcases itemsLt_trichotomy s t with ⟨_, _, g⟩ | ⟨g, _, _⟩ | ⟨g, _, _⟩ <;> simp_all

theorem partLt_trans (a b c : TagPart) (h : TagPart.lt a b = .ok true) (h' : TagPart.lt b c = .ok true) :
    TagPart.lt a c = .ok true := by
  cases a <;> cases b <;> simp only [TagPart.lt, reduceCtorEq] at h <;> cases c <;>
    simp only [TagPart.lt, reduceCtorEq] at h'
  · rename_i p q r
    cases p <;> cases q <;> cases r <;> simp only [TagPart.lt, Except.ok.injEq, Option.isSome_none,
      Option.isSome_some, Bool.false_eq_true] at h h' ⊢
    rename_i p q r
    split at h
    · cases h
    · split at h'
      · cases h'
      · have g := C14_transitive h h'
        split
        · rename_i e
          rw [posLt_congr_left e] at h
          exact absurd h' (by
            intro h2
            have h3 := C14_transitive h h2
            have hc := (C14_lt_defined r r).1.1 ⟨_, h3⟩
            rcases (C14_trichotomy hc).1 with ⟨g1, _, g2⟩ | ⟨g, _, _⟩ | ⟨g1, _, g2⟩
            · rw [g1] at g2; cases g2
            · rw [h3] at g; cases g
            · rw [g1] at g2; cases g2)
        · exact g
  · rename_i s t u
    cases s <;> cases t <;> cases u <;> simp_all [TagPart.lt]
    exact lt_trans h h'
  · simp only [Except.ok.injEq] at h h'
    simp only [TagPart.lt, itemsLt_trans h h']
  · rename_i x s y t z u
    have opt : ∀ {a b c : Option Str}, optStrLt a b = .ok true → optStrLt b c = .ok true →
        optStrLt a c = .ok true ∧ a ≠ c := by
      intro a b c h h'
      cases a <;> cases b <;> cases c <;> simp_all [optStrLt]
      exact ⟨h.trans h', fun e => absurd h' (e ▸ h.asymm)⟩
    simp only [TagPart.lt]
    by_cases e1 : x = y
    · by_cases e2 : y = z
      · simp only [e1, e2, ne_eq, not_true_eq_false, if_false, Except.ok.injEq] at *
        exact itemsLt_trans h h'
      · simp only [e1, e2, ne_eq, not_true_eq_false, not_false_eq_true, if_true, if_false] at *
        exact h'
    · by_cases e2 : y = z
      · rw [← e2]
        simp only [e1, ne_eq, not_false_eq_true, if_true] at *
        exact h
      · simp only [e1, e2, ne_eq, not_false_eq_true, if_true] at *
        have := opt h h'
        simp only [this.2, not_false_eq_true, if_true, this.1]

theorem partLt_total (a b : TagPart) (h : ∃ r, TagPart.lt a b = .ok r) (hne : TagPart.eq a b = false) :
    TagPart.lt a b = .ok true ∨ TagPart.lt b a = .ok true := by
  obtain ⟨r, h⟩ := h
  cases a <;> cases b <;> simp only [TagPart.lt, reduceCtorEq] at h
  · rename_i p q
    cases p <;> cases q
    · simp [TagPart.eq, Token.optPosEq] at hne
    · left; rfl
    · right; rfl
    · rename_i p q
      have hpq : ¬ p.pyEq q = true := by simpa [TagPart.eq, Token.optPosEq] using hne
      have hqp : ¬ q.pyEq p = true := fun e => hpq (optPosEq_rel.symm (some q) (some p) e)
      simp only [TagPart.lt] at h ⊢
      rw [if_neg hpq] at h
      rw [if_neg hpq, if_neg hqp]
      have hc := (C14_lt_defined p q).1.1 ⟨_, h⟩
      rcases (C14_trichotomy hc).1 with ⟨g, _, _⟩ | ⟨_, g, _⟩ | ⟨_, _, g⟩
      · exact Or.inl g
      · exact absurd g hpq
      · exact Or.inr g
  · rename_i s t
    clear h
    cases s <;> cases t <;> simp_all [TagPart.lt, TagPart.eq]
  · rename_i s t
    simp only [TagPart.lt]
    rcases itemsLt_trichotomy s t with ⟨g, _, _⟩ | ⟨_, g, _⟩ | ⟨_, _, g⟩
    · exact Or.inl (by rw [g])
    · simp [TagPart.eq, g] at hne
    · exact Or.inr (by rw [g])
  · rename_i x s y t
    simp only [TagPart.lt]
    by_cases hxy : x = y
    · subst hxy
      simp only [ne_eq, not_true_eq_false, if_false]
      rcases itemsLt_trichotomy s t with ⟨g, _, _⟩ | ⟨_, g, _⟩ | ⟨_, _, g⟩
      · exact Or.inl (by rw [g])
      · simp [TagPart.eq, g] at hne
      · exact Or.inr (by rw [g])
    · rw [if_pos hxy] at h
      rw [if_pos hxy, if_pos (fun e => hxy e.symm)]
      cases x <;> cases y <;> simp only [optStrLt, reduceCtorEq] at h
      simp only [optStrLt, Except.ok.injEq, decide_eq_true_eq]
      clear h
      rcases lt_or_gt_of_ne (fun e => hxy (congrArg some e)) with h | h
      · exact Or.inl h
      · exact Or.inr h

/-! ### counts of the parts -/

/-- The value of a part of a tag. -/
def partValue (sp : Splitter) (k : Str) (p : Option Pos) : Option TagPart :=
  match sp.split p with
  | .ok ps => ps.get? k
  | .error _ => none

/-- The value of the part is equal to `y`. -/
def partIs (sp : Splitter) (k : Str) (y : TagPart) (p : Option Pos) : Bool :=
  match partValue sp k p with
  | some v => TagPart.eq v y
  | none => false

theorem partIs_congr (sp : Splitter) (k : Str) (y : TagPart) (p q : Option Pos)
    (h : Token.optPosEq p q = true) : partIs sp k y p = partIs sp k y q := by
  have one : ∀ p q : Option Pos, Token.optPosEq p q = true → partIs sp k y q = true → partIs sp k y p = true := by
    intro p q h hq
    unfold partIs partValue at hq ⊢
    cases hsq : sp.split q with
    | error e => rw [hsq] at hq; cases hq
    | ok qs =>
      rw [hsq] at hq
      simp only at hq
      cases hv : qs.get? k with
      | none => rw [hv] at hq; cases hq
      | some v =>
        rw [hv] at hq
        obtain ⟨ps, h1, h2⟩ := split_congr h hsq
        obtain ⟨w, h3, h4⟩ := h2 k v hv
        rw [h1]
        simp only [h3]
        exact partEq_rel.trans _ _ _ h4 hq
  rw [Bool.eq_iff_iff]
  exact ⟨one q p (optPosEq_rel.symm _ _ h), one p q h⟩

theorem countLabel_counts {sp : Splitter} {result r' : PartCounts} {item : Option Pos × Nat}
    (h : countLabel sp result item = .ok r') (hk : ∀ ps, sp.split item.1 = .ok ps → ps.keys = result.keys)
    (k : Str) (y : TagPart) (c c' : List (TagPart × Nat)) (hc : result.get? k = some c)
    (hc' : r'.get? k = some c') :
    wsum (fun z => TagPart.eq z y) c' =
      wsum (fun z => TagPart.eq z y) c + if partIs sp k y item.1 then item.2 else 0 := by
  unfold countLabel at h
  cases hs : sp.split item.1 with
  | error e => rw [hs] at h; cases h
  | ok ps =>
    rw [hs] at h
    obtain ⟨r1, h1, _, h3⟩ := countParts_entries item.2 ps.entries result (by
      intro e he
      rw [← hk ps hs]
      exact List.mem_map.2 ⟨e, he, rfl⟩) ps.nodup
    have h1 := h1.symm.trans h
    injection h1 with h1
    subst h1
    have hkm : k ∈ ps.keys := by
      rw [hk ps hs]; exact Dict.get?_isSome.1 (by rw [hc]; rfl)
    obtain ⟨v, hv⟩ := Option.isSome_iff_exists.1 (Dict.get?_isSome.2 hkm)
    have hv' : assocGet k ps.entries = some v := hv
    rw [h3 k, hv', hc] at hc'
    simp only [Option.map_some, Option.some.injEq] at hc'
    subst hc'
    rw [wsum_countAdd (eq := TagPart.eq) (P := fun z => TagPart.eq z y) (fun a b hab => partEq_rel.congr_left hab y)]
    have : partIs sp k y item.1 = TagPart.eq v y := by simp only [partIs, partValue, hs, hv]
    rw [this]

theorem countLoop_counts {sp : Splitter} (items : List (Option Pos × Nat)) {keys : List Str}
    (hk : ∀ p ps, sp.split p = .ok ps → ps.keys = keys) {result r' : PartCounts}
    (h : forM' (countLabel sp) result items = .ok r') (hkeys : result.keys = keys)
    (k : Str) (y : TagPart) (c c' : List (TagPart × Nat)) (hc : result.get? k = some c)
    (hc' : r'.get? k = some c') :
    wsum (fun z => TagPart.eq z y) c' = wsum (fun z => TagPart.eq z y) c + wsum (partIs sp k y) items := by
  induction items generalizing result c with
  | nil =>
    simp only [forM', Except.ok.injEq] at h
    subst h
    rw [hc] at hc'
    injection hc' with hc'
    subst hc'
    rw [wsum_nil]; rfl
  | cons item items ih =>
    simp only [forM'] at h
    split at h
    · rename_i r1 h1
      have hkr : ∀ ps, sp.split item.1 = .ok ps → ps.keys = result.keys := fun ps hps => by rw [hk _ ps hps, hkeys]
      have hr1 : r1.keys = keys := by
        unfold countLabel at h1
        cases hs : sp.split item.1 with
        | error e => rw [hs] at h1; cases h1
        | ok ps =>
          rw [hs] at h1
          obtain ⟨r2, g1, g2, _⟩ := countParts_entries item.2 ps.entries result (by
            intro e he
            rw [← hkr ps hs]
            exact List.mem_map.2 ⟨e, he, rfl⟩) ps.nodup
          have g1 := g1.symm.trans h1
          injection g1 with g1
          subst g1
          rw [g2, hkeys]
      have hkm : k ∈ r1.keys := by
        rw [hr1, ← hkeys]; exact Dict.get?_isSome.1 (by rw [hc]; rfl)
      obtain ⟨c1, hc1⟩ := Option.isSome_iff_exists.1 (Dict.get?_isSome.2 hkm)
      rw [ih h hr1 c1 hc1, countLabel_counts h1 hkr k y c c1 hc hc1, wsum_cons]
      omega
    · cases h

/-- The counts of the values of a part are the numbers of the training words with that value. -/
theorem countParts_counts {sp : Splitter} {labels : List (Option Pos)} {result : PartCounts}
    (h : countParts (counter Token.optPosEq labels) sp = .ok result) (k : Str) (y : TagPart)
    (c : List (TagPart × Nat)) (hc : result.get? k = some c) :
    wsum (fun z => TagPart.eq z y) c = labels.countP (partIs sp k y) := by
  obtain ⟨keys, hi, _, hk⟩ := countParts_spec h
  rw [← wsum_counter (partIs_congr sp k y)]
  generalize counter Token.optPosEq labels = counts at h hi
  cases counts with
  | nil => simp [countParts] at h
  | cons first rest =>
    simp only [countParts] at h
    split at h
    · simp at h
    · rename_i ps hps
      have hnil : ∀ k c, (Dict.ofList (ps.keys.map (fun k => (k, ([] : List (TagPart × Nat)))))).get? k =
          some c → c = [] := by
        intro k c h
        have := ofList_mem_of_get? _ _ _ h
        simp only [List.mem_map, Prod.mk.injEq] at this
        obtain ⟨_, _, _, rfl⟩ := this
        rfl
      have hks := (countInv_init sp ps.keys ps.nodup).keys_eq
      have hkm : k ∈ (Dict.ofList (ps.keys.map (fun k => (k, ([] : List (TagPart × Nat)))))).keys := by
        rw [hks, hk _ _ hps, ← hi.keys_eq]
        exact Dict.get?_isSome.1 (by rw [hc]; rfl)
      obtain ⟨c0, hc0⟩ := Option.isSome_iff_exists.1 (Dict.get?_isSome.2 hkm)
      rw [countLoop_counts _ hk h (by rw [hks, hk _ _ hps]) k y c0 c hc0 hc, hnil k c0 hc0, wsum_nil]
      omega

end Verif
