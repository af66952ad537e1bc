import Verif.Proofs.UdScore

/-!
# The table of longest common subsequences
-/

namespace Verif

/-- The length of a longest common subsequence, by the recursion of the table. -/
def lcsLen : List Str → List Str → Nat
  | [], _ => 0
  | _ :: _, [] => 0
  | f :: fs, s :: ss =>
    max (max (if f = s then 1 + lcsLen fs ss else 0) (lcsLen fs (s :: ss))) (lcsLen (f :: fs) ss)
termination_by fs ss => fs.length + ss.length

theorem lcsLen_nil_right (fs : List Str) : lcsLen fs [] = 0 := by cases fs <;> simp [lcsLen]

theorem lcsLen_cons (f s : Str) (fs ss : List Str) : lcsLen (f :: fs) (s :: ss) =
    max (max (if f = s then 1 + lcsLen fs ss else 0) (lcsLen fs (s :: ss))) (lcsLen (f :: fs) ss) := by
  rw [lcsLen]

/-- The row of the table for the gold forms `fs`. -/
def lcsRowOf (fs : List Str) : List Str → List Nat
  | [] => []
  | s :: ss => lcsLen fs (s :: ss) :: lcsRowOf fs ss

theorem lcsRowOf_headD (fs ss : List Str) : (lcsRowOf fs ss).headD 0 = lcsLen fs ss := by
  cases ss with
  | nil => simp [lcsRowOf, lcsLen_nil_right]
  | cons s ss => simp [lcsRowOf]

theorem lcsRow_eq (f : Str) (fs ss : List Str) (below : List Nat)
    (h : below = lcsRowOf fs ss ∨ (fs = [] ∧ below = [])) : lcsRow f ss below = lcsRowOf (f :: fs) ss := by
  induction ss generalizing below with
  | nil => rfl
  | cons s ss ih =>
    have ht : below.tail = lcsRowOf fs ss ∨ (fs = [] ∧ below.tail = []) := by
      rcases h with rfl | ⟨rfl, rfl⟩
      · exact .inl rfl
      · exact .inr ⟨rfl, rfl⟩
    have h1 : below.tail.headD 0 = lcsLen fs ss := by
      rcases ht with e | ⟨rfl, e⟩
      · rw [e, lcsRowOf_headD]
      · rw [e]; simp [lcsLen]
    have h2 : below.headD 0 = lcsLen fs (s :: ss) := by
      rcases h with e | ⟨rfl, e⟩
      · rw [e, lcsRowOf_headD]
      · rw [e]; simp [lcsLen]
    show max (max (if f = s then 1 + below.tail.headD 0 else 0) (below.headD 0)) ((lcsRow f ss below.tail).headD 0) ::
      lcsRow f ss below.tail = _
    rw [ih _ ht, h1, h2, lcsRowOf_headD, lcsRowOf, lcsLen_cons]

theorem computeLcs_row (fs ss : List Str) : ∀ g < fs.length, (computeLcs fs ss)[g]? = some (lcsRowOf (fs.drop g) ss) := by
  induction fs with
  | nil => intro g hg; simp at hg
  | cons f fs ih =>
    have hh : (computeLcs fs ss).headD [] = lcsRowOf fs ss ∨ (fs = [] ∧ (computeLcs fs ss).headD [] = []) := by
      cases fs with
      | nil => exact .inr ⟨rfl, rfl⟩
      | cons f' fs' =>
        have := ih 0 (by simp)
        left
        rw [List.headD_eq_head?_getD, List.head?_eq_getElem?, this]
        rfl
    intro g hg
    cases g with
    | zero =>
      show some (lcsRow f ss ((computeLcs fs ss).headD [])) = _
      rw [lcsRow_eq f fs ss _ hh]; rfl
    | succ g =>
      show (computeLcs fs ss)[g]? = _
      rw [ih g (by simpa using hg)]; rfl

theorem lcsRowOf_get (fs ss : List Str) : ∀ s < ss.length, (lcsRowOf fs ss)[s]? = some (lcsLen fs (ss.drop s)) := by
  induction ss with
  | nil => intro s hs; simp at hs
  | cons x ss ih =>
    intro s hs
    cases s with
    | zero => rfl
    | succ s =>
      show (lcsRowOf fs ss)[s]? = _
      rw [ih s (by simpa using hs)]; rfl

theorem lcsCell_eq {fs ss : List Str} {g s : Nat} (hg : g < fs.length) (hs : s < ss.length) :
    lcsCell (computeLcs fs ss) g s = .ok (lcsLen (fs.drop g) (ss.drop s)) := by
  rw [lcsCell, computeLcs_row fs ss g hg]
  simp only
  rw [lcsRowOf_get _ _ s hs]

theorem lcsBelow_eq {fs ss : List Str} {g s : Nat} (hs : s < ss.length) :
    lcsBelow (computeLcs fs ss) fs.length g s = .ok (lcsLen (fs.drop (g + 1)) (ss.drop s)) := by
  unfold lcsBelow
  by_cases h : g + 1 < fs.length
  · rw [if_pos h, lcsCell_eq h hs]
  · rw [if_neg h, List.drop_eq_nil_of_le (by omega)]; simp [lcsLen]

/-- The recursion bounds the length of every common subsequence. -/
theorem lcsLen_bound : ∀ (n : Nat) (fs ss c : List Str), fs.length + ss.length ≤ n → c.Sublist fs → c.Sublist ss →
    c.length ≤ lcsLen fs ss := by
  intro n
  induction n with
  | zero =>
    intro fs ss c hn h1 h2
    have := h1.length_le
    omega
  | succ n ih =>
    intro fs ss c hn h1 h2
    cases fs with
    | nil => rw [List.sublist_nil.1 h1]; simp
    | cons f fs =>
      cases ss with
      | nil => have := h2.length_le; simp at this; simp [this]
      | cons s ss =>
        simp only [List.length_cons] at hn
        rw [lcsLen_cons]
        cases h1 with
        | cons _ h1 =>
          have := ih fs (s :: ss) c (by simp only [List.length_cons]; omega) h1 h2
          omega
        | cons_cons _ h1' =>
          rename_i c
          cases h2 with
          | cons _ h2 =>
            have := ih (f :: fs) ss (f :: c) (by simp only [List.length_cons]; omega) (h1'.cons_cons f) h2
            omega
          | cons_cons _ h2 =>
            have := ih fs ss c (by omega) h1' h2
            rw [if_pos rfl]
            simp only [List.length_cons]
            omega

/-- The recursion is attained by a common subsequence. -/
theorem lcsLen_attained : ∀ (n : Nat) (fs ss : List Str), fs.length + ss.length ≤ n →
    ∃ c : List Str, c.Sublist fs ∧ c.Sublist ss ∧ c.length = lcsLen fs ss := by
  intro n
  induction n with
  | zero =>
    intro fs ss hn
    have : fs = [] := List.length_eq_zero_iff.1 (by omega)
    subst this
    exact ⟨[], by simp, by simp, by simp [lcsLen]⟩
  | succ n ih =>
    intro fs ss hn
    cases fs with
    | nil => exact ⟨[], by simp, by simp, by simp [lcsLen]⟩
    | cons f fs =>
      cases ss with
      | nil => exact ⟨[], by simp, by simp, by simp [lcsLen]⟩
      | cons s ss =>
        simp only [List.length_cons] at hn
        obtain ⟨c1, a1, b1, e1⟩ := ih fs ss (by omega)
        obtain ⟨c2, a2, b2, e2⟩ := ih fs (s :: ss) (by simp only [List.length_cons]; omega)
        obtain ⟨c3, a3, b3, e3⟩ := ih (f :: fs) ss (by simp only [List.length_cons]; omega)
        rw [lcsLen_cons]
        by_cases h3 : lcsLen (f :: fs) ss ≥ max (if f = s then 1 + lcsLen fs ss else 0) (lcsLen fs (s :: ss))
        · exact ⟨c3, a3, b3.cons s, by omega⟩
        · by_cases h2 : lcsLen fs (s :: ss) ≥ (if f = s then 1 + lcsLen fs ss else 0)
          · exact ⟨c2, a2.cons f, b2, by omega⟩
          · by_cases hfs : f = s
            · subst hfs
              rw [if_pos rfl] at h2 h3 ⊢
              exact ⟨f :: c1, a1.cons_cons f, b1.cons_cons f, by simp only [List.length_cons]; omega⟩
            · rw [if_neg hfs] at h2; omega

theorem lcsLen_cons_self (f : Str) (fs ss : List Str) : lcsLen (f :: fs) (f :: ss) = 1 + lcsLen fs ss := by
  obtain ⟨c, h1, h2, h3⟩ := lcsLen_attained _ (f :: fs) (f :: ss) (Nat.le_refl _)
  have hge : 1 + lcsLen fs ss ≤ lcsLen (f :: fs) (f :: ss) := by rw [lcsLen_cons, if_pos rfl]; omega
  have hle : c.tail.length ≤ lcsLen fs ss := by
    refine lcsLen_bound _ _ _ _ (Nat.le_refl _) ?_ ?_
    · exact h1.tail
    · exact h2.tail
  rw [List.length_tail] at hle
  omega

/-! ### The walk -/

theorem lcsWalk_spec (fs ss : List Str) : ∀ (fuel g s : Nat), (fs.length - g) + (ss.length - s) < fuel →
    ∃ l, lcsWalk fs ss (computeLcs fs ss) fuel g s = .ok l ∧ l.Pairwise (fun a b => a.1 < b.1 ∧ a.2 < b.2) ∧
      (∀ p ∈ l, g ≤ p.1 ∧ s ≤ p.2 ∧ ∃ x, fs[p.1]? = some x ∧ ss[p.2]? = some x) ∧
      l.length = lcsLen (fs.drop g) (ss.drop s) := by
  intro fuel
  induction fuel with
  | zero => intro g s h; omega
  | succ fuel ih =>
    intro g s hf
    by_cases hg : g < fs.length
    · by_cases hs : s < ss.length
      · have eg : fs.drop g = fs[g] :: fs.drop (g + 1) := List.drop_eq_getElem_cons hg
        have es : ss.drop s = ss[s] :: ss.drop (s + 1) := List.drop_eq_getElem_cons hs
        rw [lcsWalk, List.getElem?_eq_getElem hg, List.getElem?_eq_getElem hs]
        simp only
        by_cases he : fs[g] = ss[s]
        · rw [if_pos he]
          obtain ⟨l, h1, h2, h3, h4⟩ := ih (g + 1) (s + 1) (by omega)
          refine ⟨(g, s) :: l, by rw [h1], List.pairwise_cons.2 ⟨?_, h2⟩, ?_, ?_⟩
          · intro p hp
            have := h3 p hp
            simp only
            omega
          · intro p hp
            rcases List.mem_cons.1 hp with rfl | hp
            · exact ⟨Nat.le_refl _, Nat.le_refl _, fs[g], by simp [hg], by rw [he]; simp [hs]⟩
            · obtain ⟨q1, q2, q3⟩ := h3 p hp
              exact ⟨by omega, by omega, q3⟩
          · rw [eg, es, he, lcsLen_cons_self, List.length_cons, h4]; omega
        · rw [if_neg he, lcsCell_eq hg hs, lcsBelow_eq hs]
          simp only
          split
          · rename_i hc
            obtain ⟨l, h1, h2, h3, h4⟩ := ih (g + 1) s (by omega)
            refine ⟨l, h1, h2, ?_, ?_⟩
            · intro p hp
              obtain ⟨q1, q2, q3⟩ := h3 p hp
              exact ⟨by omega, by omega, q3⟩
            · rw [h4, hc]
          · rename_i hc
            obtain ⟨l, h1, h2, h3, h4⟩ := ih g (s + 1) (by omega)
            refine ⟨l, h1, h2, ?_, ?_⟩
            · intro p hp
              obtain ⟨q1, q2, q3⟩ := h3 p hp
              exact ⟨by omega, by omega, q3⟩
            · rw [h4]
              have := lcsLen_cons fs[g] ss[s] (fs.drop (g + 1)) (ss.drop (s + 1))
              rw [if_neg he] at this
              rw [← eg, ← es] at this
              omega
      · refine ⟨[], ?_, .nil, by simp, ?_⟩
        · rw [lcsWalk, List.getElem?_eq_getElem hg, List.getElem?_eq_none (l := ss) (by omega)]
        · rw [List.drop_eq_nil_of_le (as := ss) (by omega), lcsLen_nil_right]; rfl
    · refine ⟨[], ?_, .nil, by simp, ?_⟩
      · rw [lcsWalk, List.getElem?_eq_none (l := fs) (by omega)]
      · rw [List.drop_eq_nil_of_le (as := fs) (by omega)]; simp [lcsLen]

/-- The elements paired by a matching form a common subsequence. -/
theorem IsMatching.sublist {α : Type} {xs ys : List α} {l : List (Nat × Nat)} (h : IsMatching xs ys l) :
    ∃ c : List α, c.length = l.length ∧ c.Sublist xs ∧ c.Sublist ys := by
  obtain ⟨h1, h2⟩ := h
  have key : ∀ (l : List (Nat × Nat)) (a b : Nat), l.Pairwise (fun a b => a.1 < b.1 ∧ a.2 < b.2) →
      (∀ p ∈ l, a ≤ p.1 ∧ b ≤ p.2 ∧ ∃ x, xs[p.1]? = some x ∧ ys[p.2]? = some x) →
      ∃ c : List α, c.length = l.length ∧ c.Sublist (xs.drop a) ∧ c.Sublist (ys.drop b) := by
    intro l
    induction l with
    | nil => intro a b _ _; exact ⟨[], rfl, by simp, by simp⟩
    | cons p l ih =>
      intro a b hp hm
      obtain ⟨hp1, hp2⟩ := List.pairwise_cons.1 hp
      obtain ⟨ha, hb, x, hx, hy⟩ := hm p (by simp)
      obtain ⟨c, e, s1, s2⟩ := ih (p.1 + 1) (p.2 + 1) hp2 (by
        intro q hq
        have := hp1 q hq
        exact ⟨by omega, by omega, (hm q (by simp [hq])).2.2⟩)
      refine ⟨x :: c, by simp [e], ?_, ?_⟩
      · obtain ⟨hlt, e'⟩ := List.getElem?_eq_some_iff.1 hx
        have h3 : (x :: c).Sublist (xs.drop p.1) := by
          rw [List.drop_eq_getElem_cons hlt, e']; exact s1.cons_cons x
        have h4 : (xs.drop p.1).Sublist (xs.drop a) := by
          rw [show p.1 = a + (p.1 - a) from by omega, ← List.drop_drop]
          exact List.drop_sublist _ _
        exact h3.trans h4
      · obtain ⟨hlt, e'⟩ := List.getElem?_eq_some_iff.1 hy
        have h3 : (x :: c).Sublist (ys.drop p.2) := by
          rw [List.drop_eq_getElem_cons hlt, e']; exact s2.cons_cons x
        have h4 : (ys.drop p.2).Sublist (ys.drop b) := by
          rw [show p.2 = b + (p.2 - b) from by omega, ← List.drop_drop]
          exact List.drop_sublist _ _
        exact h3.trans h4
  obtain ⟨c, e, s1, s2⟩ := key l 0 0 h1 (fun p hp => ⟨Nat.zero_le _, Nat.zero_le _, h2 p hp⟩)
  exact ⟨c, e, by simpa using s1, by simpa using s2⟩

/-- The walk through the table returns a longest matching. -/
theorem lcsWalk_longest (fs ss : List Str) : ∃ l,
    lcsWalk fs ss (computeLcs fs ss) (fs.length + ss.length + 1) 0 0 = .ok l ∧ IsLongest fs ss l := by
  obtain ⟨l, h1, h2, h3, h4⟩ := lcsWalk_spec fs ss (fs.length + ss.length + 1) 0 0 (by omega)
  refine ⟨l, h1, ⟨h2, fun p hp => (h3 p hp).2.2⟩, ?_⟩
  intro l' hl'
  obtain ⟨c, e, s1, s2⟩ := hl'.sublist
  have := lcsLen_bound _ _ _ _ (Nat.le_refl _) s1 s2
  simp only [List.drop_zero] at h4
  omega

/-- On equal lists the walk returns the diagonal. -/
theorem lcsWalk_self (fs : List Str) (lcs : List (List Nat)) : ∀ (fuel g : Nat), fs.length - g < fuel →
    lcsWalk fs fs lcs fuel g g = .ok ((List.range' g (fs.length - g)).map (fun i => (i, i))) := by
  intro fuel
  induction fuel with
  | zero => intro g h; omega
  | succ fuel ih =>
    intro g h
    rw [lcsWalk]
    by_cases hg : g < fs.length
    · rw [List.getElem?_eq_getElem hg]
      simp only
      rw [if_pos trivial, ih (g + 1) (by omega), show fs.length - g = (fs.length - (g + 1)) + 1 from by omega,
        List.range'_succ]
      rfl
    · rw [List.getElem?_eq_none (by omega), show fs.length - g = 0 from by omega]
      rfl

end Verif
