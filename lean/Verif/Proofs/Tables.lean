import Verif.Spec.Extractors
import Verif.Proofs.PyLemmas
import Mathlib.Data.List.Induction

/-! # Counters and label tables -/

namespace Verif

section
variable {α β : Type} {eq : α → α → Bool}

theorem EqRel.symm_eq (h : EqRel eq) (a b : α) : eq a b = eq b a := by
  cases h1 : eq a b with
  | true => exact (h.symm a b h1).symm
  | false =>
    cases h2 : eq b a with
    | true => rw [h.symm b a h2] at h1; simp at h1
    | false => rfl

theorem EqRel.congr_left (h : EqRel eq) {a b : α} (hab : eq a b = true) (c : α) :
    eq a c = eq b c := by
  cases h1 : eq b c with
  | true => exact h.trans a b c hab h1
  | false =>
    cases h2 : eq a c with
    | true => rw [h.trans b a c (h.symm a b hab) h2] at h1; simp at h1
    | false => rfl

theorem EqRel.congr_right (h : EqRel eq) {a b : α} (hab : eq a b = true) (c : α) :
    eq c a = eq c b := by
  rw [h.symm_eq c a, h.symm_eq c b, h.congr_left hab]

theorem eqGet_some {k : α} {v : β} {l : List (α × β)} (h : eqGet eq k l = some v) :
    ∃ p ∈ l, eq p.1 k = true ∧ p.2 = v := by
  induction l with
  | nil => simp [eqGet] at h
  | cons p l ih =>
    simp only [eqGet] at h
    split at h
    · rename_i hk
      injection h with h
      exact ⟨p, by simp, hk, h⟩
    · obtain ⟨q, hq, h1, h2⟩ := ih h
      exact ⟨q, List.mem_cons_of_mem _ hq, h1, h2⟩

theorem eqGet_none {k : α} {l : List (α × β)} :
    eqGet eq k l = none ↔ ∀ p ∈ l, eq p.1 k = false := by
  induction l with
  | nil => simp [eqGet]
  | cons p l ih =>
    simp only [eqGet]
    split
    · rename_i hk
      simp [hk]
    · rename_i hk
      simp [ih, hk]

theorem eqSet_new {k : α} {v : β} {l : List (α × β)} (h : ∀ p ∈ l, eq p.1 k = false) :
    eqSet eq k v l = l ++ [(k, v)] := by
  induction l with
  | nil => rfl
  | cons p l ih =>
    simp only [eqSet, h p (by simp), Bool.false_eq_true, if_false, List.cons_append]
    rw [ih (fun q hq => h q (List.mem_cons_of_mem _ hq))]

theorem eqSet_map {f : α → β} {k x : α} {v : β} {l : List α} (hd : Distinct eq l) (hx : x ∈ l)
    (hk : eq x k = true) (he : EqRel eq) :
    eqSet eq k v (l.map (fun a => (a, f a))) =
      l.map (fun a => (a, if eq a k then v else f a)) := by
  induction l with
  | nil => simp at hx
  | cons a l ih =>
    obtain ⟨h1, h2⟩ := List.pairwise_cons.1 hd
    simp only [List.map_cons, eqSet]
    rcases List.mem_cons.1 hx with rfl | hx'
    · simp only [hk, if_true, List.cons.injEq, true_and]
      apply List.map_congr_left
      intro b hb
      have : eq b k = false := by
        rw [he.symm_eq, ← he.congr_left hk]
        exact h1 b hb
      simp [this]
    · have : eq a k = false := by
        rw [← he.congr_right hk]
        exact h1 x hx'
      simp only [this, Bool.false_eq_true, if_false, List.cons.injEq, true_and]
      exact ih h2 hx'

theorem eqGet_map {f : α → β} {k x : α} {l : List α} (hd : Distinct eq l) (hx : x ∈ l)
    (hk : eq x k = true) (he : EqRel eq) :
    eqGet eq k (l.map (fun a => (a, f a))) = some (f x) := by
  induction l with
  | nil => simp at hx
  | cons a l ih =>
    obtain ⟨h1, h2⟩ := List.pairwise_cons.1 hd
    simp only [List.map_cons, eqGet]
    rcases List.mem_cons.1 hx with rfl | hx'
    · simp [hk]
    · have : eq a k = false := by
        rw [← he.congr_right hk]
        exact h1 x hx'
      simp only [this, Bool.false_eq_true, if_false]
      exact ih h2 hx'

/-! ### first occurrences -/

/-- First occurrences, in order. -/
def firsts (eq : α → α → Bool) : List α → List α
  | [] => []
  | x :: xs => x :: (firsts eq xs).filter (fun y => !eq x y)

theorem firsts_mem {xs : List α} {x : α} (h : x ∈ firsts eq xs) : x ∈ xs := by
  induction xs with
  | nil => simp [firsts] at h
  | cons a xs ih =>
    simp only [firsts, List.mem_cons] at h
    rcases h with rfl | h
    · simp
    · exact List.mem_cons_of_mem _ (ih (List.mem_filter.1 h).1)

theorem firsts_covers (he : EqRel eq) {xs : List α} {x : α} (h : x ∈ xs) :
    ∃ y ∈ firsts eq xs, eq y x = true := by
  induction xs with
  | nil => simp at h
  | cons a xs ih =>
    rcases List.mem_cons.1 h with rfl | h
    · exact ⟨x, by simp [firsts], he.refl x⟩
    · obtain ⟨y, hy, hyx⟩ := ih h
      cases ha : eq a y with
      | true => exact ⟨a, by simp [firsts], he.trans _ _ _ ha hyx⟩
      | false => exact ⟨y, by simp [firsts, hy, ha], hyx⟩

theorem firsts_distinct (he : EqRel eq) (xs : List α) : Distinct eq (firsts eq xs) := by
  induction xs with
  | nil => exact List.Pairwise.nil
  | cons a xs ih =>
    refine List.pairwise_cons.2 ⟨?_, List.Pairwise.filter _ ih⟩
    intro y hy
    have := (List.mem_filter.1 hy).2
    simpa using this

theorem firsts_snoc (he : EqRel eq) (xs : List α) (x : α) :
    firsts eq (xs ++ [x]) =
      if xs.any (fun y => eq y x) then firsts eq xs else firsts eq xs ++ [x] := by
  induction xs with
  | nil => simp [firsts]
  | cons a xs ih =>
    rw [List.cons_append, firsts, ih, List.any_cons]
    by_cases ha : eq a x = true
    · rw [ha, Bool.true_or, if_pos rfl]
      split
      · rfl
      · rw [List.filter_append]; simp [ha, firsts]
    · rw [Bool.not_eq_true] at ha
      rw [ha, Bool.false_or]
      split
      · rfl
      · rw [List.filter_append]; simp [ha, firsts]

theorem firsts_split (he : EqRel eq) (xs : List α) (p q : List α) (b : α)
    (h : firsts eq xs = p ++ b :: q) :
    ∃ pre post, xs = pre ++ b :: post ∧ ∀ x ∈ pre, ∃ y ∈ p, eq y x = true := by
  induction xs generalizing p q with
  | nil => simp [firsts] at h
  | cons a xs ih =>
    simp only [firsts] at h
    cases p with
    | nil =>
      simp only [List.nil_append, List.cons.injEq] at h
      exact ⟨[], xs, by simp [h.1], by simp⟩
    | cons c p =>
      simp only [List.cons_append, List.cons.injEq] at h
      obtain ⟨rfl, h⟩ := h
      obtain ⟨p', r, h1, h2, h3⟩ := List.filter_eq_append_iff.1 h
      obtain ⟨s, q', hr, hs, hb, hq⟩ := List.filter_eq_cons_iff.1 h3
      obtain ⟨pre, post, hxs, hpre⟩ := ih (p' ++ s) q' (by rw [h1, hr]; simp)
      refine ⟨a :: pre, post, by rw [hxs]; rfl, ?_⟩
      intro x hx
      rcases List.mem_cons.1 hx with rfl | hx
      · exact ⟨x, by simp, he.refl x⟩
      · obtain ⟨y, hy, hyx⟩ := hpre x hx
        cases hay : eq a y with
        | true => exact ⟨a, by simp, he.trans _ _ _ hay hyx⟩
        | false =>
          refine ⟨y, ?_, hyx⟩
          rcases List.mem_append.1 hy with hy | hy
          · right
            rw [← h2]
            exact List.mem_filter.2 ⟨hy, by simp [hay]⟩
          · exfalso
            have := hs y hy
            simp [hay] at this

/-! ### counters -/

theorem occurrences_congr (he : EqRel eq) {a b : α} (h : eq a b = true) (xs : List α) :
    occurrences eq a xs = occurrences eq b xs := by
  unfold occurrences
  congr 1
  funext c
  exact he.congr_left h c

theorem counter_eq (he : EqRel eq) (xs : List α) :
    counter eq xs = (firsts eq xs).map (fun x => (x, occurrences eq x xs)) := by
  induction xs using List.reverseRecOn with
  | nil => rfl
  | append_singleton xs x ih =>
    have hstep : counter eq (xs ++ [x]) = countAdd eq (counter eq xs) x 1 := by
      simp [counter, List.foldl_append]
    rw [hstep, ih, firsts_snoc he]
    unfold countAdd
    by_cases h : ∃ y ∈ xs, eq y x = true
    · obtain ⟨y, hy, hyx⟩ := h
      have hany : xs.any (fun y => eq y x) = true := List.any_eq_true.2 ⟨y, hy, hyx⟩
      obtain ⟨z, hz, hzy⟩ := firsts_covers he hy
      have hzx : eq z x = true := he.trans _ _ _ hzy hyx
      rw [hany, if_pos rfl, eqGet_map (firsts_distinct he xs) hz hzx he,
        eqSet_map (firsts_distinct he xs) hz hzx he]
      apply List.map_congr_left
      intro a _
      simp only [Option.getD_some, Prod.mk.injEq, true_and]
      cases hax : eq a x with
      | true =>
        simp only [if_true]
        rw [occurrences_congr he hzx, ← occurrences_congr he hax]
        simp [occurrences, List.countP_append, hax]
      | false => simp [occurrences, List.countP_append, hax]
    · have hall : ∀ y ∈ xs, eq y x = false := by
        intro y hy
        cases hyx : eq y x with
        | true => exact absurd ⟨y, hy, hyx⟩ h
        | false => rfl
      have hany : xs.any (fun y => eq y x) = false := by
        rw [List.any_eq_false]
        intro y hy
        simp [hall y hy]
      have hno : ∀ p ∈ (firsts eq xs).map (fun x => (x, occurrences eq x xs)),
          eq p.1 x = false := by
        intro p hp
        obtain ⟨y, hy, rfl⟩ := List.mem_map.1 hp
        exact hall y (firsts_mem hy)
      rw [eqGet_none.2 hno, hany, eqSet_new hno]
      simp only [Bool.false_eq_true, if_false, Option.getD_none, Nat.zero_add, List.map_append,
        List.map_cons, List.map_nil]
      congr 1
      · apply List.map_congr_left
        intro a ha
        have : eq a x = false := hall a (firsts_mem ha)
        simp [occurrences, List.countP_append, this]
      · have h0 : occurrences eq x xs = 0 := by
          rw [occurrences, List.countP_eq_zero]
          intro y hy
          rw [he.symm_eq, hall y hy]
          simp
        simp only [occurrences] at h0
        simp [occurrences, List.countP_append, h0, he.refl x]

theorem occurrences_pos (he : EqRel eq) {x : α} {xs : List α} (h : x ∈ xs) :
    0 < occurrences eq x xs := by
  rw [occurrences, List.countP_pos_iff]
  exact ⟨x, h, he.refl x⟩

/-! ### the most frequent entry -/

theorem firstMax_from (l : List (α × Nat)) (p : α × Nat) :
    ∃ pre post, p :: l = pre ++
        (l.foldl (fun best q => if best.2 < q.2 then q else best) p) :: post ∧
      (∀ q ∈ pre, q.2 < (l.foldl (fun best q => if best.2 < q.2 then q else best) p).2) ∧
      ∀ q ∈ post, q.2 ≤ (l.foldl (fun best q => if best.2 < q.2 then q else best) p).2 := by
  induction l generalizing p with
  | nil => exact ⟨[], [], by simp, by simp, by simp⟩
  | cons a l ih =>
    simp only [List.foldl_cons]
    by_cases h : p.2 < a.2
    · simp only [h, if_true]
      obtain ⟨pre, post, h1, h2, h3⟩ := ih a
      refine ⟨p :: pre, post, by rw [h1]; rfl, ?_, h3⟩
      intro q hq
      rcases List.mem_cons.1 hq with rfl | hq
      · have ha : a ∈ pre ++ (l.foldl (fun best q => if best.2 < q.2 then q else best) a) :: post := by
          rw [← h1]; simp
        rcases List.mem_append.1 ha with ha | ha
        · have := h2 a ha; omega
        · rcases List.mem_cons.1 ha with ha | ha
          · rw [← ha]; exact h
          · have := h3 a ha; omega
      · exact h2 q hq
    · simp only [h, if_false]
      obtain ⟨pre, post, h1, h2, h3⟩ := ih p
      generalize hb : l.foldl (fun best q => if best.2 < q.2 then q else best) p = b at *
      cases pre with
      | nil =>
        simp only [List.nil_append, List.cons.injEq] at h1
        obtain ⟨rfl, rfl⟩ := h1
        refine ⟨[], a :: l, by simp, by simp, ?_⟩
        intro q hq
        rcases List.mem_cons.1 hq with rfl | hq
        · omega
        · exact h3 q hq
      | cons c pre =>
        simp only [List.cons_append, List.cons.injEq] at h1
        obtain ⟨rfl, h1⟩ := h1
        refine ⟨p :: a :: pre, post, by rw [h1]; rfl, ?_, h3⟩
        intro q hq
        have hp := h2 p (by simp)
        rcases List.mem_cons.1 hq with rfl | hq
        · exact hp
        · rcases List.mem_cons.1 hq with rfl | hq
          · omega
          · exact h2 q (List.mem_cons_of_mem _ hq)

theorem firstMax_spec {l : List (α × Nat)} {b : α × Nat} (h : firstMax l = some b) :
    ∃ pre post, l = pre ++ b :: post ∧ (∀ q ∈ pre, q.2 < b.2) ∧ ∀ q ∈ post, q.2 ≤ b.2 := by
  cases l with
  | nil => simp [firstMax] at h
  | cons p l =>
    simp only [firstMax, Option.some.injEq] at h
    rw [← h]
    exact firstMax_from l p

theorem firstMax_none {l : List (α × Nat)} : firstMax l = none ↔ l = [] := by
  cases l <;> simp [firstMax]

/-! ### sorting with a comparison that may raise -/

variable {lt : α → α → Res Bool}

theorem insertM_perm {x : α} {l r : List α} (h : insertM lt x l = .ok r) : r.Perm (x :: l) := by
  induction l generalizing r with
  | nil => simp only [insertM, Except.ok.injEq] at h; subst h; exact List.Perm.refl _
  | cons y l ih =>
    simp only [insertM] at h
    split at h
    · simp at h
    · injection h with h; subst h; exact List.Perm.refl _
    · split at h
      · simp at h
      · rename_i l' hl
        injection h with h
        subst h
        exact ((ih hl).cons y).trans (List.Perm.swap x y l)

theorem sortM_perm {l r : List α} (h : sortM lt l = .ok r) : r.Perm l := by
  induction l generalizing r with
  | nil => simp only [sortM, Except.ok.injEq] at h; subst h; exact List.Perm.refl _
  | cons x l ih =>
    simp only [sortM] at h
    split at h
    · simp at h
    · rename_i l' hl
      exact (insertM_perm h).trans ((ih hl).cons x)

theorem insertM_total {x : α} {l : List α} (h : ∀ y ∈ l, ∃ r, lt y x = .ok r) :
    ∃ r, insertM lt x l = .ok r := by
  induction l with
  | nil => exact ⟨_, rfl⟩
  | cons y l ih =>
    obtain ⟨r, hr⟩ := h y (by simp)
    obtain ⟨s, hs⟩ := ih (fun z hz => h z (List.mem_cons_of_mem _ hz))
    simp only [insertM, hr, hs]
    cases r <;> exact ⟨_, rfl⟩

theorem sortM_total {l : List α} (h : Comparable lt l) : ∃ r, sortM lt l = .ok r := by
  induction l with
  | nil => exact ⟨_, rfl⟩
  | cons x l ih =>
    obtain ⟨r, hr⟩ := ih (fun a ha b hb => h a (List.mem_cons_of_mem _ ha) b
      (List.mem_cons_of_mem _ hb))
    simp only [sortM, hr]
    apply insertM_total
    intro y hy
    exact h y (List.mem_cons_of_mem _ ((sortM_perm hr).mem_iff.1 hy)) x (by simp)

theorem insertM_sorted {x : α} {l r : List α} (h : insertM lt x l = .ok r)
    (hs : l.Pairwise (fun a b => lt a b = .ok true))
    (htot : ∀ y ∈ l, lt x y = .ok true ∨ lt y x = .ok true)
    (htr : ∀ a ∈ x :: l, ∀ b ∈ x :: l, ∀ c ∈ x :: l, lt a b = .ok true → lt b c = .ok true →
      lt a c = .ok true) :
    r.Pairwise (fun a b => lt a b = .ok true) := by
  induction l generalizing r with
  | nil => simp only [insertM, Except.ok.injEq] at h; subst h; simp
  | cons y l ih =>
    obtain ⟨h1, h2⟩ := List.pairwise_cons.1 hs
    simp only [insertM] at h
    split at h
    · simp at h
    · rename_i hyx
      injection h with h
      subst h
      refine List.pairwise_cons.2 ⟨?_, hs⟩
      have hxy : lt x y = .ok true := by
        rcases htot y (by simp) with h | h
        · exact h
        · rw [hyx] at h; simp at h
      intro z hz
      rcases List.mem_cons.1 hz with rfl | hz
      · exact hxy
      · exact htr x (by simp) y (by simp) z (by simp [hz]) hxy (h1 z hz)
    · rename_i hyx
      split at h
      · simp at h
      · rename_i l' hl
        injection h with h
        subst h
        refine List.pairwise_cons.2 ⟨?_, ih hl h2 (fun z hz => htot z (List.mem_cons_of_mem _ hz)) ?_⟩
        · intro z hz
          rcases List.mem_cons.1 ((insertM_perm hl).mem_iff.1 hz) with rfl | hz
          · exact hyx
          · exact h1 z hz
        · intro a ha b hb c hc
          have hm : ∀ w, w ∈ x :: l → w ∈ x :: y :: l := by
            intro w hw
            rcases List.mem_cons.1 hw with rfl | hw
            · simp
            · simp [hw]
          exact htr a (hm a ha) b (hm b hb) c (hm c hc)

theorem sortM_sorted {l r : List α} (h : sortM lt l = .ok r) (hd : Distinct eq l)
    (ho : OrderedBy eq lt l) : r.Pairwise (fun a b => lt a b = .ok true) := by
  induction l generalizing r with
  | nil => simp only [sortM, Except.ok.injEq] at h; subst h; simp
  | cons x l ih =>
    obtain ⟨h1, h2⟩ := List.pairwise_cons.1 hd
    simp only [sortM] at h
    split at h
    · simp at h
    · rename_i l' hl
      have hp := sortM_perm hl
      have hm : ∀ w, w ∈ x :: l' → w ∈ x :: l := fun w hw => (hp.cons x).mem_iff.1 hw
      refine insertM_sorted h (ih hl h2 ⟨?_, ?_⟩) ?_ ?_
      · intro a ha b hb c hc
        exact ho.trans a (by simp [ha]) b (by simp [hb]) c (by simp [hc])
      · intro a ha b hb
        exact ho.total a (by simp [ha]) b (by simp [hb])
      · intro y hy
        have hy' := hp.mem_iff.1 hy
        exact ho.total x (by simp) y (by simp [hy']) (h1 y hy')
      · intro a ha b hb c hc
        exact ho.trans a (hm a ha) b (hm b hb) c (hm c hc)

/-! ### tables -/

theorem obj2id_from (he : EqRel eq) (l : List α) (n : Nat) (d : List (α × Nat))
    (hd : Distinct eq (d.map Prod.fst ++ l)) :
    (l.zipIdx n).foldl (fun d p => eqSet eq p.1 p.2 d) d = d ++ l.zipIdx n := by
  induction l generalizing n d with
  | nil => simp
  | cons x l ih =>
    have hno : ∀ p ∈ d, eq p.1 x = false := by
      intro p hp
      exact (List.pairwise_append.1 hd).2.2 p.1 (List.mem_map.2 ⟨p, hp, rfl⟩) x (by simp)
    rw [List.zipIdx_cons, List.foldl_cons, eqSet_new hno, ih]
    · simp
    · simpa using hd

theorem obj2id_eq (he : EqRel eq) {l : List α} (hd : Distinct eq l) : obj2id eq l = l.zipIdx := by
  have := obj2id_from he l 0 [] (by simpa using hd)
  simpa [obj2id] using this

theorem eqGet_zipIdx (he : EqRel eq) {l : List α} (hd : Distinct eq l) (n : Nat) (x : α) (i : Nat) :
    eqGet eq x (l.zipIdx n) = some i ↔ ∃ y, n ≤ i ∧ l[i - n]? = some y ∧ eq y x = true := by
  induction l generalizing n with
  | nil => simp [eqGet]
  | cons a l ih =>
    obtain ⟨h1, h2⟩ := List.pairwise_cons.1 hd
    rw [List.zipIdx_cons]
    simp only [eqGet]
    cases ha : eq a x with
    | true =>
      simp only [if_true, Option.some.injEq]
      constructor
      · rintro rfl; exact ⟨a, Nat.le_refl _, by simp, ha⟩
      · rintro ⟨y, hn, hy, hyx⟩
        by_contra hne
        have hlt : n < i := by omega
        rw [show i - n = (i - n - 1) + 1 by omega, List.getElem?_cons_succ] at hy
        have := h1 y (List.mem_of_getElem? hy)
        rw [he.trans a x y ha (he.symm _ _ hyx)] at this
        simp at this
    | false =>
      simp only [Bool.false_eq_true, if_false]
      rw [ih h2 (n + 1)]
      constructor
      · rintro ⟨y, hn, hy, hyx⟩
        refine ⟨y, by omega, ?_, hyx⟩
        rw [show i - n = (i - (n + 1)) + 1 by omega, List.getElem?_cons_succ]
        exact hy
      · rintro ⟨y, hn, hy, hyx⟩
        by_cases hi : i = n
        · subst hi
          simp only [Nat.sub_self, List.getElem?_cons_zero, Option.some.injEq] at hy
          subst hy
          rw [ha] at hyx
          simp at hyx
        · refine ⟨y, by omega, ?_, hyx⟩
          rw [show i - n = (i - (n + 1)) + 1 by omega, List.getElem?_cons_succ] at hy
          exact hy

theorem eqGet_obj2id (he : EqRel eq) {l : List α} (hd : Distinct eq l) (x : α) (i : Nat) :
    eqGet eq x (obj2id eq l) = some i ↔ ∃ y, l[i]? = some y ∧ eq y x = true := by
  rw [obj2id_eq he hd, eqGet_zipIdx he hd]
  simp

theorem Distinct.perm (he : EqRel eq) {l m : List α} (h : l.Perm m) (hd : Distinct eq l) :
    Distinct eq m :=
  h.pairwise hd (fun {a b} hab => by rw [he.symm_eq]; exact hab)

theorem aboveThreshold_sublist (threshold : Int) (c : List (α × Nat)) :
    (aboveThreshold threshold c).Sublist c := by
  unfold aboveThreshold
  split
  · exact List.filter_sublist
  · exact List.Sublist.refl _

theorem mem_aboveThreshold {threshold : Int} {c : List (α × Nat)} {p : α × Nat} :
    p ∈ aboveThreshold threshold c ↔ p ∈ c ∧ (threshold ≤ 0 ∨ threshold < p.2) := by
  unfold aboveThreshold
  split
  · rename_i h
    simp only [List.mem_filter, decide_eq_true_eq]
    constructor
    · rintro ⟨h1, h2⟩; exact ⟨h1, Or.inr h2⟩
    · rintro ⟨h1, h2 | h2⟩
      · omega
      · exact ⟨h1, h2⟩
  · rename_i h
    constructor
    · intro h1; exact ⟨h1, Or.inl (by omega)⟩
    · exact fun h1 => h1.1

/-- The objects that are sorted. -/
def tableRest (eq : α → α → Bool) (xs : List α) (threshold : Int) (best : α) : List α :=
  ((aboveThreshold threshold (counter eq xs)).map Prod.fst).filter (fun o => !eq o best)

theorem tableRest_mem (he : EqRel eq) {xs : List α} {threshold : Int} {best y : α} :
    y ∈ tableRest eq xs threshold best ↔
      y ∈ firsts eq xs ∧ (threshold ≤ 0 ∨ threshold < occurrences eq y xs) ∧ eq y best = false := by
  unfold tableRest
  simp only [List.mem_filter, List.mem_map, mem_aboveThreshold, counter_eq he]
  constructor
  · rintro ⟨⟨p, ⟨⟨z, hz, rfl⟩, h2⟩, rfl⟩, h3⟩
    exact ⟨hz, h2, by simpa using h3⟩
  · rintro ⟨h1, h2, h3⟩
    exact ⟨⟨(y, occurrences eq y xs), ⟨⟨y, h1, rfl⟩, h2⟩, rfl⟩, by simpa using h3⟩

theorem tableRest_distinct (he : EqRel eq) (xs : List α) (threshold : Int) (best : α) :
    Distinct eq (best :: tableRest eq xs threshold best) := by
  refine List.pairwise_cons.2 ⟨?_, ?_⟩
  · intro y hy
    rw [he.symm_eq]
    exact ((tableRest_mem he).1 hy).2.2
  · apply List.Pairwise.filter
    have h1 : Distinct eq ((counter eq xs).map Prod.fst) := by
      rw [counter_eq he, List.map_map]
      have : (Prod.fst ∘ fun x => (x, occurrences eq x xs)) = (id : α → α) := rfl
      rw [this, List.map_id]
      exact firsts_distinct he xs
    exact List.Pairwise.sublist ((aboveThreshold_sublist threshold _).map _) h1

theorem id2obj_ok_iff {xs : List α} {threshold : Int} {table : List α} :
    id2obj eq lt (counter eq xs) threshold = .ok table ↔
      ∃ best rest, firstMax (counter eq xs) = some best ∧
        sortM lt (tableRest eq xs threshold best.1) = .ok rest ∧ table = best.1 :: rest := by
  unfold id2obj tableRest
  cases firstMax (counter eq xs) with
  | none => simp
  | some best =>
    simp only [Option.some.injEq]
    cases h : sortM lt (List.filter (fun o => !eq o best.1)
        (List.map Prod.fst (aboveThreshold threshold (counter eq xs)))) with
    | error e =>
      simp only [reduceCtorEq, false_iff]
      rintro ⟨b, r, rfl, h1, _⟩
      rw [h] at h1
      simp at h1
    | ok l =>
      simp only [Except.ok.injEq]
      constructor
      · rintro rfl; exact ⟨best, l, rfl, h, rfl⟩
      · rintro ⟨b, r, rfl, h1, rfl⟩
        rw [h] at h1
        injection h1 with h1
        rw [h1]

/-- Everything about a label table. -/
structure TableSpec (eq : α → α → Bool) (xs : List α) (threshold : Int) (table : List α) : Prop where
  best : ∃ b rest pre post, table = b :: rest ∧ xs = pre ++ b :: post ∧
    (∀ x ∈ pre, occurrences eq x xs < occurrences eq b xs) ∧
    ∀ x ∈ xs, occurrences eq x xs ≤ occurrences eq b xs
  distinct : Distinct eq table
  subset : ∀ y ∈ table, y ∈ xs
  covers : ∀ x ∈ xs, (∃ y ∈ table, eq y x = true) ↔
    ((∃ b, table.head? = some b ∧ eq b x = true) ∨ threshold ≤ 0 ∨
      threshold < occurrences eq x xs)

theorem id2obj_spec (he : EqRel eq) {xs : List α} {threshold : Int} {table : List α}
    (h : id2obj eq lt (counter eq xs) threshold = .ok table) :
    TableSpec eq xs threshold table := by
  obtain ⟨⟨b, n⟩, rest, hb, hs, rfl⟩ := id2obj_ok_iff.1 h
  obtain ⟨p, q, h1, h2, h3⟩ := firstMax_spec hb
  have hp := sortM_perm hs
  rw [counter_eq he] at h1
  obtain ⟨fp, fq, hf, hfp, hfq⟩ := List.map_eq_append_iff.1 h1
  obtain ⟨b', fq', rfl, hb', hfq'⟩ := List.map_eq_cons_iff.1 hfq
  injection hb' with hb1 hb2
  subst hb1
  simp only at hs hp h2 h3
  have hmax : ∀ x ∈ xs, occurrences eq x xs ≤ occurrences eq b' xs := by
    intro x hx
    obtain ⟨y, hy, hyx⟩ := firsts_covers he hx
    rw [← occurrences_congr he hyx]
    rw [hf] at hy
    rcases List.mem_append.1 hy with hy | hy
    · have := h2 (y, occurrences eq y xs) (by rw [← hfp]; exact List.mem_map.2 ⟨y, hy, rfl⟩)
      simp only at this
      omega
    · rcases List.mem_cons.1 hy with rfl | hy
      · omega
      · have := h3 (y, occurrences eq y xs) (by rw [← hfq']; exact List.mem_map.2 ⟨y, hy, rfl⟩)
        simp only at this
        omega
  have hbmem : b' ∈ xs := firsts_mem (eq := eq) (by rw [hf]; simp)
  refine ⟨?_, ?_, ?_, ?_⟩
  · obtain ⟨pre, post, hxs, hpre⟩ := firsts_split he xs fp fq' b' hf
    refine ⟨b', rest, pre, post, rfl, hxs, ?_, hmax⟩
    intro x hx
    obtain ⟨y, hy, hyx⟩ := hpre x hx
    rw [← occurrences_congr he hyx, hb2]
    exact h2 (y, occurrences eq y xs) (by rw [← hfp]; exact List.mem_map.2 ⟨y, hy, rfl⟩)
  · exact Distinct.perm he (hp.symm.cons b') (tableRest_distinct he xs threshold b')
  · intro y hy
    rcases List.mem_cons.1 hy with rfl | hy
    · exact hbmem
    · exact firsts_mem ((tableRest_mem he).1 (hp.mem_iff.1 hy)).1
  · intro x hx
    simp only [List.head?_cons, Option.some.injEq]
    constructor
    · rintro ⟨y, hy, hyx⟩
      rcases List.mem_cons.1 hy with rfl | hy
      · exact Or.inl ⟨y, rfl, hyx⟩
      · right
        have := ((tableRest_mem he).1 (hp.mem_iff.1 hy)).2.1
        rwa [occurrences_congr he hyx] at this
    · rintro (⟨b, rfl, hbx⟩ | ht)
      · exact ⟨b', by simp, hbx⟩
      · obtain ⟨y, hy, hyx⟩ := firsts_covers he hx
        cases hyb : eq y b' with
        | true => exact ⟨b', by simp, by rw [← he.congr_left hyb]; exact hyx⟩
        | false =>
          refine ⟨y, ?_, hyx⟩
          right
          refine hp.mem_iff.2 ((tableRest_mem he).2 ⟨hy, ?_, hyb⟩)
          rwa [occurrences_congr he hyx]

theorem id2obj_sorted (he : EqRel eq) {xs : List α} {threshold : Int} {table : List α}
    (ho : OrderedBy eq lt xs)
    (h : id2obj eq lt (counter eq xs) threshold = .ok table) :
    table.tail.Pairwise (fun a b => lt a b = .ok true) := by
  obtain ⟨best, rest, hb, hs, rfl⟩ := id2obj_ok_iff.1 h
  have hmem : ∀ y ∈ tableRest eq xs threshold best.1, y ∈ xs :=
    fun y hy => firsts_mem ((tableRest_mem he).1 hy).1
  refine sortM_sorted hs (List.pairwise_cons.1 (tableRest_distinct he xs threshold best.1)).2
    ⟨?_, ?_⟩
  · intro a ha b hb c hc
    exact ho.trans a (hmem a ha) b (hmem b hb) c (hmem c hc)
  · intro a ha b hb
    exact ho.total a (hmem a ha) b (hmem b hb)

theorem id2obj_total (he : EqRel eq) {xs : List α} {threshold : Int} (hne : xs ≠ [])
    (hc : Comparable lt xs) : ∃ table, id2obj eq lt (counter eq xs) threshold = .ok table := by
  cases hm : firstMax (counter eq xs) with
  | none =>
    exfalso
    rw [firstMax_none, counter_eq he, List.map_eq_nil_iff] at hm
    obtain ⟨x, hx⟩ := List.exists_mem_of_ne_nil xs hne
    obtain ⟨y, hy, _⟩ := firsts_covers he hx
    rw [hm] at hy
    simp at hy
  | some best =>
    obtain ⟨r, hr⟩ := sortM_total (lt := lt) (l := tableRest eq xs threshold best.1) (by
      intro a ha b hb
      exact hc a (firsts_mem ((tableRest_mem he).1 ha).1) b (firsts_mem ((tableRest_mem he).1 hb).1))
    exact ⟨_, id2obj_ok_iff.2 ⟨best, r, hm, hr, rfl⟩⟩

theorem id2obj_nil {threshold : Int} : id2obj eq lt (counter eq []) threshold = .error .index := rfl

end

end Verif
