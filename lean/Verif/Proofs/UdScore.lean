import Verif.Props.UdLoad
import Mathlib.Tactic.Linarith
import Mathlib.Tactic.FieldSimp
import Mathlib.Algebra.Order.Field.Basic
import Mathlib.Algebra.Order.Field.Rat
import Mathlib.Algebra.BigOperators.Group.List.Basic

/-!
# Proofs about scores: common spans and bounds
-/

namespace Verif

/-! ### Spans -/

/-- Spans are non-empty and each ends where a later one starts or earlier. -/
def SpansUp (l : List Span) : Prop := (∀ s ∈ l, s.start < s.stop) ∧ l.Pairwise (fun a b => a.stop ≤ b.start)

theorem spansUp_of_tile {l : List Span} {a n : Nat} (h : SpansTile a l n) : SpansUp l ∧ ∀ s ∈ l, a ≤ s.start := by
  induction l generalizing a with
  | nil => exact ⟨⟨by simp, .nil⟩, by simp⟩
  | cons s l ih =>
    obtain ⟨h1, h2, h3⟩ := h
    obtain ⟨⟨q1, q2⟩, q3⟩ := ih h3
    refine ⟨⟨?_, List.pairwise_cons.2 ⟨fun b hb => q3 b hb, q2⟩⟩, ?_⟩
    · intro t ht
      rcases List.mem_cons.1 ht with rfl | ht
      · exact h2
      · exact q1 t ht
    · intro t ht
      rcases List.mem_cons.1 ht with rfl | ht
      · omega
      · have := q3 t ht; omega

theorem SpansUp.tail {s : Span} {l : List Span} (h : SpansUp (s :: l)) : SpansUp l :=
  ⟨fun t ht => h.1 t (by simp [ht]), (List.pairwise_cons.1 h.2).2⟩

theorem SpansUp.lt {s : Span} {l : List Span} (h : SpansUp (s :: l)) : ∀ t ∈ l, s.start < t.start := by
  intro t ht
  have h1 := (List.pairwise_cons.1 h.2).1 t ht
  have h2 := h.1 s (by simp)
  omega

theorem SpansUp.nodup {l : List Span} (h : SpansUp l) : l.Nodup := by
  induction l with
  | nil => exact .nil
  | cons s l ih =>
    refine List.nodup_cons.2 ⟨fun hm => ?_, ih h.tail⟩
    have := h.lt s hm
    omega

theorem filter_mem_cons_of_not_mem {s : Span} {g ss : List Span} (h : s ∉ g) :
    (g.filter (fun x => decide (x ∈ s :: ss))) = g.filter (fun x => decide (x ∈ ss)) := by
  apply List.filter_congr
  intro x hx
  have : x ≠ s := fun e => h (e ▸ hx)
  simp [this]

theorem spansCorrect_eq {fuel : Nat} {g s : List Span} (hg : SpansUp g) (hs : SpansUp s)
    (hf : g.length + s.length ≤ fuel) :
    spansCorrect fuel g s = (g.filter (fun x => decide (x ∈ s))).length := by
  induction fuel generalizing g s with
  | zero =>
    have : g = [] := List.length_eq_zero_iff.1 (by omega)
    subst this
    simp [spansCorrect]
  | succ fuel ih =>
    cases g with
    | nil => simp [spansCorrect]
    | cons a g =>
      cases s with
      | nil => simp [spansCorrect]
      | cons b s =>
        simp only [List.length_cons] at hf
        rw [spansCorrect]
        split
        · rename_i h
          rw [ih hg hs.tail (by simp only [List.length_cons]; omega), filter_mem_cons_of_not_mem]
          intro hm
          rcases List.mem_cons.1 hm with rfl | hm
          · omega
          · have := hg.lt b hm; omega
        · split
          · rename_i h1 h
            rw [ih hg.tail hs (by simp only [List.length_cons]; omega), List.filter_cons_of_neg]
            rw [decide_eq_true_eq]
            intro hm
            rcases List.mem_cons.1 hm with rfl | hm
            · omega
            · have := hs.lt a hm; omega
          · rename_i h1 h2
            rw [ih hg.tail hs.tail (by omega)]
            have hst : a.start = b.start := by omega
            have hb : b ∉ g := fun hm => by have := hg.lt b hm; omega
            have ha : a ∉ s := fun hm => by have := hs.lt a hm; omega
            by_cases he : a.stop = b.stop
            · have hab : a = b := by cases a; cases b; simp_all
              subst hab
              rw [if_pos rfl, List.filter_cons_of_pos (by simp), filter_mem_cons_of_not_mem hb, List.length_cons]
              omega
            · have hab : a ≠ b := fun e => he (by rw [e])
              rw [if_neg he, List.filter_cons_of_neg (by simp [hab, ha]), filter_mem_cons_of_not_mem hb]
              omega

/-- Counting common elements of duplicate-free lists is symmetric. -/
theorem common_comm {g s : List Span} (hg : g.Nodup) (hs : s.Nodup) :
    (g.filter (fun x => decide (x ∈ s))).length = (s.filter (fun x => decide (x ∈ g))).length := by
  apply List.Perm.length_eq
  rw [List.perm_ext_iff_of_nodup (hg.filter _) (hs.filter _)]
  intro x
  simp [and_comm]

/-! ### Scores -/

theorem ratio_bounds {c t : Rat} (h0 : 0 ≤ c) (h1 : c ≤ t) :
    0 ≤ (if t ≠ 0 then c / t else 0) ∧ (if t ≠ 0 then c / t else 0) ≤ 1 := by
  split
  · rename_i h
    have ht : 0 < t := lt_of_le_of_ne (h0.trans h1) (Ne.symm h)
    exact ⟨div_nonneg h0 ht.le, (div_le_one ht).2 h1⟩
  · simp

theorem mediant {c g s : Rat} (h0 : 0 ≤ c) (hg : 0 < g) (hs : 0 < s) (h : g ≤ s) :
    c / s ≤ 2 * c / (s + g) ∧ 2 * c / (s + g) ≤ c / g := by
  have hsg : 0 < s + g := by linarith
  constructor
  · rw [div_le_div_iff₀ hs hsg]; nlinarith
  · rw [div_le_div_iff₀ hsg hg]; nlinarith

theorem Score.new_bounded {g s c : Rat} {a : Option Rat} (h0 : 0 ≤ c) (hg : c ≤ g) (hs : c ≤ s)
    (ha : ∀ x, a = some x → c ≤ x) : ScoreBounded (Score.new g s c a) := by
  refine ⟨ratio_bounds h0 hs, ratio_bounds h0 hg, ?_, ?_⟩
  · show min (if s ≠ 0 then c / s else 0) (if g ≠ 0 then c / g else 0) ≤ (if s + g ≠ 0 then 2 * c / (s + g) else 0) ∧
      (if s + g ≠ 0 then 2 * c / (s + g) else 0) ≤ max (if s ≠ 0 then c / s else 0) (if g ≠ 0 then c / g else 0)
    by_cases es : s = 0
    · have : c = 0 := by linarith
      subst es this
      simp
    · by_cases eg : g = 0
      · have : c = 0 := by linarith
        subst eg this
        simp
      · have hs' : 0 < s := lt_of_le_of_ne (h0.trans hs) (Ne.symm es)
        have hg' : 0 < g := lt_of_le_of_ne (h0.trans hg) (Ne.symm eg)
        rw [if_pos es, if_pos eg, if_pos (by linarith)]
        rcases le_total g s with h | h
        · obtain ⟨q1, q2⟩ := mediant h0 hg' hs' h
          exact ⟨(min_le_left _ _).trans q1, q2.trans (le_max_right _ _)⟩
        · obtain ⟨q1, q2⟩ := mediant h0 hs' hg' h
          rw [add_comm g s] at q1 q2
          exact ⟨(min_le_right _ _).trans q1, q2.trans (le_max_left _ _)⟩
  · intro x hx
    cases a with
    | none => cases hx
    | some y =>
      have hy := ha y rfl
      simp only [Score.new, Option.map_some, Option.some.injEq] at hx
      subst hx
      by_cases e : y = 0
      · simp [e]
      · have := ratio_bounds h0 hy
        rw [if_pos e] at this ⊢
        exact this

theorem Score.new_le {g s c c' : Rat} {a b : Option Rat} (hg : 0 ≤ g) (hs : 0 ≤ s) (h : c ≤ c') :
    ScoreLe (Score.new g s c a) (Score.new g s c' b) := by
  have key : ∀ t : Rat, 0 ≤ t → ∀ x y : Rat, x ≤ y → (if t ≠ 0 then x / t else 0) ≤ (if t ≠ 0 then y / t else 0) := by
    intro t ht x y hxy
    split
    · exact div_le_div_of_nonneg_right hxy ht
    · exact le_refl _
  exact ⟨key s hs _ _ h, key g hg _ _ h, key (s + g) (by linarith) _ _ (by linarith)⟩

/-- A score of a perfect match. -/
theorem Score.new_self {x : Rat} (h : x ≠ 0) (a : Option Rat) (ha : a = none ∨ a = some x) :
    (Score.new x x x a).precision = 1 ∧ (Score.new x x x a).recall = 1 ∧ (Score.new x x x a).f1 = 1 ∧
    ∀ y, (Score.new x x x a).aligned = some y → y = 1 := by
  have hx : x / x = 1 := div_self h
  have h2 : x + x ≠ 0 := by intro e; apply h; linarith
  refine ⟨by simp [Score.new, h], by simp [Score.new, h], ?_, ?_⟩
  · simp only [Score.new, if_pos h2]
    rw [← two_mul] at h2 ⊢
    exact div_self h2
  · intro y hy
    rcases ha with rfl | rfl
    · cases hy
    · simp [Score.new, h] at hy
      exact hy.symm

end Verif
