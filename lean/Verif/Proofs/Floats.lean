import Verif.Model.Floats
import Verif.Proofs.Evaluation
import Mathlib.Tactic.Linarith
import Mathlib.Tactic.NormNum
import Mathlib.Tactic.Ring
import Mathlib.Tactic.FieldSimp
import Mathlib.Algebra.Order.Field.Rat
import Mathlib.Algebra.Order.Field.Basic

/-! # Rounding errors of sums and means, and selection by a number -/

namespace Verif

/-- The numbers added one after the other, with rounding. -/
def flFold (rnd : Rat → Rat) (acc : Rat) (ys : List Rat) : Rat := ys.foldl (fun a y => rnd (a + y)) acc

section
variable {rnd : Rat → Rat} {u : Rat}

/-- The error of a sum of `k` numbers, each of them known up to `δ` and between 0 and 1. -/
theorem flFold_error (hr : ∀ x, |rnd x - x| ≤ u * |x|) (hu : 0 ≤ u) {δ : Rat} (hδ : 0 ≤ δ) (K : Nat)
    (hK : K * δ + u * K * (K + 3) / 2 + δ ≤ 1) {ys xs : List Rat}
    (h : List.Forall₂ (fun y x => |y - x| ≤ δ ∧ 0 ≤ x ∧ x ≤ 1) ys xs) :
    ∀ (acc A : Rat) (i : Nat), i + xs.length ≤ K → 0 ≤ A → A ≤ i →
      |acc - A| ≤ i * δ + u * i * (i + 3) / 2 →
      |flFold rnd acc ys - (A + xs.sum)| ≤
        (i + xs.length : Nat) * δ + u * (i + xs.length : Nat) * ((i + xs.length : Nat) + 3) / 2 := by
  induction h with
  | nil =>
    intro acc A i _ _ _ he
    simpa [flFold] using he
  | cons hxy hrest ih =>
    rename_i y x ys xs
    intro acc A i hi hA hAi he
    obtain ⟨h1, h2, h3⟩ := hxy
    have hi' : (i : Rat) + 1 ≤ K := by
      have : i + 1 ≤ K := by simp only [List.length_cons] at hi; omega
      exact_mod_cast this
    have hiK : (i : Rat) ≤ K := by linarith
    have hi0 : (0 : Rat) ≤ i := Nat.cast_nonneg i
    have hmono : i * δ + u * i * (i + 3) / 2 + δ ≤ 1 := by
      have a1 : i * δ ≤ K * δ := mul_le_mul_of_nonneg_right hiK hδ
      have a2 : (i : Rat) * (i + 3) ≤ K * (K + 3) := by nlinarith
      have a3 : u * (i * (i + 3)) ≤ u * (K * (K + 3)) := mul_le_mul_of_nonneg_left a2 hu
      have e1 : u * i * (i + 3) / 2 = u * (i * (i + 3)) / 2 := by ring
      have e2 : u * K * (K + 3) / 2 = u * (K * (K + 3)) / 2 := by ring
      rw [e2] at hK
      rw [e1]
      linarith
    have habs := hr (acc + y)
    have hsize : |acc + y| ≤ i + 2 := by
      have b1 := abs_le.mp he
      have b2 := abs_le.mp h1
      rw [abs_le]
      constructor <;> linarith [b1.1, b1.2, b2.1, b2.2]
    have hround : |rnd (acc + y) - (acc + y)| ≤ u * (i + 2) :=
      habs.trans (mul_le_mul_of_nonneg_left hsize hu)
    have hnew : |rnd (acc + y) - (A + x)| ≤ (i + 1 : Nat) * δ + u * (i + 1 : Nat) * ((i + 1 : Nat) + 3) / 2 := by
      have b1 := abs_le.mp he
      have b2 := abs_le.mp h1
      have b3 := abs_le.mp hround
      have e : ((i + 1 : Nat) : Rat) * δ + u * (i + 1 : Nat) * ((i + 1 : Nat) + 3) / 2 =
          (i * δ + u * i * (i + 3) / 2) + δ + u * (i + 2) := by push_cast; ring
      rw [e, abs_le]
      constructor <;> linarith [b1.1, b1.2, b2.1, b2.2, b3.1, b3.2]
    have := ih (rnd (acc + y)) (A + x) (i + 1) (by simp only [List.length_cons] at hi; omega)
      (by linarith) (by push_cast; linarith) hnew
    rw [List.sum_cons, List.length_cons]
    have e : i + (xs.length + 1) = i + 1 + xs.length := by omega
    rw [e, ← add_assoc]
    exact this

theorem flFold_error' (hr : ∀ x, |rnd x - x| ≤ u * |x|) (hu : 0 ≤ u) {δ : Rat} (hδ : 0 ≤ δ)
    {ys xs : List Rat} (h : List.Forall₂ (fun y x => |y - x| ≤ δ ∧ 0 ≤ x ∧ x ≤ 1) ys xs)
    (hK : xs.length * δ + u * xs.length * (xs.length + 3) / 2 + δ ≤ 1) :
    |flFold rnd 0 ys - xs.sum| ≤ xs.length * δ + u * xs.length * (xs.length + 3) / 2 := by
  have := flFold_error hr hu hδ xs.length hK h 0 0 0 (by simp) le_rfl (by simp) (by simp)
  simpa using this

/-- The sum of numbers between 0 and 1 is between 0 and their number. -/
theorem sum_bounds {xs : List Rat} (h : ∀ x ∈ xs, 0 ≤ x ∧ x ≤ 1) : 0 ≤ xs.sum ∧ xs.sum ≤ xs.length := by
  induction xs with
  | nil => simp
  | cons x xs ih =>
    obtain ⟨h1, h2⟩ := h x List.mem_cons_self
    obtain ⟨h3, h4⟩ := ih (fun y hy => h y (List.mem_cons_of_mem _ hy))
    rw [List.sum_cons, List.length_cons]
    push_cast
    constructor <;> linarith

/-- The error of a mean. -/
theorem flMean_error (hr : ∀ x, |rnd x - x| ≤ u * |x|) (hu : 0 ≤ u) {δ : Rat} (hδ : 0 ≤ δ)
    {ys xs : List Rat} (h : List.Forall₂ (fun y x => |y - x| ≤ δ ∧ 0 ≤ x ∧ x ≤ 1) ys xs) (hne : xs ≠ [])
    (hK : xs.length * δ + u * xs.length * (xs.length + 3) / 2 + δ ≤ 1) :
    |flMean rnd ys - xs.sum / xs.length| ≤ δ + u * (xs.length + 3) / 2 + 2 * u := by
  have hl : ys.length = xs.length := h.length_eq
  have hm : (0 : Rat) < xs.length := by exact_mod_cast List.length_pos_of_ne_nil hne
  have hm1 : (1 : Rat) ≤ xs.length := by exact_mod_cast List.length_pos_of_ne_nil hne
  have hb := sum_bounds (xs := xs) (by
    intro x hx
    obtain ⟨i, hi, rfl⟩ := List.mem_iff_getElem.mp hx
    have := (List.forall₂_iff_get.mp h).2 i (by omega) hi
    exact this.2)
  have hS := flFold_error' hr hu hδ h hK
  unfold flMean
  change |rnd (flFold rnd 0 ys / ys.length) - _| ≤ _
  rw [hl]
  generalize hm' : (xs.length : Rat) = m at *
  generalize flFold rnd 0 ys = S at *
  generalize xs.sum = X at *
  have hE : (m * δ + u * m * (m + 3) / 2) / m = δ + u * (m + 3) / 2 := by field_simp
  have h1 : |S / m - X / m| ≤ δ + u * (m + 3) / 2 := by
    rw [← sub_div, abs_div, abs_of_pos hm, ← hE]
    exact div_le_div_of_nonneg_right hS hm.le
  have h2 := hr (S / m)
  have hX : 0 ≤ X / m ∧ X / m ≤ 1 := ⟨div_nonneg hb.1 hm.le, by rw [div_le_one hm]; exact hb.2⟩
  have hsmall : δ + u * (m + 3) / 2 ≤ 1 := by
    have : 0 ≤ m * δ := mul_nonneg hm.le hδ
    have e : u * (m + 3) / 2 ≤ u * m * (m + 3) / 2 := by
      have : u * (m + 3) ≤ m * (u * (m + 3)) := le_mul_of_one_le_left (mul_nonneg hu (by linarith)) hm1
      have e' : u * m * (m + 3) = m * (u * (m + 3)) := by ring
      rw [e']; linarith
    linarith
  have h3 : |S / m| ≤ 2 := by
    have := abs_le.mp h1
    rw [abs_le]; constructor <;> linarith [this.1, this.2, hX.1, hX.2]
  have h4 : |rnd (S / m) - S / m| ≤ u * 2 := h2.trans (mul_le_mul_of_nonneg_left h3 hu)
  have a := abs_le.mp h1
  have b := abs_le.mp h4
  rw [abs_le]; constructor <;> linarith [a.1, a.2, b.1, b.2]

end

/-! ### Selection by a number -/

/-- A comparison by the number `v` keeps the first of the candidates with the greatest number. -/
theorem Run.select {τ : Type} {better : Option ScoreTable → Option ScoreTable → Res Bool} {pathOf : Nat → List Str}
    (v : ScoreTable → Rat) (P : ScoreTable → Prop)
    (hb : ∀ a b, P a → P b → better (some a) (some b) = .ok (decide (v b < v a)))
    {cs : List (τ × Option ScoreTable × List Ev)} {st : Sel τ} (h : Run better pathOf cs st)
    (hs : ∀ c ∈ cs, ∃ t, c.2.1 = some t ∧ P t) (hne : cs ≠ []) :
    ∃ (e : Nat) (c : τ × Option ScoreTable × List Ev) (te : ScoreTable), cs[e]? = some c ∧
      st.best = some c.1 ∧ st.scores = some te ∧ c.2.1 = some te ∧ st.path = some (pathOf e) ∧
      ∀ (i : Nat) (c' : τ × Option ScoreTable × List Ev), cs[i]? = some c' →
        ∃ ti, c'.2.1 = some ti ∧ v ti ≤ v te ∧ (i < e → v ti < v te) := by
  induction h with
  | nil => exact absurd rfl hne
  | @snoc cs st st' c hr hstep ih =>
    obtain ⟨tc, htc, hP⟩ := hs c (by simp)
    have hi := hr.index
    by_cases hcs : cs = []
    · subst hcs
      cases hr.stored with
      | inr h => obtain ⟨e, c', h, _⟩ := h; simp at h
      | inl h =>
        obtain ⟨_, rfl⟩ := h
        rcases step_cases hstep with ⟨_, rfl⟩ | ⟨h1, _⟩
        · refine ⟨0, c, tc, by simp, rfl, htc, htc, rfl, ?_⟩
          intro i c' h2
          have := (List.getElem?_eq_some_iff.mp h2).1
          simp at this
          subst this
          simp at h2
          subst h2
          exact ⟨tc, htc, le_rfl, by omega⟩
        · simp [isBetter] at h1
    · obtain ⟨e, ce, te, h1, h2, h3, h4, h5, h6⟩ := ih (fun c hc => hs c (by simp [hc])) hcs
      have he := (List.getElem?_eq_some_iff.mp h1).1
      obtain ⟨te', hte, hPe⟩ := hs ce (List.mem_append_left _ (List.mem_of_getElem? h1))
      rw [h4] at hte
      injection hte with hte
      subst hte
      have hcmp : isBetter better c.2.1 st.scores = .ok (decide (v te < v tc)) := by
        rw [h3, htc]; exact hb tc te hP hPe
      rcases step_cases hstep with ⟨hb', rfl⟩ | ⟨hb', rfl⟩
      · rw [hcmp] at hb'
        have hlt : v te < v tc := by simpa using hb'
        refine ⟨cs.length, c, tc, by simp, rfl, htc, htc, by rw [hi], ?_⟩
        intro i c' h7
        by_cases hil : i < cs.length
        · rw [List.getElem?_append_left hil] at h7
          obtain ⟨ti, g1, g2, _⟩ := h6 i c' h7
          exact ⟨ti, g1, g2.trans hlt.le, fun _ => lt_of_le_of_lt g2 hlt⟩
        · have hil' : i = cs.length := by
            have := (List.getElem?_eq_some_iff.mp h7).1
            simp at this; omega
          subst hil'
          simp at h7
          subst h7
          exact ⟨tc, htc, le_rfl, by omega⟩
      · rw [hcmp] at hb'
        have hle : v tc ≤ v te := by simpa using hb'
        refine ⟨e, ce, te, by rw [List.getElem?_append_left he]; exact h1, h2, h3, h4, h5, ?_⟩
        intro i c' h7
        by_cases hil : i < cs.length
        · rw [List.getElem?_append_left hil] at h7
          exact h6 i c' h7
        · have hil' : i = cs.length := by
            have := (List.getElem?_eq_some_iff.mp h7).1
            simp at this; omega
          subst hil'
          simp at h7
          subst h7
          exact ⟨tc, htc, hle, by omega⟩

/-! ### The sum over the fields -/

section
variable {rnd : Rat → Rat} {u : Rat}

/-- The table has the number `val f` for every field. -/
def HasValues (fields : List Str) (metric : Str) (t : ScoreTable) (val : Str → Rat) : Prop :=
  ∀ f ∈ fields, ∃ s, t.get? f = some s ∧ AttrIs metric s (val f)

theorem flSum_values {fields : List Str} {metric : Str} {t : ScoreTable} {val : Str → Rat}
    (h : HasValues fields metric t val) :
    flSum rnd fields metric (some t) = .ok (flFold rnd 0 (fields.map val)) := by
  unfold flSum
  simp only
  generalize (0 : Rat) = acc
  induction fields generalizing acc with
  | nil => rfl
  | cons f fs ih =>
    obtain ⟨s, h1, h2⟩ := h f List.mem_cons_self
    have hf : flAdd rnd metric t acc f = .ok (rnd (acc + val f)) := by
      unfold flAdd
      rw [h1]
      simp only
      rw [scoreAttr_iff.mpr h2]
    simp only [forM', hf]
    exact ih (fun f' hf' => h f' (List.mem_cons_of_mem _ hf')) _

theorem flBetter_values {fields : List Str} {metric : Str} {a b : ScoreTable} {va vb : Str → Rat}
    (ha : HasValues fields metric a va) (hb : HasValues fields metric b vb) :
    flBetter rnd fields metric (some a) (some b) =
      .ok (decide (flFold rnd 0 (fields.map vb) < flFold rnd 0 (fields.map va))) := by
  unfold flBetter
  rw [flSum_values ha, flSum_values hb]

/-- More right answers make a greater sum, in spite of the rounding. -/
theorem flFold_lt (hr : ∀ x, |rnd x - x| ≤ u * |x|) (hu : 0 ≤ u) {δ : Rat} (hδ : 0 ≤ δ) {N : Nat} (hN : 0 < N)
    {fields : List Str} {va vb : Str → Rat} {ca cb : Str → Nat}
    (ha : ∀ f ∈ fields, |va f - (ca f : Rat) / N| ≤ δ ∧ ca f ≤ N)
    (hb : ∀ f ∈ fields, |vb f - (cb f : Rat) / N| ≤ δ ∧ cb f ≤ N)
    (hsmall : (2 * fields.length * δ + u * fields.length * (fields.length + 3)) * N < 1)
    (hlt : (fields.map cb).sum < (fields.map ca).sum) :
    flFold rnd 0 (fields.map vb) < flFold rnd 0 (fields.map va) := by
  have hNp : (0 : Rat) < N := by exact_mod_cast hN
  have hN1 : (1 : Rat) ≤ N := by exact_mod_cast hN
  have hk : fields ≠ [] := by
    rintro rfl
    simp at hlt
  have hk1 : (1 : Rat) ≤ fields.length := by exact_mod_cast List.length_pos_of_ne_nil hk
  have hkδ : δ ≤ fields.length * δ := le_mul_of_one_le_left hδ hk1
  have hq : 0 ≤ u * fields.length * (fields.length + 3) := by positivity
  have hsum : 2 * fields.length * δ + u * fields.length * (fields.length + 3) < 1 := by
    have h0 : 0 ≤ 2 * fields.length * δ + u * fields.length * (fields.length + 3) := by positivity
    exact lt_of_le_of_lt (le_mul_of_one_le_right h0 hN1) hsmall
  have bound : ∀ {v : Str → Rat} {c : Str → Nat}, (∀ f ∈ fields, |v f - (c f : Rat) / N| ≤ δ ∧ c f ≤ N) →
      |flFold rnd 0 (fields.map v) - ((fields.map c).sum : Nat) / N| ≤
        fields.length * δ + u * fields.length * (fields.length + 3) / 2 := by
    intro v c hv
    have hall : List.Forall₂ (fun y x => |y - x| ≤ δ ∧ 0 ≤ x ∧ x ≤ 1) (fields.map v)
        (fields.map fun f => (c f : Rat) / N) := by
      rw [List.forall₂_map_left_iff, List.forall₂_map_right_iff, List.forall₂_same]
      intro f hf
      obtain ⟨h1, h2⟩ := hv f hf
      refine ⟨h1, by positivity, ?_⟩
      rw [div_le_one hNp]
      exact_mod_cast h2
    have := flFold_error' hr hu hδ hall (by simp only [List.length_map]; linarith)
    have hs : (fields.map fun f => (c f : Rat) / N).sum = ((fields.map c).sum : Nat) / N := by
      clear this hall hv hk hk1 hkδ hq hsum hsmall hlt ha hb
      induction fields with
      | nil => simp
      | cons f fs ih => simp only [List.map_cons, List.sum_cons, ih, Nat.cast_add, add_div]
    rw [hs] at this
    simpa using this
  have b1 := abs_le.mp (bound ha)
  have b2 := abs_le.mp (bound hb)
  have hgap : ((fields.map cb).sum : Rat) / N + 1 / N ≤ ((fields.map ca).sum : Rat) / N := by
    rw [← add_div]
    apply div_le_div_of_nonneg_right _ hNp.le
    exact_mod_cast hlt
  have hsmall' : 2 * fields.length * δ + u * fields.length * (fields.length + 3) < 1 / N := by
    rw [lt_div_iff₀ hNp]; exact hsmall
  push_cast at b1 b2 hgap
  linarith [b1.1, b2.2]

theorem rnd_near (hr : ∀ x, |rnd x - x| ≤ u * |x|) (hu : 0 ≤ u) {c n : Nat} (hc : c ≤ n) (hn : 0 < n) :
    |rnd ((c : Rat) / n) - (c : Rat) / n| ≤ u := by
  have hnp : (0 : Rat) < n := by exact_mod_cast hn
  have h1 : (c : Rat) / n ≤ 1 := by rw [div_le_one hnp]; exact_mod_cast hc
  have h0 : (0 : Rat) ≤ (c : Rat) / n := by positivity
  calc _ ≤ u * |(c : Rat) / n| := hr _
    _ ≤ u * 1 := mul_le_mul_of_nonneg_left (by rw [abs_of_nonneg h0]; exact h1) hu
    _ = u := mul_one u

/-- The condition on the sizes bounds the number of seeds. -/
theorem mean_small (hu : 0 ≤ u) {k m n : Rat} (hk : 1 ≤ k) (hm : 1 ≤ m) (hn : 1 ≤ n)
    (h : u * k * (k + m + 12) * (m * n) < 1) : u * (m * (m + 5) + 2) ≤ 2 := by
  have h1 : (m + 13) * m ≤ k * (k + m + 12) * (m * n) := by
    have a1 : m + 13 ≤ k * (k + m + 12) := by nlinarith
    have a2 : m ≤ m * n := le_mul_of_one_le_right (by linarith) hn
    exact mul_le_mul a1 a2 (by linarith) (by nlinarith)
  have h2 : m * (m + 5) + 2 ≤ k * (k + m + 12) * (m * n) := by nlinarith
  have h3 : u * (m * (m + 5) + 2) ≤ u * (k * (k + m + 12) * (m * n)) := mul_le_mul_of_nonneg_left h2 hu
  have e : u * k * (k + m + 12) * (m * n) = u * (k * (k + m + 12) * (m * n)) := by ring
  rw [e] at h
  linarith

theorem sum_shares (n : Nat) (l : List Nat) : (l.map fun (c : Nat) => (c : Rat) / n).sum = ((l.sum : Nat) : Rat) / n := by
  induction l with
  | nil => simp
  | cons a l ih => simp only [List.map_cons, List.sum_cons, ih, Nat.cast_add, add_div]

/-- The mean of rounded shares. -/
theorem flMean_share (hr : ∀ x, |rnd x - x| ≤ u * |x|) (hu : 0 ≤ u) {n m : Nat} (hn : 0 < n) (hm : 0 < m) {l : List Nat}
    (l1 : l.length = m) (l2 : ∀ c ∈ l, c ≤ n) (hsmall : u * (m * (m + 5) + 2) ≤ 2) :
    |flMean rnd (l.map fun (c : Nat) => rnd ((c : Rat) / n)) - ((l.sum : Nat) : Rat) / ((m * n : Nat) : Rat)| ≤ u * (m + 9) / 2 := by
  have hnp : (0 : Rat) < n := by exact_mod_cast hn
  have hall : List.Forall₂ (fun y x => |y - x| ≤ u ∧ 0 ≤ x ∧ x ≤ 1)
      (l.map fun (c : Nat) => rnd ((c : Rat) / n)) (l.map fun (c : Nat) => (c : Rat) / n) := by
    rw [List.forall₂_map_left_iff, List.forall₂_map_right_iff, List.forall₂_same]
    intro c hcm
    refine ⟨rnd_near hr hu (l2 c hcm) hn, by positivity, ?_⟩
    rw [div_le_one hnp]
    exact_mod_cast l2 c hcm
  have hlen : ((l.map fun (c : Nat) => (c : Rat) / n).length : Rat) = m := by rw [List.length_map, l1]
  have hne : (l.map fun (c : Nat) => (c : Rat) / n) ≠ [] := by
    intro hnil
    rw [List.map_eq_nil_iff] at hnil
    rw [hnil] at l1
    simp at l1
    omega
  have := flMean_error hr hu hu hall hne (by
    rw [hlen]
    have e : (m : Rat) * u + u * m * (m + 3) / 2 + u = u * (m * (m + 5) + 2) / 2 := by ring
    rw [e]; linarith)
  rw [hlen, sum_shares, div_div] at this
  have e : u + u * (m + 3) / 2 + 2 * u = u * (m + 9) / 2 := by ring
  rw [e] at this
  have e' : ((m * n : Nat) : Rat) = n * m := by push_cast; ring
  rw [e']
  exact this

/-- All attributes of the score of a tagger of given words are the share of right words. -/
theorem flScore_attr {n c : Nat} (hn : 0 < n) {metric : Str}
    (hm : metric ∈ ["precision".toList, "recall".toList, "f1".toList, "aligned_accuracy".toList]) :
    AttrIs metric (flScore rnd n n c (some n)) (rnd ((c : Rat) / n)) := by
  have hn0 : n ≠ 0 := by omega
  have h2 : n + n ≠ 0 := by omega
  have hf : ((2 * c : Nat) : Rat) / (n + n : Nat) = (c : Rat) / n := by
    have : (n : Rat) ≠ 0 := by exact_mod_cast hn0
    push_cast
    field_simp
    ring
  simp only [List.mem_cons, List.not_mem_nil, or_false] at hm
  rcases hm with rfl | rfl | rfl | rfl
  · have := AttrIs.precision (flScore rnd n n c (some n))
    simpa [flScore, hn0] using this
  · have := AttrIs.recall (flScore rnd n n c (some n))
    simpa [flScore, hn0] using this
  · have e : (flScore rnd n n c (some n)).f1 = rnd ((c : Rat) / n) := by simp only [flScore, h2, if_false, hf]
    rw [← e]
    exact AttrIs.f1 _
  · exact AttrIs.aligned _ _ (by simp [flScore, hn0])

end

end Verif
