import Verif.Spec.SharedLayers
import Verif.Proofs.Layers
import Mathlib.Tactic.Linarith
import Mathlib.Tactic.Ring

/-!
# Lemmas about the shared part of the network
-/

namespace Verif

/-- Two sequences agree on their first `b` places. -/
def AgreeUpTo {α : Type} (b : Nat) (x y : List α) : Prop := ∀ i : Nat, i < b → x[i]? = y[i]?

theorem AgreeUpTo.mono {α : Type} {b c : Nat} {x y : List α} (h : AgreeUpTo b x y) (hc : c ≤ b) : AgreeUpTo c x y :=
  fun i hi => h i (by omega)

theorem agreeUpTo_take {α : Type} {b : Nat} {x y : List α} : AgreeUpTo b x y ↔ x.take b = y.take b := by
  constructor
  · intro h
    apply List.ext_getElem?
    intro i
    simp only [List.getElem?_take]
    split
    · exact h i ‹_›
    · rfl
  · intro h i hi
    have := congrArg (fun l => l[i]?) h
    simpa [List.getElem?_take, hi] using this

theorem AgreeUpTo.map {α β : Type} {b : Nat} {x y : List α} (h : AgreeUpTo b x y) (f : α → β) :
    AgreeUpTo b (x.map f) (y.map f) := by
  intro i hi
  simp [h i hi]

theorem AgreeUpTo.zipWith {α β γ : Type} {b : Nat} {x y : List α} {x' y' : List β} (h : AgreeUpTo b x y)
    (h' : AgreeUpTo b x' y') (f : α → β → γ) : AgreeUpTo b (List.zipWith f x x') (List.zipWith f y y') := by
  intro i hi
  simp [List.getElem?_zipWith, h i hi, h' i hi]

/-! ### Convolutions -/

theorem convLayer_length (k : ConvKernel) (x : Rows) : (convLayer k x).length = x.length := by
  simp [convLayer]

theorem convStack_length (ks : List ConvKernel) (x : Rows) : (convStack ks x).length = x.length := by
  induction ks generalizing x with
  | nil => rfl
  | cons k ks ih =>
    show (convStack ks (convLayer k x)).length = _
    rw [ih, convLayer_length]

theorem convLayer_get (k : ConvKernel) (x : Rows) (i : Nat) (hi : i < x.length) :
    (convLayer k x)[i]? = some (convRow k x (i : Nat)) := by
  simp [convLayer, hi]

/-- A row only sees the places from `left` before it to `right` behind it. -/
theorem convRow_congr (k : ConvKernel) (x y : Rows) (i : Int)
    (h : ∀ j : Int, i - (k.left : Nat) ≤ j → j ≤ i + (k.right : Nat) → rowAt x j = rowAt y j) :
    convRow k x i = convRow k y i := by
  unfold convRow
  apply List.map_congr_left
  intro c _
  congr 2
  apply List.map_congr_left
  intro j hj
  have hj' : j ≤ k.size - 1 := by
    have := List.mem_range.1 hj
    omega
  have hle : j * k.dilation ≤ k.span := Nat.mul_le_mul_right _ hj'
  have hl : k.left ≤ k.span := Nat.div_le_self _ _
  rw [h]
  · omega
  · have : k.right = k.span - k.left := rfl
    omega

theorem rowAt_nat (x : Rows) (i : Nat) : rowAt x (i : Int) = x[i]?.getD [] := by
  simp [rowAt]

theorem rowAt_neg (x : Rows) (i : Int) (h : i < 0) : rowAt x i = [] := by
  simp [rowAt, h]

theorem AgreeUpTo.rowAt {b : Nat} {x y : Rows} (h : AgreeUpTo b x y) (j : Int) (hj : j < b) :
    rowAt x j = rowAt y j := by
  by_cases h0 : j < 0
  · rw [rowAt_neg _ _ h0, rowAt_neg _ _ h0]
  · obtain ⟨n, rfl⟩ := Int.eq_ofNat_of_zero_le (by omega : 0 ≤ j)
    have hn : n < b := by exact_mod_cast hj
    rw [rowAt_nat, rowAt_nat, h n hn]

theorem convLayer_agree (k : ConvKernel) {b : Nat} {x y : Rows} (h : AgreeUpTo b x y) :
    AgreeUpTo (b - k.right) (convLayer k x) (convLayer k y) := by
  intro i hi
  have hex := h i (by omega)
  by_cases hx : i < x.length
  · have hy : i < y.length := by
      rw [List.getElem?_eq_getElem hx] at hex
      exact (List.getElem?_eq_some_iff.1 hex.symm).1
    rw [convLayer_get _ _ _ hx, convLayer_get _ _ _ hy]
    congr 1
    apply convRow_congr
    intro j _ hj
    apply h.rowAt
    omega
  · have hy : ¬ i < y.length := by
      intro hy
      rw [List.getElem?_eq_getElem hy] at hex
      exact hx (List.getElem?_eq_some_iff.1 hex).1
    rw [List.getElem?_eq_none (by simpa [convLayer] using hx), List.getElem?_eq_none (by simpa [convLayer] using hy)]

theorem convStack_agree (ks : List ConvKernel) {b : Nat} {x y : Rows} (h : AgreeUpTo b x y) :
    AgreeUpTo (b - reachRight ks) (convStack ks x) (convStack ks y) := by
  induction ks generalizing b x y with
  | nil => simpa [reachRight, convStack] using h
  | cons k ks ih =>
    have := ih (convLayer_agree k h)
    refine AgreeUpTo.mono this ?_
    have e : reachRight (k :: ks) = k.right + reachRight ks := by
      simp [reachRight, ConvKernel.right, ConvKernel.left, ConvKernel.span]
    omega

/-- The window of a stack of convolutions. -/
theorem convStack_window (ks : List ConvKernel) : ∀ (x y : Rows), x.length = y.length → ∀ i : Int,
    (∀ j : Int, i - (reachLeft ks : Nat) ≤ j → j ≤ i + (reachRight ks : Nat) → rowAt x j = rowAt y j) →
    rowAt (convStack ks x) i = rowAt (convStack ks y) i := by
  induction ks with
  | nil =>
    intro x y _ i h
    exact h i (by simp [reachLeft]) (by simp [reachRight])
  | cons k ks ih =>
    intro x y hl i h
    have e : reachRight (k :: ks) = k.right + reachRight ks := by
      simp [reachRight, ConvKernel.right, ConvKernel.left, ConvKernel.span]
    have e' : reachLeft (k :: ks) = k.left + reachLeft ks := by
      simp [reachLeft, ConvKernel.left, ConvKernel.span]
    apply ih (convLayer k x) (convLayer k y) (by rw [convLayer_length, convLayer_length, hl])
    intro j hj1 hj2
    by_cases h0 : j < 0
    · rw [rowAt_neg _ _ h0, rowAt_neg _ _ h0]
    · obtain ⟨n, rfl⟩ := Int.eq_ofNat_of_zero_le (by omega : 0 ≤ j)
      by_cases hn : n < x.length
      · rw [rowAt_nat, rowAt_nat, convLayer_get _ _ _ hn, convLayer_get _ _ _ (by omega)]
        simp only [Option.getD_some]
        apply convRow_congr
        intro q hq1 hq2
        apply h <;> omega
      · rw [rowAt_nat, rowAt_nat, List.getElem?_eq_none (by simpa [convLayer] using hn),
          List.getElem?_eq_none (by simp [convLayer]; omega)]

/-! ### Recurrent layers -/

theorem dynamicRnn_take (c : RnnCell) (n : Nat) : ∀ (x : Rows) (t : Nat) (s : c.State) (m : Nat),
    (dynamicRnn c n t s x).take m = dynamicRnn c n t s (x.take m)
  | [], t, s, m => by simp [dynamicRnn]
  | v :: vs, t, s, 0 => by simp [dynamicRnn]
  | v :: vs, t, s, m + 1 => by
    simp only [dynamicRnn, List.take_succ_cons]
    split
    · rw [List.take_succ_cons, dynamicRnn_take c n vs]
    · rw [List.take_succ_cons, dynamicRnn_take c n vs]

theorem dynamicRnn_length (c : RnnCell) (n : Nat) : ∀ (x : Rows) (t : Nat) (s : c.State),
    (dynamicRnn c n t s x).length = x.length
  | [], t, s => rfl
  | v :: vs, t, s => by
    simp only [dynamicRnn]
    split <;> simp [dynamicRnn_length c n vs]

theorem reverseSeq_length {α : Type} (n : Nat) (x : List α) : (reverseSeq n x).length = x.length := by
  simp [reverseSeq]
  omega

theorem reverseSeq_take {α : Type} (n : Nat) (x : List α) : (reverseSeq n x).take n = reverseSeq n (x.take n) := by
  unfold reverseSeq
  by_cases h : n ≤ x.length
  · rw [List.take_append_of_le_length (by simp [h])]
    rw [List.take_of_length_le (by simp)]
    simp
  · rw [List.take_of_length_le (by simp; omega)]
    simp only [List.take_of_length_le (show x.length ≤ n by omega)]

theorem bidirectional_take (fw bw : RnnCell) (n : Nat) (x : Rows) :
    (bidirectional fw bw n x).take n = bidirectional fw bw n (x.take n) := by
  unfold bidirectional
  rw [List.take_zipWith, dynamicRnn_take, reverseSeq_take, dynamicRnn_take, reverseSeq_take]

theorem bidirectional_agree (fw bw : RnnCell) {n : Nat} {x y : Rows} (h : AgreeUpTo n x y) :
    AgreeUpTo n (bidirectional fw bw n x) (bidirectional fw bw n y) := by
  rw [agreeUpTo_take] at h ⊢
  rw [bidirectional_take, bidirectional_take, h]

theorem bilstm_agree (cells : List (RnnCell × RnnCell)) {n : Nat} {x y : Rows} (h : AgreeUpTo n x y) :
    AgreeUpTo n (bilstm n cells x) (bilstm n cells y) := by
  cases cells with
  | nil => exact h
  | cons c cs =>
    simp only [bilstm]
    have h0 := bidirectional_agree c.1 c.2 h
    generalize bidirectional c.1 c.2 n x = a at h0 ⊢
    generalize bidirectional c.1 c.2 n y = b at h0 ⊢
    induction cs generalizing a b with
    | nil => exact h0
    | cons d ds ih =>
      simp only [List.foldl_cons]
      exact ih _ _ (h0.zipWith (bidirectional_agree d.1 d.2 h0) _)

/-! ### The shared part -/

theorem eval_agree (out : SharedOut) {n : Nat} {x y : Rows} (h : AgreeUpTo n x y) (k : Nat) :
    AgreeUpTo (n - out.reach) (out.eval noDropout n x k) (out.eval noDropout n y k) := by
  induction out generalizing k with
  | wordFeatures => exact h.mono (by omega)
  | bilstm cells => exact (bilstm_agree cells h).mono (by omega)
  | dilated ks => exact convStack_agree ks h
  | skipSum inner ih => exact (ih (k + 1)).zipWith (h.mono (by omega)) _
  | skipConcat inner ih => exact (ih (k + 1)).zipWith (h.mono (by omega)) _
  | sentCnn inner ks ih => exact (ih (k + 1)).map _

theorem wordVector_congr (fs : List WordFeat) (m m' : Nat → Nat) (w : WordIds)
    (h : ∀ (f : Nat) (fe : WordFeat), fs[f]? = some fe → fe.isSub = true → m f = m' f) :
    wordVector fs m w = wordVector fs m' w := by
  unfold wordVector
  congr 1
  apply List.map_congr_left
  intro p hp
  have hp' := List.mem_zipIdx_iff_getElem?.1 hp
  have := h p.2 p.1 hp'
  cases hfe : p.1 with
  | word emb dense => rfl
  | sub agg post =>
    rw [hfe] at this
    simp only [WordFeat.vec, this rfl]

theorem wordFeatures_alone (fs : List WordFeat) (s : List WordIds) :
    wordFeatures fs [s] s = s.map (wordVector fs (longest [s])) := by
  simp [wordFeatures, padSentence, maxLength]

theorem wordFeatures_agree (fs : List WordFeat) (batch : List (List WordIds)) (s : List WordIds)
    (h : ∀ (f : Nat) (fe : WordFeat), fs[f]? = some fe → fe.isSub = true → longest batch f = longest [s] f) :
    AgreeUpTo s.length (wordFeatures fs batch s) (wordFeatures fs [s] s) := by
  intro i hi
  rw [wordFeatures_alone]
  simp only [wordFeatures, padSentence, List.map_append, List.getElem?_map,
    List.getElem?_append_left (by simpa using hi : i < (List.map (wordVector fs (longest batch)) s).length)]
  rw [List.getElem?_eq_getElem hi]
  simp only [Option.map_some]
  rw [wordVector_congr fs _ _ _ h]

/-! ### Kernels that shift, cells that sum -/

theorem dotWith_zero (v : List Rat) : dotWith (fun _ => 0) v = 0 := by
  simp [dotWith]

theorem dotWith_single (w : Nat → Rat) (a : Rat) : dotWith w [a] = a * w 0 := by
  simp [dotWith]

/-- The sum of numbers only one of which is not zero. -/
theorem sum_range_single (n j : Nat) (hj : j < n) (f : Nat → Rat) (h : ∀ i, i ≠ j → f i = 0) :
    ((List.range n).map f).sum = f j := by
  induction n with
  | zero => omega
  | succ n ih =>
    rw [List.range_succ, List.map_append, List.sum_append]
    simp only [List.map_cons, List.map_nil, List.sum_cons, List.sum_nil, add_zero]
    by_cases hjn : j = n
    · subst hjn
      have : ∀ x ∈ (List.range j).map f, x = 0 := by
        intro x hx
        obtain ⟨i, hi, rfl⟩ := List.mem_map.1 hx
        have := List.mem_range.1 hi
        exact h i (by omega)
      rw [List.sum_eq_zero this, zero_add]
    · rw [ih (by omega), h n (fun hc => hjn hc.symm), add_zero]

/-- The kernel of size `n` and dilation `d` that only looks at the place `j`. -/
def tapKernel (n d j : Nat) : ConvKernel := ⟨n, 1, d, fun i _ _ => if i = j then 1 else 0⟩

theorem convRow_tap (n d j : Nat) (hj : j < n) (x : Rows) (i : Int) (a : Rat)
    (h : rowAt x (i + (j * d : Nat) - ((tapKernel n d j).left : Nat)) = [a]) (ha : 0 ≤ a) :
    convRow (tapKernel n d j) x i = [a] := by
  have e : ∀ c, ((List.range (tapKernel n d j).size).map (fun q =>
      dotWith (fun ch => (tapKernel n d j).weight q ch c)
        (rowAt x (i + (q * (tapKernel n d j).dilation : Nat) - ((tapKernel n d j).left : Nat))))).sum = a := by
    intro c
    rw [sum_range_single (tapKernel n d j).size j hj]
    · show dotWith (fun ch => if j = j then 1 else 0) (rowAt x (i + (j * d : Nat) - ((tapKernel n d j).left : Nat))) = a
      rw [h, dotWith_single]
      simp
    · intro q hq
      simp only [tapKernel, if_neg hq]
      exact dotWith_zero _
  simp only [convRow, e]
  simp [tapKernel, relu, ha]

/-- The values are single numbers that are not negative. -/
def NonnegRows (x : Rows) : Prop := ∀ v ∈ x, ∃ a : Rat, 0 ≤ a ∧ v = [a]

theorem convLayer_nonneg (k : ConvKernel) (hk : k.count = 1) (x : Rows) : NonnegRows (convLayer k x) := by
  intro v hv
  obtain ⟨i, _, rfl⟩ := List.mem_map.1 hv
  exact ⟨_, le_max_right _ _, by simp only [convRow, hk, List.range_one, List.map_cons, List.map_nil, relu]; rfl⟩

theorem convLayer_tap_right (n d : Nat) (hn : 0 < n) (x : Rows) (hx : NonnegRows x) (i : Nat)
    (hi : i + (tapKernel n d (n - 1)).right < x.length) :
    (convLayer (tapKernel n d (n - 1)) x)[i]? = x[i + (tapKernel n d (n - 1)).right]? := by
  rw [convLayer_get _ _ _ (by omega), List.getElem?_eq_getElem hi]
  obtain ⟨a, ha, hv⟩ := hx _ (List.getElem_mem hi)
  rw [hv, convRow_tap n d (n - 1) (by omega) x i a _ ha]
  have hspan : (n - 1) * d = (tapKernel n d (n - 1)).span := rfl
  have hl : (tapKernel n d (n - 1)).left ≤ (tapKernel n d (n - 1)).span := Nat.div_le_self _ _
  have hr : (tapKernel n d (n - 1)).right = (tapKernel n d (n - 1)).span - (tapKernel n d (n - 1)).left := rfl
  have e : (i : Int) + ((n - 1) * d : Nat) - ((tapKernel n d (n - 1)).left : Nat) =
      ((i + (tapKernel n d (n - 1)).right : Nat) : Int) := by
    rw [hspan]
    omega
  rw [e, rowAt_nat, List.getElem?_eq_getElem hi, hv]
  rfl

theorem convLayer_tap_left (n d : Nat) (hn : 0 < n) (x : Rows) (hx : NonnegRows x) (i : Nat)
    (hi : i < x.length) (hi' : (tapKernel n d 0).left ≤ i) :
    (convLayer (tapKernel n d 0) x)[i]? = x[i - (tapKernel n d 0).left]? := by
  have hi2 : i - (tapKernel n d 0).left < x.length := by omega
  rw [convLayer_get _ _ _ (by omega), List.getElem?_eq_getElem hi2]
  obtain ⟨a, ha, hv⟩ := hx _ (List.getElem_mem hi2)
  rw [hv, convRow_tap n d 0 (by omega) x i a _ ha]
  have e : (i : Int) + (0 * d : Nat) - ((tapKernel n d 0).left : Nat) =
      ((i - (tapKernel n d 0).left : Nat) : Int) := by
    omega
  rw [e, rowAt_nat, List.getElem?_eq_getElem hi2, hv]
  rfl

theorem convStack_tap_right (dims : List (Nat × Nat)) (hd : ∀ p ∈ dims, 0 < p.1) : ∀ (x : Rows), NonnegRows x →
    ∀ i : Nat, i + reachRight (dims.map (fun p => tapKernel p.1 p.2 (p.1 - 1))) < x.length →
    (convStack (dims.map (fun p => tapKernel p.1 p.2 (p.1 - 1))) x)[i]? =
      x[i + reachRight (dims.map (fun p => tapKernel p.1 p.2 (p.1 - 1)))]? := by
  induction dims with
  | nil => intro x _ i _; simp [convStack, reachRight]
  | cons p ps ih =>
    intro x hx i hi
    have e : reachRight ((p :: ps).map (fun p => tapKernel p.1 p.2 (p.1 - 1))) =
        (tapKernel p.1 p.2 (p.1 - 1)).right + reachRight (ps.map (fun p => tapKernel p.1 p.2 (p.1 - 1))) := by
      simp [reachRight, ConvKernel.right, ConvKernel.left, ConvKernel.span]
    rw [e] at hi ⊢
    show (convStack (ps.map _) (convLayer (tapKernel p.1 p.2 (p.1 - 1)) x))[i]? = _
    rw [ih (fun q hq => hd q (List.mem_cons_of_mem _ hq)) _ (convLayer_nonneg _ rfl x) i
      (by rw [convLayer_length]; omega),
      convLayer_tap_right p.1 p.2 (hd p (by simp)) x hx _ (by omega)]
    congr 1
    omega

theorem convStack_tap_left (dims : List (Nat × Nat)) (hd : ∀ p ∈ dims, 0 < p.1) : ∀ (x : Rows), NonnegRows x →
    ∀ i : Nat, i < x.length → reachLeft (dims.map (fun p => tapKernel p.1 p.2 0)) ≤ i →
    (convStack (dims.map (fun p => tapKernel p.1 p.2 0)) x)[i]? =
      x[i - reachLeft (dims.map (fun p => tapKernel p.1 p.2 0))]? := by
  induction dims with
  | nil => intro x _ i _ _; simp [convStack, reachLeft]
  | cons p ps ih =>
    intro x hx i hi hi'
    have e : reachLeft ((p :: ps).map (fun p => tapKernel p.1 p.2 0)) =
        (tapKernel p.1 p.2 0).left + reachLeft (ps.map (fun p => tapKernel p.1 p.2 0)) := by
      simp [reachLeft, ConvKernel.left, ConvKernel.span]
    rw [e] at hi' ⊢
    show (convStack (ps.map _) (convLayer (tapKernel p.1 p.2 0) x))[i]? = _
    rw [ih (fun q hq => hd q (List.mem_cons_of_mem _ hq)) _ (convLayer_nonneg _ rfl x) i
      (by rw [convLayer_length]; omega) (by omega),
      convLayer_tap_left p.1 p.2 (hd p (by simp)) x hx _ (by omega) (by omega)]
    congr 1
    omega

/-- A cell that sums up its inputs. -/
def sumCell : RnnCell := ⟨Rat, 0, fun s v => (s + v.getD 0 0, [s + v.getD 0 0]), 1⟩

theorem dynamicRnn_sum (n : Nat) : ∀ (x : Rows) (t : Nat) (s : Rat) (i : Nat), t + x.length ≤ n → i < x.length →
    (dynamicRnn sumCell n t s x)[i]? = some [s + ((x.take (i + 1)).map (fun v => v.getD 0 0)).sum]
  | [], _, _, i, _, hi => by simp at hi
  | v :: vs, t, s, 0, ht, _ => by
    simp only [List.length_cons] at ht
    simp only [dynamicRnn, if_pos (show t < n by omega)]
    simp [sumCell]
  | v :: vs, t, s, i + 1, ht, hi => by
    simp only [List.length_cons] at ht hi
    simp only [dynamicRnn, if_pos (show t < n by omega), List.getElem?_cons_succ]
    exact (dynamicRnn_sum n vs (t + 1) (s + v.getD 0 0) i (by omega) (by omega)).trans (by simp [add_assoc])

theorem reverseSeq_all {α : Type} (n : Nat) (x : List α) (h : x.length = n) : reverseSeq n x = x.reverse := by
  subst h
  simp [reverseSeq]

theorem bidirectional_sum (x : Rows) (i : Nat) (hi : i < x.length) :
    (bidirectional sumCell sumCell x.length x)[i]? =
      some [((x.take (i + 1)).map (fun v => v.getD 0 0)).sum, ((x.drop i).map (fun v => v.getD 0 0)).sum] := by
  have h1 := dynamicRnn_sum x.length x 0 sumCell.init i (by omega) hi
  have h2 := dynamicRnn_sum x.length x.reverse 0 sumCell.init (x.length - 1 - i) (by simp) (by simp; omega)
  have h3 : (reverseSeq x.length (dynamicRnn sumCell x.length 0 sumCell.init (reverseSeq x.length x)))[i]? =
      some [((x.drop i).map (fun v => v.getD 0 0)).sum] := by
    have hl : (dynamicRnn sumCell x.length 0 sumCell.init x.reverse).length = x.length := by
      rw [dynamicRnn_length, List.length_reverse]
    rw [reverseSeq_all _ x rfl, reverseSeq_all _ _ hl]
    rw [List.getElem?_reverse (by rw [hl]; exact hi), hl, h2]
    have e : x.length - 1 - i + 1 = x.length - i := by omega
    rw [e, List.take_reverse, List.map_reverse, List.sum_reverse, show x.length - (x.length - i) = i by omega]
    simp [sumCell]
  unfold bidirectional
  rw [List.getElem?_zipWith, h1, h3]
  simp [sumCell]

end Verif
