import Verif.Spec.Aggregation
import Verif.Proofs.SharedLayers
import Verif.Props.SharedLayers

/-! # C136: subwords are put together as documented -/

namespace Verif

open Finset

theorem entry_nat (x : Rows) (i c : Nat) : entry x (i : Int) c = comp (x.getD i []) c := by simp [entry]

theorem comp_rowAt (x : Rows) (i : Int) (c : Nat) : comp (rowAt x i) c = entry x i c := by
  unfold rowAt entry
  split
  · rfl
  · rfl

theorem list_sum_range {n : Nat} (f : Nat → Rat) : ((List.range n).map f).sum = ∑ i ∈ range n, f i := by
  induction n with
  | zero => rfl
  | succ n ih => rw [List.range_succ, List.map_append, List.sum_append, ih, sum_range_succ]; simp

theorem dotWith_eq (w : Nat → Rat) (v : List Rat) : dotWith w v = ∑ a ∈ range v.length, w a * comp v a := by
  rw [← list_sum_range, dotWith]
  congr 1
  apply List.ext_getElem
  · simp
  · intro i h1 h2
    have : i < v.length := by simpa using h1
    simp [comp, this, mul_comm]

theorem dotWith_wide (w : Nat → Rat) (v : List Rat) {n : Nat} (h : v.length ≤ n) :
    dotWith w v = ∑ a ∈ range n, w a * comp v a := by
  rw [dotWith_eq]
  apply sum_subset (range_mono h)
  intro a _ ha
  have : v.length ≤ a := by simpa using ha
  simp [comp, this]

theorem rowAt_size {n : Nat} {x : Rows} (h : ∀ v ∈ x, v.length = n) (i : Int) : (rowAt x i).length ≤ n := by
  unfold rowAt
  split
  · rw [List.getD_eq_getElem?_getD]
    cases hx : x[i.toNat]? with
    | none => simp
    | some v => exact (h v (List.mem_of_getElem? hx)).le
  · simp

theorem convLayer_isConv {n : Nat} (k : ConvKernel) {x : Rows} (h : ∀ v ∈ x, v.length = n) : IsConv n k x (convLayer k x) where
  length := convLayer_length k x
  size := by
    intro v hv
    obtain ⟨i, _, rfl⟩ := List.mem_map.1 hv
    simp [convRow]
  value := by
    intro i hi c hc
    rw [entry_nat, List.getD_eq_getElem?_getD, convLayer_get k x i hi]
    simp only [Option.getD_some, convRow, comp, List.getD_eq_getElem?_getD, List.getElem?_map,
      List.getElem?_range hc, Option.map_some, relu]
    rw [max_comm, list_sum_range]
    congr 1
    apply sum_congr rfl
    intro j _
    rw [dotWith_wide _ _ (rowAt_size h _)]
    apply sum_congr rfl
    intro a _
    rw [comp_rowAt]
    simp [ConvKernel.left, ConvKernel.span]

theorem convStack_isConvs (ks : List ConvKernel) : ∀ {n : Nat} {x : Rows}, (∀ v ∈ x, v.length = n) →
    IsConvs n ks x (convStack ks x) := by
  induction ks with
  | nil => intro n x _; rfl
  | cons k ks ih =>
    intro n x h
    exact ⟨convLayer k x, convLayer_isConv k h, ih (convLayer_isConv k h).size⟩

theorem maxOf_spec : ∀ (l : List Rat), l ≠ [] → maxOf l ∈ l ∧ ∀ a ∈ l, a ≤ maxOf l
  | [], h => absurd rfl h
  | x :: xs, _ => by
    simp only [maxOf]
    induction xs generalizing x with
    | nil => simp
    | cons y ys ih =>
      simp only [List.foldl_cons]
      obtain ⟨h1, h2⟩ := ih (max x y) (by simp)
      refine ⟨?_, ?_⟩
      · rcases List.mem_cons.1 h1 with h | h
        · rcases max_choice x y with e | e
          · rw [h, e]; simp
          · rw [h, e]; simp
        · exact List.mem_cons_of_mem _ (List.mem_cons_of_mem _ h)
      · intro a ha
        have hm := h2 _ List.mem_cons_self
        rcases List.mem_cons.1 ha with rfl | ha
        · exact (le_max_left _ _).trans hm
        · rcases List.mem_cons.1 ha with rfl | ha
          · exact (le_max_right _ _).trans hm
          · exact h2 a (List.mem_cons_of_mem _ ha)

theorem maxPool_spec (n : Nat) {y : Rows} (hy : y ≠ []) : IsMaxOver n y (maxPool n y) := by
  refine ⟨by simp [maxPool], fun c hc => ?_⟩
  have e : comp (maxPool n y) c = maxOf (y.map (fun v => v.getD c 0)) := by
    simp [comp, maxPool, hc]
  obtain ⟨h1, h2⟩ := maxOf_spec (y.map (fun v => v.getD c 0)) (by simpa using hy)
  rw [e]
  refine ⟨?_, fun i hi => h2 _ ?_⟩
  · obtain ⟨v, hv, e⟩ := List.mem_map.1 h1
    obtain ⟨i, hi⟩ := List.mem_iff_getElem?.1 hv
    refine ⟨i, (List.getElem?_eq_some_iff.1 hi).1, ?_⟩
    rw [entry_nat, List.getD_eq_getElem?_getD, hi, ← e]
    rfl
  · rw [entry_nat, List.getD_eq_getElem?_getD, List.getElem?_eq_getElem hi]
    exact List.mem_map.2 ⟨y[i], List.getElem_mem hi, rfl⟩

/-- C136: aggregation `cnn` is the max pooling of the last of the convolutions over the vectors of the subwords. -/
theorem C136_cnn (n : Nat) (emb : Int → List Rat) (hemb : ∀ i, (emb i).length = n) (ks : List ConvKernel) (ids : List Int)
    (hids : ids ≠ []) : ∃ y, IsConvs n ks (ids.map emb) y ∧ IsMaxOver (lastCount ks) y (subwordCnn emb ks ids) := by
  refine ⟨_, convStack_isConvs ks ?_, maxPool_spec _ ?_⟩
  · intro v hv
    obtain ⟨i, _, rfl⟩ := List.mem_map.1 hv
    exact hemb i
  · rw [ne_eq, ← List.length_eq_zero_iff, convStack_length, List.length_map, List.length_eq_zero_iff]
    exact hids

/-! ### Recurrent layers -/

theorem after_append (c : RnnCell) (x : Rows) (v : List Rat) : c.after (x ++ [v]) = (c.step (c.after x) v).1 := by
  simp [RnnCell.after]

theorem last_append (c : RnnCell) (x : Rows) (v : List Rat) : c.last (x ++ [v]) = (c.step (c.after x) v).2 := by
  simp [RnnCell.last]

theorem dynamicRnn_get (c : RnnCell) (n : Nat) : ∀ (x : Rows) (before : Rows) (i : Nat), i < x.length →
    before.length + i < n →
    (dynamicRnn c n before.length (c.after before) x)[i]? = some (c.last (before ++ x.take (i + 1)))
  | [], _, i, hi, _ => by simp at hi
  | v :: vs, before, 0, _, ht => by
    simp only [dynamicRnn, if_pos (show before.length < n by omega)]
    simp [last_append]
  | v :: vs, before, i + 1, hi, ht => by
    simp only [List.length_cons] at hi
    simp only [dynamicRnn, if_pos (show before.length < n by omega), List.getElem?_cons_succ]
    have := dynamicRnn_get c n vs (before ++ [v]) i (by omega) (by simp; omega)
    rw [after_append] at this
    simp only [List.length_append, List.length_singleton] at this
    rw [this]
    simp

theorem dynamicRnn_zero (c : RnnCell) (n : Nat) : ∀ (x : Rows) (t : Nat) (s : c.State) (i : Nat), i < x.length →
    n ≤ t + i → (dynamicRnn c n t s x)[i]? = some (List.replicate c.size 0)
  | [], _, _, i, hi, _ => by simp at hi
  | v :: vs, t, s, 0, _, ht => by
    simp [dynamicRnn, if_neg (show ¬ t < n by omega)]
  | v :: vs, t, s, i + 1, hi, ht => by
    simp only [List.length_cons] at hi
    simp only [dynamicRnn]
    split
    · rw [List.getElem?_cons_succ]
      exact dynamicRnn_zero c n vs (t + 1) _ i (by omega) (by omega)
    · rw [List.getElem?_cons_succ]
      exact dynamicRnn_zero c n vs (t + 1) _ i (by omega) (by omega)

theorem bidirectional_get (fw bw : RnnCell) (n : Nat) (x : Rows) (hn : n ≤ x.length) (i : Nat) (hi : i < n) :
    (bidirectional fw bw n x)[i]? = some (fw.last (x.take (i + 1)) ++ bw.last ((x.take n).drop i).reverse) := by
  have h1 := dynamicRnn_get fw n x [] i (by omega) (by simpa using hi)
  have hl : (reverseSeq n x).length = x.length := reverseSeq_length n x
  have h2 := dynamicRnn_get bw n (reverseSeq n x) [] (n - 1 - i) (by omega) (by simp; omega)
  simp only [List.nil_append, List.length_nil] at h1 h2
  have hd : (dynamicRnn bw n 0 bw.init (reverseSeq n x)).length = x.length := by rw [dynamicRnn_length, hl]
  have h3 : (reverseSeq n (dynamicRnn bw n 0 bw.init (reverseSeq n x)))[i]? =
      some (bw.last ((x.take n).drop i).reverse) := by
    generalize hg : dynamicRnn bw n 0 bw.init (reverseSeq n x) = g at *
    replace h2 : g[n - 1 - i]? = some (bw.last ((reverseSeq n x).take (n - 1 - i + 1))) := by
      rw [← hg]; exact h2
    rw [reverseSeq, List.getElem?_append_left (by simp; omega), List.getElem?_reverse (by simp; omega)]
    rw [List.length_take, Nat.min_eq_left (by omega), List.getElem?_take_of_lt (by omega), h2]
    congr 2
    rw [reverseSeq, List.take_append_of_le_length (by simp; omega), List.take_reverse]
    congr 2
    simp
    omega
  rw [bidirectional, List.getElem?_zipWith]
  replace h1 : (dynamicRnn fw n 0 fw.init x)[i]? = _ := h1
  rw [h1, h3]

/-- C136: what a recurrent layer over the words of a sentence gives for a word: the output of the forward cell after
reading the words up to this one, and that of the backward cell after reading the words from the end of the sentence
down to this one. -/
theorem C136_words (fw bw : RnnCell) (x padding : Rows) (i : Nat) (hi : i < x.length) :
    (bilstm x.length [(fw, bw)] (x ++ padding))[i]? = some (fw.last (x.take (i + 1)) ++ bw.last (x.drop i).reverse) := by
  have := bidirectional_get fw bw x.length (x ++ padding) (by simp) i hi
  rw [List.take_append_of_le_length (by omega)] at this
  simpa [bilstm] using this

/-- C136: behind the end of a sentence a recurrent layer gives zeros. -/
theorem C136_padding (fw bw : RnnCell) (x padding : Rows) (i : Nat) (hi : i < padding.length) :
    (bilstm x.length [(fw, bw)] (x ++ padding))[x.length + i]? = some (List.replicate (fw.size + bw.size) 0) := by
  have hl : (reverseSeq x.length (x ++ padding)).length = x.length + padding.length := by
    rw [reverseSeq_length, List.length_append]
  have h1 := dynamicRnn_zero fw x.length (x ++ padding) 0 fw.init (x.length + i) (by simp; omega) (by omega)
  have h2 := dynamicRnn_zero bw x.length (reverseSeq x.length (x ++ padding)) 0 bw.init (x.length + i) (by omega) (by omega)
  simp only [bilstm, List.foldl_nil, bidirectional]
  rw [List.getElem?_zipWith, h1]
  have hg : (dynamicRnn bw x.length 0 bw.init (reverseSeq x.length (x ++ padding))).length = x.length + padding.length := by
    rw [dynamicRnn_length, hl]
  generalize dynamicRnn bw x.length 0 bw.init (reverseSeq x.length (x ++ padding)) = g at *
  have h3 : (reverseSeq x.length g)[x.length + i]? = some (List.replicate bw.size 0) := by
    rw [reverseSeq, List.getElem?_append_right (by simp)]
    simp only [List.length_reverse, List.length_take, List.getElem?_drop]
    rw [← h2]
    congr 1
    omega
  rw [h3]
  simp

/-- C136 (part): aggregation `rnn` is the max pooling of a dense layer with rectifier over the outputs of both cells for
every subword.  Missing: what README.md:120 says, the sum of the final states (`C136_rnn_refuted`). -/
theorem C136_rnn_partial (emb : Int → List Rat) (fw bw : RnnCell) (dense : List Rat → List Rat) (width : Nat)
    (ids : List Int) (hids : ids ≠ []) :
    IsMaxOver width ((List.range ids.length).map (fun i => (dense (fw.last ((ids.take (i + 1)).map emb) ++
        bw.last ((ids.drop i).map emb).reverse)).map (max 0)))
      (subwordRnn emb [(fw, bw)] dense width ids) := by
  have e : (bilstm ids.length [(fw, bw)] (ids.map emb)).map (fun v => (dense v).map relu) =
      (List.range ids.length).map (fun i => (dense (fw.last ((ids.take (i + 1)).map emb) ++
        bw.last ((ids.drop i).map emb).reverse)).map (max 0)) := by
    have hl : (bilstm ids.length [(fw, bw)] (ids.map emb)).length = ids.length := by
      simp [bilstm, bidirectional, dynamicRnn_length, reverseSeq_length]
    apply List.ext_getElem?
    intro i
    by_cases hi : i < ids.length
    · have := C136_words fw bw (ids.map emb) [] i (by simpa using hi)
      simp only [List.length_map, List.append_nil] at this
      rw [List.getElem?_map, this, List.getElem?_map, List.getElem?_range hi]
      simp only [Option.map_some, List.map_take, List.map_drop]
      congr 1
      apply List.map_congr_left
      intro a _
      exact max_comm _ _
    · rw [List.getElem?_eq_none (by simp [hl]; omega), List.getElem?_eq_none (by simp; omega)]
  rw [← e]
  refine maxPool_spec _ ?_
  rw [ne_eq, ← List.length_eq_zero_iff]
  simp [bilstm, bidirectional, dynamicRnn_length, reverseSeq_length]
  exact hids

theorem last_length {c : RnnCell} (h : c.Sized) (x : Rows) : (c.last x).length = c.size := by
  unfold RnnCell.last
  split
  · exact h _ _
  · simp

/-- C136: aggregation `rnn` is never the sum of the final states; it has twice as many components. -/
theorem C136_rnn_refuted (emb : Int → List Rat) (fw bw : RnnCell) (dense : List Rat → List Rat) (ids : List Int)
    (hf : fw.Sized) (hb : bw.Sized) (hs : fw.size = bw.size) (h0 : 0 < fw.size) :
    (subwordRnn emb [(fw, bw)] dense (fw.size + bw.size) ids).length = 2 * (sumOfFinal fw bw (ids.map emb)).length ∧
    subwordRnn emb [(fw, bw)] dense (fw.size + bw.size) ids ≠ sumOfFinal fw bw (ids.map emb) := by
  have h1 : (subwordRnn emb [(fw, bw)] dense (fw.size + bw.size) ids).length = fw.size + bw.size := by
    simp [subwordRnn, maxPool]
  have h2 : (sumOfFinal fw bw (ids.map emb)).length = fw.size := by
    simp [sumOfFinal, last_length hf, last_length hb, hs]
  refine ⟨by omega, fun h => ?_⟩
  rw [h] at h1
  omega

/-! ### Attention -/

theorem comp_sumRows {e : Nat} (x : Rows) {c : Nat} (hc : c < e) :
    comp (sumRows e x) c = ∑ k ∈ range x.length, entry x k c := by
  simp only [comp, sumRows, List.getD_eq_getElem?_getD, List.getElem?_map, List.getElem?_range hc, Option.map_some,
    Option.getD_some]
  rw [← list_sum_range]
  congr 1
  apply List.ext_getElem
  · simp
  · intro i h1 h2
    have : i < x.length := by simpa using h1
    simp [entry, comp, this]

/-- C136: self-attention is a weighted mean of the vectors of the subwords: all weights are positive, their sum is one,
and vectors that agree more with the sum of all vectors get greater weights. -/
theorem C136_attention (e : Nat) (scale : Rat) (hscale : 0 ≤ scale) (softmax : List Rat → List Rat) (hs : IsSoftmax softmax)
    (hg : GreaterShares softmax) (emb : Int → List Rat) (hemb : ∀ i, (emb i).length = e) (ids : List Int) (hids : ids ≠ []) :
    ∃ w : List Rat, w.length = ids.length ∧ (∀ p ∈ w, 0 < p) ∧ w.sum = 1 ∧
      (∀ c < e, comp (subwordAttention e scale softmax emb ids) c =
        ∑ i ∈ range ids.length, comp w i * comp (emb (ids.getD i 0)) c) ∧
      ∀ i < ids.length, ∀ j < ids.length, attention e (ids.map emb) i ≤ attention e (ids.map emb) j →
        comp w i ≤ comp w j := by
  generalize hL : (ids.map emb).map (fun v => dotWith (fun c => scale * (sumRows e (ids.map emb)).getD c 0) v) = L
  have hlen : L.length = ids.length := by rw [← hL]; simp
  obtain ⟨h1, h2, h3⟩ := hs L (by rintro rfl; exact hids (List.length_eq_zero_iff.1 hlen.symm))
  have hval : ∀ i < ids.length, comp L i = scale * attention e (ids.map emb) i := by
    intro i hi
    rw [← hL]
    simp only [comp, List.getD_eq_getElem?_getD, List.getElem?_map, List.getElem?_eq_getElem hi, Option.map_some,
      Option.getD_some]
    rw [dotWith_wide _ _ (hemb _).le, attention, mul_sum]
    apply sum_congr rfl
    intro c hc
    have hs := comp_sumRows (ids.map emb) (mem_range.1 hc)
    rw [comp, List.getD_eq_getElem?_getD] at hs
    rw [hs, entry_nat]
    simp only [List.getD_eq_getElem?_getD, List.getElem?_map, List.getElem?_eq_getElem hi, Option.map_some, Option.getD_some]
    ring
  refine ⟨softmax L, h1.trans hlen, h2, h3, ?_, ?_⟩
  · intro c hc
    have hlz : (List.zipWith (fun v p => v.map (· * p)) (ids.map emb) (softmax L)).length = ids.length := by
      simp [h1, hlen]
    rw [subwordAttention, hL, comp_sumRows _ hc, hlz]
    apply sum_congr rfl
    intro i hi
    have hi := mem_range.1 hi
    have hi' : i < (softmax L).length := by omega
    rw [entry_nat]
    simp only [List.getD_eq_getElem?_getD, List.getElem?_zipWith, List.getElem?_map, List.getElem?_eq_getElem hi,
      List.getElem?_eq_getElem hi', Option.map_some, Option.getD_some, comp]
    rw [mul_comm]
    have hc' : c < (emb ids[i]).length := by rw [hemb]; exact hc
    simp [hc']
  · intro i hi j hj hij
    apply hg L i (by omega) j (by omega)
    rw [hval i hi, hval j hj]
    exact mul_le_mul_of_nonneg_left hij hscale

/-! ### Examples -/

/-- The documented kind of kernels, over characters with vectors of two components. -/
example : ∃ y, IsConvs 2 [⟨3, 2, 1, fun i j k => i + j + k⟩, ⟨3, 1, 2, fun i _ _ => 1 - i⟩]
      ([5, 6, 7].map (fun c : Int => [(c : Rat), 1])) y ∧
    IsMaxOver 1 y (subwordCnn (fun c => [(c : Rat), 1]) [⟨3, 2, 1, fun i j k => i + j + k⟩, ⟨3, 1, 2, fun i _ _ => 1 - i⟩]
      [5, 6, 7]) :=
  C136_cnn 2 _ (fun _ => rfl) _ [5, 6, 7] (by decide)

/-- The second of three words. -/
example : (bilstm 3 [(sumCell, sumCell)] ([[1], [2], [4]] ++ [[8]]))[1]? = some ([3] ++ [6]) :=
  (C136_words sumCell sumCell [[1], [2], [4]] [[8]] 1 (by decide)).trans (by decide +kernel)

example : (bilstm 3 [(sumCell, sumCell)] ([[1], [2], [4]] ++ [[8]]))[3 + 0]? = some [0, 0] :=
  C136_padding sumCell sumCell [[1], [2], [4]] [[8]] 0 (by decide)

example := C136_rnn_partial (fun c => [(c : Rat)]) sumCell sumCell id 2 [5, 6] (by decide)

/-- The cells of the example have outputs of their size. -/
example : sumCell.Sized ∧ 0 < sumCell.size ∧
    subwordRnn (fun c => [(c : Rat)]) [(sumCell, sumCell)] id 2 [5, 6] = [11, 11] ∧
    sumOfFinal sumCell sumCell ([5, 6].map (fun c : Int => [(c : Rat)])) = [22] :=
  ⟨fun _ _ => rfl, by decide, by decide +kernel, by decide +kernel⟩

/-- Equal shares are a softmax that gives greater numbers no smaller shares. -/
example : GreaterShares (fun l => l.map (fun _ => 1 / (l.length : Rat))) := by
  intro l i hi j hj _
  simp [comp, hi, hj]

/-! ### Several features -/

theorem maxLength_mem : ∀ {l : List Nat}, l ≠ [] → maxLength l ∈ l
  | [], h => absurd rfl h
  | [a], _ => by simp [maxLength]
  | a :: b :: l, _ => by
    have ih := maxLength_mem (l := b :: l) (by simp)
    show max a (maxLength (b :: l)) ∈ _
    rcases max_choice a (maxLength (b :: l)) with h | h
    · rw [h]; exact List.mem_cons_self
    · rw [h]; exact List.mem_cons_of_mem _ ih

/-- C136: a word has the vectors of its features, one after the other. -/
theorem C136_concat (fs : List WordFeat) (batch : List (List WordIds)) (s : List WordIds) (hs : s ∈ batch) (j : Nat)
    (w : WordIds) (hw : s[j]? = some w) :
    ∃ parts : Rows, (wordFeatures fs batch s)[j]? = some parts.flatten ∧ parts.length = fs.length ∧
      ∀ (i : Nat) f ids v, fs[i]? = some f → w[i]? = some ids → parts[i]? = some v → FeatureVector batch i f ids v := by
  refine ⟨fs.zipIdx.map (fun p => p.1.vec (longest batch p.2) (idsOf w p.2)), ?_, by simp, ?_⟩
  · have hj : j < s.length := (List.getElem?_eq_some_iff.1 hw).1
    rw [wordFeatures, List.getElem?_map, padSentence, List.getElem?_append_left hj, hw]
    rfl
  · intro i f ids v hf hi hv
    simp only [List.getElem?_map, List.getElem?_zipIdx, hf, Option.map_some, Option.some.injEq, Nat.zero_add] at hv
    have hids : idsOf w i = ids := by simp [idsOf, hi]
    rw [hids] at hv
    subst hv
    cases f with
    | word emb dense =>
      rintro id rfl
      rfl
    | sub agg post =>
      have hwb : w ∈ batch.flatten := List.mem_flatten.2 ⟨s, hs, List.mem_of_getElem? hw⟩
      have hall : ∀ w' ∈ batch.flatten, (idsOf w' i).length ≤ longest batch i := fun w' hw' =>
        le_maxLength (List.mem_map_of_mem (f := fun w => (idsOf w i).length) hw')
      have hle := hall w hwb
      rw [hids] at hle
      refine ⟨longest batch i - ids.length, rfl, ?_, ?_⟩
      · intro s' hs' w' hw' l hl
        have := hall w' (List.mem_flatten.2 ⟨s', hs', hw'⟩)
        simp only [idsOf, List.getD_eq_getElem?_getD, hl, Option.getD_some] at this
        omega
      · have hne : batch.flatten.map (fun w => (idsOf w i).length) ≠ [] := by
          intro h0
          rw [List.map_eq_nil_iff] at h0
          rw [h0] at hwb
          cases hwb
        obtain ⟨w', hw', he⟩ := List.mem_map.1 (maxLength_mem hne)
        change _ = longest batch i at he
        cases hl : w'[i]? with
        | none =>
          have h0 : longest batch i = 0 := by simp [← he, idsOf, hl]
          exact ⟨s, hs, w, List.mem_of_getElem? hw, ids, hi, by omega⟩
        | some l =>
          obtain ⟨s', hs', hm⟩ := List.mem_flatten.1 hw'
          refine ⟨s', hs', w', hm, l, hl, ?_⟩
          have : l.length = longest batch i := by simpa [idsOf, hl] using he
          omega

/-- A word with an id and two subwords, beside a word with three subwords. -/
example : ∃ parts : Rows, (wordFeatures [.word (fun c => [(c : Rat)]) id, .sub (fun l => [(l.length : Rat), l.sum]) id]
      [[[[5], [7, 8]]], [[[6], [1, 2, 3]]]] [[[5], [7, 8]]])[0]? = some parts.flatten ∧ parts = [[5], [3, 15]] := by
  obtain ⟨parts, h1, h2, h3⟩ := C136_concat [.word (fun c => [(c : Rat)]) id, .sub (fun l => [(l.length : Rat), l.sum]) id]
    [[[[5], [7, 8]]], [[[6], [1, 2, 3]]]] [[[5], [7, 8]]] (by decide) 0 [[5], [7, 8]] rfl
  refine ⟨parts, h1, ?_⟩
  match parts, h2 with
  | [a, b], _ =>
    have ha := h3 0 _ _ a rfl rfl rfl 5 rfl
    obtain ⟨k, hb, hk, s, hs, w, hw, l, hl, hl'⟩ := h3 1 _ _ b rfl rfl rfl
    have hk1 := hk [[[6], [1, 2, 3]]] (by decide) [[6], [1, 2, 3]] (by decide) [1, 2, 3] rfl
    have hk2 : k = 1 := by
      simp only [List.mem_cons, List.not_mem_nil, or_false] at hs
      rcases hs with rfl | rfl
      · rw [List.mem_singleton.1 hw] at hl
        obtain rfl : [7, 8] = l := by simpa using hl
        simp at hl' hk1
        omega
      · rw [List.mem_singleton.1 hw] at hl
        obtain rfl : [1, 2, 3] = l := by simpa using hl
        simp at hl' hk1
        omega
    rw [ha, hb, hk2]
    simp [PADDING]

end Verif
