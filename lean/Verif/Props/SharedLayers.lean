import Verif.Proofs.SharedLayers
import Verif.Props.Layers

/-!
# Theorems about the shared part of the network (C98, C125 - C128)
-/

namespace Verif

/-! ### C98: the other ways to make a vector of subwords -/

/-- C98: the convolutions see the padding behind a word. -/
theorem C98_cnn_refuted : ¬ WordOnly (subwordVectors (subwordCnn (fun _ => [1]) [⟨3, 1, 1, fun _ _ _ => 1⟩])) := by
  intro h
  have := h [[5]] [[5], [6, 7]] 0 0 [5] (by decide) rfl rfl
  revert this
  decide +kernel

/-- C98: the recurrent layer runs over the padding, because it is not told the lengths. -/
theorem C98_rnn_refuted :
    ¬ WordOnly (subwordVectors (subwordRnn (fun _ => [1]) [(sumCell, sumCell)] id 2)) := by
  intro h
  have := h [[5]] [[5], [6, 7]] 0 0 [5] (by decide) rfl rfl
  revert this
  decide +kernel

/-- C98: the padding takes a share of the attention, whatever the softmax. -/
theorem C98_attention_refuted (scale : Rat) (softmax : List Rat → List Rat) (hs : IsSoftmax softmax) :
    ¬ WordOnly (subwordVectors (subwordAttention 1 scale softmax (fun c => if c = 5 then [1] else [0]))) := by
  intro h
  have h1 := h [[5]] [[5], [6, 7]] 0 0 [5] (by decide) rfl rfl
  have hex : ∀ ids : List Int, ∃ L : List Rat, L.length = ids.length ∧
      subwordAttention 1 scale softmax (fun c => if c = 5 then [1] else [0]) ids =
        sumRows 1 (List.zipWith (fun v p => v.map (· * p)) (ids.map (fun c => if c = 5 then [1] else [0])) (softmax L)) :=
    fun ids => ⟨_, by simp, rfl⟩
  obtain ⟨L1, k1, e1⟩ := hex [5]
  obtain ⟨L2, k2, e2⟩ := hex [5, PADDING]
  replace h1 : some (subwordAttention 1 scale softmax (fun c => if c = 5 then [1] else [0]) [5]) =
      some (subwordAttention 1 scale softmax (fun c => if c = 5 then [1] else [0]) [5, PADDING]) := h1
  rw [e1, e2, Option.some.injEq] at h1
  obtain ⟨l1, p1, s1⟩ := hs L1 (by rintro rfl; simp at k1)
  obtain ⟨l2, p2, s2⟩ := hs L2 (by rintro rfl; simp at k2)
  generalize softmax L1 = f1 at *
  generalize softmax L2 = f2 at *
  obtain ⟨a, rfl⟩ := List.length_eq_one_iff.1 (l1.trans k1)
  obtain ⟨b, c, rfl⟩ := List.length_eq_two.1 (l2.trans k2)
  have hp : ¬ PADDING = 5 := by decide
  have hc : 0 < c := p2 c (by simp)
  simp [sumRows, hp] at h1 s1 s2
  linarith

/-- C98 (part): whatever the aggregation, the vector of a word is a function of its subwords and of the length of the
longest word of the batch.  So it is the same in all batches with longest words of the same length.  Missing:
independence of the longest word, which holds for none of the four aggregations (`C98_average_refuted`,
`C98_cnn_refuted`, `C98_rnn_refuted`, `C98_attention_refuted`). -/
theorem C98_aggregation_partial (agg : List Int → List Rat) (s s' : List (List Int)) (i j : Nat) (w : List Int)
    (hi : s[i]? = some w) (hj : s'[j]? = some w)
    (hm : maxLength (s.map List.length) = maxLength (s'.map List.length)) :
    (subwordVectors agg s)[i]? = (subwordVectors agg s')[j]? := by
  simp [subwordVectors, padWords, hi, hj, hm]

example : (subwordVectors (subwordCnn (fun c => [c]) [⟨3, 1, 1, fun _ _ _ => 1⟩]) [[5], [6, 7]])[0]? =
    (subwordVectors (subwordCnn (fun c => [c]) [⟨3, 1, 1, fun _ _ _ => 1⟩]) [[9, 2], [5]])[1]? :=
  C98_aggregation_partial _ _ _ 0 1 [5] rfl rfl (by decide)

/-- A softmax: equal shares.  (So the hypothesis of `C98_attention_refuted` can be met.) -/
example : IsSoftmax (fun l => l.map (fun _ => 1 / (l.length : Rat))) := by
  intro l hl
  have hn : (0 : Rat) < l.length := by exact_mod_cast List.length_pos_iff.2 hl
  refine ⟨by simp, ?_, ?_⟩
  · intro p hp
    obtain ⟨_, _, rfl⟩ := List.mem_map.1 hp
    exact one_div_pos.2 hn
  · simp only [List.map_const', List.sum_replicate, nsmul_eq_mul]
    field_simp

/-! ### C125 -/

/-- C125 (part): in prediction the values the tasks get for the word `i` of a sentence are the same whether it is
processed alone or with other sentences, if the subwords are padded to the same length in both cases, and the
convolutions over words do not reach beyond the end of the sentence (or no sentence is longer).  Without subwords and
convolutions over words, these conditions hold for all words.  Missing: words near the end of a sentence under
`Dilated_CNN` (`C125_dilated_refuted`) and subwords in batches with longer words (`C125_subwords_refuted`). -/
theorem C125_partial (fs : List WordFeat) (out : SharedOut) (batch : List (List WordIds)) (s : List WordIds)
    (hsub : ∀ (f : Nat) (fe : WordFeat), fs[f]? = some fe → fe.isSub = true → longest batch f = longest [s] f)
    (i : Nat) (hi : i + out.reach < s.length ∨ ∀ t ∈ batch, t.length ≤ s.length) (hl : i < s.length) :
    (sharedPartOf fs out noDropout batch s)[i]? = (sharedPartOf fs out noDropout [s] s)[i]? := by
  rcases hi with hi | hi
  · exact eval_agree out (wordFeatures_agree fs batch s hsub) 0 i (by omega)
  · have hm : maxLength (batch.map List.length) ≤ s.length := by
      apply maxLength_le
      intro n hn
      obtain ⟨t, ht, rfl⟩ := List.mem_map.1 hn
      exact hi t ht
    have e : wordFeatures fs batch s = wordFeatures fs [s] s := by
      rw [wordFeatures_alone]
      simp only [wordFeatures, padSentence, Nat.sub_eq_zero_of_le hm, List.replicate_zero, List.append_nil]
      apply List.map_congr_left
      intro w _
      exact wordVector_congr fs _ _ _ hsub
    simp only [sharedPartOf, e]

/-- C125 for recurrent layers over vectors of words: every word of every sentence, without conditions. -/
theorem C125_words (emb : Int → List Rat) (dense : List Rat → List Rat) (cells : List (RnnCell × RnnCell))
    (batch : List (List WordIds)) (s : List WordIds) (i : Nat) (hl : i < s.length) :
    (sharedPartOf [.word emb dense] (.bilstm cells) noDropout batch s)[i]? =
      (sharedPartOf [.word emb dense] (.bilstm cells) noDropout [s] s)[i]? := by
  apply C125_partial _ _ _ _ _ i (Or.inl (by simpa [SharedOut.reach] using hl)) hl
  intro f fe hf hsub
  cases f with
  | zero =>
    simp only [List.getElem?_cons_zero, Option.some.injEq] at hf
    subst hf
    simp [WordFeat.isSub] at hsub
  | succ f => simp at hf

/-- C125: the convolutions over words see the padding behind the end of a sentence. -/
theorem C125_dilated_refuted : ∃ (fs : List WordFeat) (ks : List ConvKernel) (s t : List WordIds),
    (∀ f ∈ fs, f.isSub = false) ∧
    (sharedPartOf fs (.dilated ks) noDropout [s, t] s)[0]? ≠ (sharedPartOf fs (.dilated ks) noDropout [s] s)[0]? :=
  ⟨[.word (fun _ => [1]) id], [⟨3, 1, 1, fun _ _ _ => 1⟩], [[[5]]], [[[6]], [[7]]], by decide, by decide +kernel⟩

/-- C125: a longer word in another sentence changes the vectors of subwords. -/
theorem C125_subwords_refuted : ∃ (fs : List WordFeat) (cells : List (RnnCell × RnnCell)) (s t : List WordIds),
    s.length = t.length ∧
    (sharedPartOf fs (.bilstm cells) noDropout [s, t] s)[0]? ≠ (sharedPartOf fs (.bilstm cells) noDropout [s] s)[0]? :=
  ⟨[.sub (subwordCnn (fun _ => [1]) [⟨3, 1, 1, fun _ _ _ => 1⟩]) id], [(sumCell, sumCell)], [[[5]]], [[[6, 7]]], rfl,
    by decide +kernel⟩

/-- The hypotheses of `C125_partial` can be met with subwords, convolutions over words and a longer sentence. -/
example : (sharedPartOf [.word (fun c => [c]) id, .sub (subwordCnn (fun c => [c]) [⟨3, 1, 1, fun _ _ _ => 1⟩]) id]
      (.skipConcat (.dilated [⟨3, 2, 1, fun i j k => i + j + k⟩])) noDropout
      [[[[5], [6, 7]], [[4], [6]]], [[[9], [2, 2]], [[9], [2]], [[9], [2]]]] [[[5], [6, 7]], [[4], [6]]])[0]? =
    (sharedPartOf [.word (fun c => [c]) id, .sub (subwordCnn (fun c => [c]) [⟨3, 1, 1, fun _ _ _ => 1⟩]) id]
      (.skipConcat (.dilated [⟨3, 2, 1, fun i j k => i + j + k⟩])) noDropout
      [[[[5], [6, 7]], [[4], [6]]]] [[[5], [6, 7]], [[4], [6]]])[0]? := by
  refine C125_partial _ _ _ _ ?_ 0 (Or.inl (by decide)) (by decide)
  intro f fe hf _
  match f with
  | 0 => decide
  | 1 => decide
  | f + 2 => simp at hf

/-! ### C126 -/

/-- C126: the value of a word under `Dilated_CNN` depends only on the words in its window: as many to the left and to
the right as half of the spans of the kernels add up to. -/
theorem C126_window (ks : List ConvKernel) (x y : Rows) (hl : x.length = y.length) (i : Nat) (hi : i < x.length)
    (h : ∀ j : Nat, i ≤ j + reachLeft ks → j ≤ i + reachRight ks → x[j]? = y[j]?) :
    (convStack ks x)[i]? = (convStack ks y)[i]? := by
  have key := convStack_window ks x y hl i (by
    intro j hj1 hj2
    by_cases h0 : j < 0
    · rw [rowAt_neg _ _ h0, rowAt_neg _ _ h0]
    · obtain ⟨n, rfl⟩ := Int.eq_ofNat_of_zero_le (by omega : 0 ≤ j)
      rw [rowAt_nat, rowAt_nat, h n (by omega) (by omega)])
  rw [rowAt_nat, rowAt_nat] at key
  have hx : i < (convStack ks x).length := by rw [convStack_length]; exact hi
  have hy : i < (convStack ks y).length := by rw [convStack_length]; omega
  rw [List.getElem?_eq_getElem hx, List.getElem?_eq_getElem hy] at key ⊢
  simpa using key

/-- C126: the window is not smaller: for all sizes and dilations there are weights with which the value of a word is
that of the last word of its window, and others with which it is that of the first word. -/
theorem C126_window_exact (dims : List (Nat × Nat)) (hd : ∀ p ∈ dims, 0 < p.1) :
    (∃ ks : List ConvKernel, ks.map (fun k => (k.size, k.dilation)) = dims ∧
      ∀ x : Rows, NonnegRows x → ∀ i : Nat, i + reachRight ks < x.length →
        (convStack ks x)[i]? = x[i + reachRight ks]?) ∧
    (∃ ks : List ConvKernel, ks.map (fun k => (k.size, k.dilation)) = dims ∧
      ∀ x : Rows, NonnegRows x → ∀ i : Nat, i < x.length → reachLeft ks ≤ i →
        (convStack ks x)[i]? = x[i - reachLeft ks]?) := by
  refine ⟨⟨dims.map (fun p => tapKernel p.1 p.2 (p.1 - 1)), ?_, convStack_tap_right dims hd⟩,
    ⟨dims.map (fun p => tapKernel p.1 p.2 0), ?_, convStack_tap_left dims hd⟩⟩
  · simp [tapKernel, Function.comp_def]
  · simp [tapKernel, Function.comp_def]

/-- C126: the kernels of the documentation (sizes 3, dilations 1, 2, 4) see seven words on each side. -/
example (w : Nat → Nat → Nat → Rat) :
    reachRight [⟨3, 512, 1, w⟩, ⟨3, 124, 2, w⟩, ⟨3, 64, 4, w⟩] = 7 ∧
    reachLeft [⟨3, 512, 1, w⟩, ⟨3, 124, 2, w⟩, ⟨3, 64, 4, w⟩] = 7 := by
  simp [reachRight, reachLeft]

/-- C126: with `BiLSTM` a word sees the whole sentence: there are cells with which the value of a word holds the sum up
to the word and the sum from the word on, however long the sentence is. -/
theorem C126_bilstm : ∃ fw bw : RnnCell, ∀ (x : Rows) (i : Nat), i < x.length →
    (bilstm x.length [(fw, bw)] x)[i]? =
      some [((x.take (i + 1)).map (fun v => v.getD 0 0)).sum, ((x.drop i).map (fun v => v.getD 0 0)).sum] :=
  ⟨sumCell, sumCell, fun x i hi => bidirectional_sum x i hi⟩

/-- C126: the convolutions that `BiLSTM_CNN` adds see no other word: whatever the kernels and their weights, the value
of a word is determined by what the recurrent layer gave for this word, even across sentences. -/
theorem C126_sentence_cnn_refuted (inner : SharedOut) (ks : List ConvKernel) (n n' : Nat) (x x' : Rows) (k k' i i' : Nat)
    (h : (inner.eval noDropout n x (k + 1))[i]? = (inner.eval noDropout n' x' (k' + 1))[i']?) :
    ((SharedOut.sentCnn inner ks).eval noDropout n x k)[i]? =
      ((SharedOut.sentCnn inner ks).eval noDropout n' x' k')[i']? := by
  simp only [SharedOut.eval, noDropout, List.getElem?_map, h]

/-- C126: instead, neighbouring components of the vector are related, so their order matters. -/
example : sentLevelCnn [⟨2, 1, 1, fun _ _ _ => 1⟩] [5, 1, 2] ≠ sentLevelCnn [⟨2, 1, 1, fun _ _ _ => 1⟩] [1, 5, 2] := by
  decide +kernel

/-! ### C127 -/

/-- C127: nothing is fed for the labels in prediction, so everything is kept. -/
theorem C127_prediction (fs : List WordFeat) (out : SharedOut) (u : Nat → Nat → Nat → Rat) (hu : UnitRandom u)
    (batch : List (List WordIds)) (s : List WordIds) :
    sharedPartOf fs out (withDropout (keepProb Dict.empty) u) batch s = sharedPartOf fs out noDropout batch s := by
  have hk : keepProb Dict.empty = 1 := rfl
  have hn : ∀ (v x : Rat), 0 ≤ v → v < 1 → dropNumber 1 v x = x := by
    intro v x h0 h1
    have : (1 + v).floor = 1 := by
      apply le_antisymm
      · have h2 : (1 + v).floor < 2 := Rat.floor_lt_iff.2 (by push_cast; linarith)
        omega
      · exact Rat.le_floor_iff.2 (by push_cast; linarith)
    simp [dropNumber, this]
  have hr : withDropout 1 u = noDropout := by
    funext k x
    simp only [withDropout, noDropout, dropRows]
    have hrow : ∀ (i : Nat) (r : List Rat), r.zipIdx.map (fun q => dropNumber 1 (u k i q.2) q.1) = r := by
      intro i r
      have : ∀ q ∈ r.zipIdx, dropNumber 1 (u k i q.2) q.1 = q.1 := fun q _ => hn _ _ (hu k i q.2).1 (hu k i q.2).2
      rw [List.map_congr_left this]
      simp
    simp only [hrow]
    simp
  rw [hk, hr]

/-- C127: the number given as `dropout` in training is the probability to keep a value: it is kept, and divided by
the probability, for all random numbers but those less than one minus this probability, for which it becomes zero. -/
theorem C127_training (labels : Dict Str Rat) (lr keep u x : Rat) (h0 : 0 < keep) (h1 : keep ≤ 1) (hu : 0 ≤ u)
    (hu' : u < 1) :
    dropNumber (keepProb (trainFeed labels lr keep)) u x = (if 1 - keep ≤ u then x / keep else 0) := by
  have hk : keepProb (trainFeed labels lr keep) = keep := by
    simp [keepProb, trainFeed, Dict.get?_set]
  rw [hk]
  split
  · have : (keep + u).floor = 1 := by
      apply le_antisymm
      · have h2 : (keep + u).floor < 2 := Rat.floor_lt_iff.2 (by push_cast; linarith)
        omega
      · exact Rat.le_floor_iff.2 (by push_cast; linarith)
    simp [dropNumber, this]
  · have : (keep + u).floor = 0 := by
      apply le_antisymm
      · have h2 : (keep + u).floor < 1 := Rat.floor_lt_iff.2 (by push_cast; linarith)
        omega
      · exact Rat.le_floor_iff.2 (by push_cast; linarith)
    simp [dropNumber, this]

/-- C127: dropout keeps the mean: over `n` equally spread random numbers, with a probability of `m / n` to keep, the
values add up to `n` times the value. -/
theorem C127_mean (m n : Nat) (hm : 0 < m) (hn : m ≤ n) (x : Rat) :
    ((List.range n).map (fun i : Nat => dropNumber ((m : Rat) / n) ((i : Rat) / n) x)).sum = n * x := by
  have hnp : (0 : Rat) < n := by exact_mod_cast (by omega : 0 < n)
  have hmp : (0 : Rat) < m := by exact_mod_cast hm
  have hmn : (m : Rat) ≤ n := by exact_mod_cast hn
  have hval : ∀ i : Nat, i < n → dropNumber ((m : Rat) / n) ((i : Rat) / n) x =
      (if n - m ≤ i then x / ((m : Rat) / n) else 0) := by
    intro i hi
    have hin : (i : Rat) < n := by exact_mod_cast hi
    have h := C127_training Dict.empty 0 ((m : Rat) / n) ((i : Rat) / n) x (div_pos hmp hnp)
      ((div_le_iff₀ hnp).2 (by linarith)) (div_nonneg (by exact_mod_cast Nat.zero_le i) hnp.le) ((div_lt_iff₀ hnp).2 (by linarith))
    have hk : keepProb (trainFeed Dict.empty 0 ((m : Rat) / n)) = (m : Rat) / n := by
      simp [keepProb, trainFeed, Dict.get?_set]
    rw [hk] at h
    rw [h]
    have hc : (1 - (m : Rat) / n ≤ (i : Rat) / n) ↔ n - m ≤ i := by
      rw [sub_le_iff_le_add, ← add_div, le_div_iff₀ hnp, one_mul]
      constructor
      · intro h
        have : n ≤ i + m := by exact_mod_cast h
        omega
      · intro h
        have : n ≤ i + m := by omega
        exact_mod_cast this
    by_cases hh : n - m ≤ i
    · rw [if_pos hh, if_pos (hc.2 hh)]
    · rw [if_neg hh, if_neg (fun h => hh (hc.1 h))]
  have hsplit : List.range n = List.range (n - m) ++ (List.range m).map (fun i => n - m + i) := by
    conv_lhs => rw [show n = (n - m) + m by omega]
    rw [List.range_add]
  have hall : (List.range n).map (fun i : Nat => dropNumber ((m : Rat) / n) ((i : Rat) / n) x) =
      (List.range n).map (fun i => if n - m ≤ i then x / ((m : Rat) / n) else 0) :=
    List.map_congr_left (fun i hi => hval i (List.mem_range.1 hi))
  rw [hall, hsplit, List.map_append, List.sum_append, List.map_map]
  have h1 : (List.range (n - m)).map (fun i => if n - m ≤ i then x / ((m : Rat) / n) else 0) =
      (List.range (n - m)).map (fun _ => 0) :=
    List.map_congr_left (fun i hi => if_neg (by have := List.mem_range.1 hi; omega))
  have h2 : (List.range m).map ((fun i => if n - m ≤ i then x / ((m : Rat) / n) else 0) ∘ (fun i => n - m + i)) =
      (List.range m).map (fun _ => x / ((m : Rat) / n)) :=
    List.map_congr_left (fun i _ => if_pos (Nat.le_add_right _ _))
  rw [h1, h2]
  simp only [List.map_const', List.length_range, List.sum_replicate, nsmul_eq_mul, mul_zero, zero_add]
  field_simp

example : ((List.range 4).map (fun i : Nat => dropNumber ((1 : Nat) / (4 : Nat)) ((i : Rat) / (4 : Nat)) 3)).sum = 12 := by
  rw [C127_mean 1 4 (by decide) (by decide)]
  norm_num

/-! ### C128 -/

/-- C128: every component of the output of a highway layer lies between those of the vector and of the transformed
vector, is the former where the gate is closed and the latter where it is open. -/
theorem C128_highway (gate : List Rat → List Rat) (x y : List Rat) (hx : (gate x).length = x.length)
    (hy : y.length = x.length) (i : Nat) (a b g : Rat) (ha : x[i]? = some a) (hb : y[i]? = some b)
    (hg : (gate x)[i]? = some g) (h0 : 0 ≤ g) (h1 : g ≤ 1) :
    (highway gate x y).length = x.length ∧
    ∃ c, (highway gate x y)[i]? = some c ∧ min a b ≤ c ∧ c ≤ max a b ∧ (g = 0 → c = a) ∧ (g = 1 → c = b) := by
  refine ⟨by simp [highway, hx, hy], g * b + (1 - g) * a, ?_, ?_, ?_, ?_, ?_⟩
  · simp [highway, List.getElem?_zipWith, ha, hb, hg]
  · rcases le_total a b with h | h
    · rw [min_eq_left h]
      nlinarith
    · rw [min_eq_right h]
      nlinarith
  · rcases le_total a b with h | h
    · rw [max_eq_right h]
      nlinarith
    · rw [max_eq_left h]
      nlinarith
  · rintro rfl
    ring
  · rintro rfl
    ring

/-- C128: a skip connection by concatenation keeps the vector of every word as it was. -/
theorem C128_skip (out : SharedOut) (n : Nat) (x : Rows) (i k : Nat) (v w : List Rat) (hv : x[i]? = some v)
    (hw : (out.eval noDropout n x (k + 1))[i]? = some w) :
    ((SharedOut.skipConcat out).eval noDropout n x k)[i]? = some (w ++ v) := by
  simp [SharedOut.eval, noDropout, List.getElem?_zipWith, hv, hw]

example : highway (fun _ => [1 / 2, 0]) [1, 2] [3, 4] = [2, 2] := by decide +kernel

/-- C127: every number is dropped or kept on its own: the one in place `j` of the vector of word `i` by the random number drawn for
this place. -/
theorem C127_each (keep : Rat) (u : Nat → Nat → Nat → Rat) (k : Nat) (x : Rows) (i j : Nat) (v : List Rat) (a : Rat)
    (hv : x[i]? = some v) (ha : v[j]? = some a) (h0 : 0 < keep) (h1 : keep ≤ 1) (hu : UnitRandom u) :
    ∃ w, (withDropout keep u k x)[i]? = some w ∧ w.length = v.length ∧
      w[j]? = some (if 1 - keep ≤ u k i j then a / keep else 0) := by
  have h := C127_training Dict.empty 0 keep (u k i j) a h0 h1 (hu k i j).1 (hu k i j).2
  have hk : keepProb (trainFeed Dict.empty 0 keep) = keep := by simp [keepProb, trainFeed, Dict.get?_set]
  rw [hk] at h
  refine ⟨v.zipIdx.map (fun q => dropNumber keep (u k i q.2) q.1), ?_, by simp, ?_⟩
  · simp [withDropout, dropRows, hv]
  · simp [ha, h]

/-- C128: a skip connection by addition adds the vector of the word, number by number. -/
theorem C128_skip_sum (out : SharedOut) (n : Nat) (x : Rows) (i j k : Nat) (v w : List Rat) (a b : Rat) (hv : x[i]? = some v)
    (hw : (out.eval noDropout n x (k + 1))[i]? = some w) (ha : v[j]? = some a) (hb : w[j]? = some b) :
    ∃ r, ((SharedOut.skipSum out).eval noDropout n x k)[i]? = some r ∧ r[j]? = some (b + a) := by
  refine ⟨List.zipWith (· + ·) w v, ?_, ?_⟩
  · simp [SharedOut.eval, addRows, noDropout, List.getElem?_zipWith, hv, hw]
  · simp [List.getElem?_zipWith, ha, hb]

/-- C128: a further recurrent layer adds to what the layers before it gave, number by number. -/
theorem C128_residual (n : Nat) (c d : RnnCell × RnnCell) (cs : List (RnnCell × RnnCell)) (x : Rows) (i j : Nat) (v w : List Rat)
    (a b : Rat) (hv : (bilstm n (c :: cs) x)[i]? = some v) (hw : (bidirectional d.1 d.2 n (bilstm n (c :: cs) x))[i]? = some w)
    (ha : v[j]? = some a) (hb : w[j]? = some b) :
    ∃ r, (bilstm n (c :: (cs ++ [d])) x)[i]? = some r ∧ r[j]? = some (a + b) := by
  refine ⟨List.zipWith (· + ·) v w, ?_, ?_⟩
  · have : bilstm n (c :: (cs ++ [d])) x = addRows (bilstm n (c :: cs) x) (bidirectional d.1 d.2 n (bilstm n (c :: cs) x)) := by
      simp [bilstm]
    rw [this]
    simp [addRows, List.getElem?_zipWith, hv, hw]
  · simp [List.getElem?_zipWith, ha, hb]

example : withDropout (1 / 2) (fun _ i j => if i = j then 3 / 4 else 0) 0 [[1, 2], [3, 4]] = [[2, 0], [0, 8]] := by decide +kernel

end Verif
