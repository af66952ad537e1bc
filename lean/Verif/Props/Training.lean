import Verif.Proofs.Shuffle
import Verif.Proofs.Training
import Verif.Props.Evaluation

/-! # Properties of data set iteration and training: C56-C58, C82-C84 -/

namespace Verif

/-! ### C56 -/

/-- C56: for every random stream and every positive `max_batch_size`, iterating over a shuffled data
set yields every document exactly once, and each is less than `max_batch_size` positions away from its
place in the data set. -/
theorem C56_local_permutation {α : Type} (rnd : Nat → Nat) {B : Nat} (hB : 0 < B) (dataset : List α) :
    ∃ r, shuffledIter rnd B dataset = .ok r ∧ r.Perm dataset ∧ MovedLessThan B dataset r := by
  obtain ⟨bs, bs', h1, h2, h3, h4⟩ := splitLoop_spec rnd hB (dataset.length + 1) 0
    (List.range dataset.length) (by simp)
  -- the data set is the image of its positions
  have hmap : (List.range dataset.length).map (fun j => dataset[j]?) = dataset.map some := by
    apply List.ext_getElem?
    intro i
    by_cases hi : i < dataset.length
    · rw [List.getElem?_map, List.getElem?_range hi, List.getElem?_map, List.getElem?_eq_getElem hi]
      simp [hi]
    · rw [List.getElem?_eq_none (by simpa using hi), List.getElem?_eq_none (by simpa using hi)]
  have e1 := splitLoop_map (fun j => dataset[j]?) rnd B (dataset.length + 1) 0
    (List.range dataset.length)
  have e2 := splitLoop_map some rnd B (dataset.length + 1) 0 dataset
  rw [h1, hmap] at e1
  obtain ⟨cs, cs', g1, g2, g3, g4⟩ := splitLoop_spec rnd hB (dataset.length + 1) 0 dataset (by simp)
  rw [g1, e1] at e2
  injection e2 with e2
  have hflat : cs'.flatten.map some = bs'.flatten.map (fun j => dataset[j]?) := by
    rw [List.map_flatten, List.map_flatten, e2]
  refine ⟨cs'.flatten, by unfold shuffledIter; rw [g1], ?_, bs'.flatten, ?_, hflat, ?_⟩
  · rw [← g2]; exact flatten_perm_of_forall₂ g3
  · rw [← h2]; exact flatten_perm_of_forall₂ h3
  · intro i j h
    have := blocks_local (B := B) h3 (fun b hb => (h4.1 b hb).2) (a := 0) (m := dataset.length)
      (by rw [h2, List.range_eq_range']) i j h
    omega

/-- C56: the documents are shuffled in consecutive batches, each with more than half of
`max_batch_size` documents except for the last, and at most `max_batch_size`. -/
theorem C56_batches {α : Type} (rnd : Nat → Nat) {B : Nat} (hB : 0 < B) (dataset : List α) :
    ∃ bs bs', shuffledIter rnd B dataset = .ok bs'.flatten ∧ bs.flatten = dataset ∧
      List.Forall₂ List.Perm bs' bs ∧ BatchSizes B bs := by
  obtain ⟨cs, cs', g1, g2, g3, g4⟩ := splitLoop_spec rnd hB (dataset.length + 1) 0 dataset (by simp)
  exact ⟨cs, cs', by unfold shuffledIter; rw [g1], g2, g3, g4⟩

/-- C56, error branch: without a positive `max_batch_size` iterating raises `ValueError`, even over an
empty data set. -/
theorem C56_size_rejected {α : Type} (rnd : Nat → Nat) {B : Int} (hB : B ≤ 0) (dataset : List α) :
    shuffledIter rnd B dataset = .error .value := by
  have h : B + 1 ≤ B.tdiv 2 + 1 := by
    have : B.tdiv 2 = -((-B) / 2) := by
      rw [← Int.neg_neg B, Int.neg_tdiv, Int.tdiv_eq_ediv_of_nonneg (by omega)]; simp
    omega
  unfold shuffledIter splitLoop randrange
  rw [if_pos h]

/-- C56, all passes: each of the iterations over one data set object has these properties, whatever
the seed. -/
theorem C56_every_pass {α : Type} (outer : Nat → Nat) (streams : Nat → Nat → Nat) {B : Nat}
    (hB : 0 < B) (dataset : List α) (n : Nat) :
    ∃ r, shuffledIterNth outer streams B dataset n = .ok r ∧ r.Perm dataset ∧
      MovedLessThan B dataset r :=
  C56_local_permutation _ hB dataset

/-- Seven documents with `max_batch_size` 4. -/
example : shuffledIter (fun k => 3 * k + 1) 4 [0, 1, 2, 3, 4, 5, 6] = .ok [2, 3, 1, 0, 4, 6, 5] ∧
    (0 : Nat) < 4 := by decide +kernel

/-! ### C82 -/

/-- C82: every order that C56 allows can occur: cut the data set into batches of allowed sizes and
reorder each of them in any way; some random stream yields exactly that. -/
theorem C82_every_order {α : Type} {B : Nat} (hB : 0 < B) {bs bs' : List (List α)}
    (hp : List.Forall₂ List.Perm bs bs') (hs : BatchSizes B bs) :
    ∃ rnd, shuffledIter rnd B bs.flatten = .ok bs'.flatten := by
  obtain ⟨ds, h⟩ := splitLoop_surj hB hp hs
  obtain ⟨rnd, hr⟩ := exists_draws ds
  refine ⟨rnd, ?_⟩
  unfold shuffledIter
  rw [h rnd 0 _ hr (by omega)]

/-- C82: a data set with at most `max_batch_size` documents can be yielded in every order. -/
theorem C82_small_data_set {α : Type} {B : Nat} {dataset r : List α} (hl : dataset.length ≤ B)
    (hB : 0 < B) (hp : dataset.Perm r) : ∃ rnd, shuffledIter rnd B dataset = .ok r := by
  by_cases he : dataset = []
  · subst he
    have : r = [] := List.nil_perm.mp hp
    subst this
    exact C82_every_order hB (bs := []) (bs' := []) .nil (by simp [BatchSizes])
  · have := C82_every_order hB (bs := [dataset]) (bs' := [r]) (.cons hp .nil)
      ⟨by simpa using ⟨List.length_pos_iff.mpr he, hl⟩, by simp⟩
    simpa using this

example : List.Forall₂ List.Perm [[1, 2, 3], [4, 5, 6, 7], [8]] [[3, 1, 2], [4, 7, 5, 6], [8]] ∧
    BatchSizes 4 [[1, 2, 3], [4, 5, 6, 7], [8]] := by
  refine ⟨?_, by decide, by decide⟩
  simp only [List.forall₂_cons, List.Forall₂.nil, and_true]
  decide

/-! ### C57 -/

/-- C57: for every positive `batch_size` the minibatches cut the sequence of training sentences into
consecutive pieces of exactly `batch_size` sentences; only the last may be shorter, none is empty. -/
theorem C57_minibatches {α : Type} {n : Nat} (hn : 0 < n) (sents : List α) :
    Chunks n sents (minibatches n sents) := by
  have := minibatches_chunks (n : Int) sents
  have e : (max (n : Int) 1).toNat = n := by omega
  rwa [e] at this

/-- C57: there is only one way to do that. -/
theorem C57_determined {α : Type} {n : Nat} (hn : 0 < n) {sents : List α} {bs : List (List α)}
    (h : Chunks n sents bs) : minibatches n sents = bs :=
  (C57_minibatches hn sents).unique h

/-- C57: every sentence of every document occurs in exactly one minibatch, once. -/
theorem C57_every_sentence {n : Nat} (hn : 0 < n) (docs : List Document) :
    (minibatches n (datasetSentences docs)).flatten =
      docs.flatMap (fun d => d.sentences.map (fun s => (d, s))) :=
  (C57_minibatches hn (datasetSentences docs)).1

/-- C57: without a positive `batch_size` every sentence is a minibatch of its own. -/
theorem C57_not_positive {α : Type} {n : Int} (hn : n ≤ 0) (sents : List α) :
    minibatches n sents = sents.map (fun s => [s]) := by
  have h := minibatches_chunks n sents
  have e : (max n 1).toNat = 1 := by omega
  rw [e] at h
  refine h.unique ⟨?_, ?_, ?_⟩
  · clear h
    induction sents with
    | nil => rfl
    | cons s l ih => simp only [List.map_cons, List.flatten_cons, ih, List.singleton_append]
  · intro b hb
    obtain ⟨s, _, rfl⟩ := List.mem_map.mp hb
    simp
  · intro b hb
    obtain ⟨s, _, rfl⟩ := List.mem_map.mp (List.mem_of_mem_dropLast hb)
    rfl

/-- C57: an epoch trains on the minibatches in order; the reported loss is the mean of the losses of
the minibatches. -/
theorem C57_mean_loss {μ σ : Type} {train : μ → List σ → Rat → Res (μ × Rat)} {n : Int}
    {sents : List σ} {lr : Rat} {m m' : μ} {loss : Rat}
    (h : trainEpoch train n sents lr m = .ok (m', loss)) :
    ∃ losses : List Rat, TrainedOn train lr m (minibatches n sents) losses m' ∧
      loss = mean losses := by
  unfold trainEpoch at h
  cases hf : forM' (trainBatch train lr) (m, 0, 0) (minibatches n sents) with
  | error e => rw [hf] at h; cases h
  | ok p =>
    obtain ⟨m1, l, c⟩ := p
    rw [hf] at h
    obtain ⟨h1, losses, h2, h3, h4⟩ := trainBatches_spec hf
    simp only at h h1 h3 h4
    split at h
    · cases h
    · injection h with h
      simp only [Prod.mk.injEq] at h
      refine ⟨losses, h.1 ▸ h4, ?_⟩
      rw [← h.2, h3, mean, h1, h2]
      simp

/-- C57, error branch: an epoch over no sentence raises `ZeroDivisionError`. -/
theorem C57_no_sentences {μ σ : Type} (train : μ → List σ → Rat → Res (μ × Rat)) (n : Int) (lr : Rat)
    (m : μ) : trainEpoch train n [] lr m = .error .zeroDivision := by
  simp [trainEpoch, minibatches, forM']

example : minibatches 3 [1, 2, 3, 4, 5, 6, 7] = [[1, 2, 3], [4, 5, 6], [7]] := by decide
example : minibatches 3 [1, 2, 3, 4, 5, 6] = [[1, 2, 3], [4, 5, 6]] := by decide
/-- An epoch that succeeds: the loss is the number of sentences of the batch. -/
example : trainEpoch (fun (m : Nat) (b : List Nat) _ => .ok (m + b.sum, (b.length : Rat))) 3
    [1, 2, 3, 4, 5] (1 / 10) 0 = .ok (15, 5 / 2) := by decide +kernel

/-! ### C58 -/

theorem devAcc_eq (t : ScoreTable) : devAcc t = devAccuracy t := by
  unfold devAcc devAccuracy
  induction t.entries with
  | nil => rfl
  | cons a l ih =>
    rw [List.filterMap_cons, List.map_cons, List.sum_cons, ← ih]
    cases a.2.aligned with
    | none => simp
    | some x => simp

/-- C58: the learning rate of epoch `n` is the initial rate divided by the product of
`1 + lr_decay * e` over the epochs `e ≤ n` and by `lr_decrease_factor` once for every earlier epoch
without progress on the dev set.  (The decay therefore compounds.) -/
theorem C58_formula {μ σ : Type} (train : μ → List σ → Rat → Res (μ × Rat)) (cfg : TrainCfg)
    (dir : List Str) (sents : Nat → List σ) (dev : Option (Nat → List Str × μ → Res ScoreTable))
    (init : μ) {st : TrainSt μ} {failure : Option Err}
    (h : trainLoop train cfg dir sents dev init = (st, failure)) {n : Nat} {lr : Rat}
    (hn : st.lrs[n]? = some lr) :
    lr = cfg.initialLr / (decayProduct cfg.decay (n + 1) *
      cfg.factor ^ stalls (st.items.map (fun it => devAccuracy it.1)) n) := by
  simp only [← devAcc_eq]
  rcases trainLoop_spec train cfg dir sents dev init with ⟨st', h1, h2⟩ | ⟨m, st', e, _, h1, h2⟩
  · rw [h1] at h
    simp only [Prod.mk.injEq] at h
    obtain ⟨rfl, _⟩ := h
    exact h2.lrAt n lr hn
  · rw [h1] at h
    simp only [Prod.mk.injEq] at h
    obtain ⟨rfl, _⟩ := h
    exact h2.lrAt n lr hn

theorem decayProduct_pos {decay : Rat} (h : 0 ≤ decay) (n : Nat) : 0 < decayProduct decay n := by
  induction n with
  | zero => simp [decayProduct]
  | succ n ih => rw [decayProduct_succ]; positivity

theorem decayProduct_mono {decay : Rat} (h : 0 ≤ decay) {m n : Nat} (hmn : m ≤ n) :
    decayProduct decay m ≤ decayProduct decay n := by
  induction hmn with
  | refl => exact le_refl _
  | @step n _ ih =>
    rw [decayProduct_succ]
    have h1 := decayProduct_pos h n
    have h2 : (1 : Rat) ≤ 1 + decay * (n : Rat) := by
      have : (0 : Rat) ≤ decay * (n : Rat) := by positivity
      linarith
    calc decayProduct decay m ≤ decayProduct decay n := ih
      _ = decayProduct decay n * 1 := by ring
      _ ≤ _ := by exact mul_le_mul_of_nonneg_left h2 h1.le

theorem stalls_mono (accs : List Rat) {m n : Nat} (h : m ≤ n) : stalls accs m ≤ stalls accs n := by
  induction h with
  | refl => exact le_refl _
  | step _ ih => rw [stalls_succ]; omega

/-- C58: with a positive initial rate, `lr_decay ≥ 0` and `lr_decrease_factor ≥ 1` the learning rate of
every epoch is positive and at most that of any earlier epoch, whatever the network and the dev scores
do. -/
theorem C58_positive_nonincreasing {μ σ : Type} (train : μ → List σ → Rat → Res (μ × Rat))
    (cfg : TrainCfg) (dir : List Str) (sents : Nat → List σ)
    (dev : Option (Nat → List Str × μ → Res ScoreTable)) (init : μ) {st : TrainSt μ}
    {failure : Option Err} (h : trainLoop train cfg dir sents dev init = (st, failure))
    (h0 : 0 < cfg.initialLr) (hd : 0 ≤ cfg.decay) (hf : 1 ≤ cfg.factor) :
    (∀ x ∈ st.lrs, 0 < x) ∧ st.lrs.Pairwise (fun a b => b ≤ a) := by
  have hden : ∀ (n k : Nat), 0 < decayProduct cfg.decay n * cfg.factor ^ k := fun n k =>
    mul_pos (decayProduct_pos hd n) (pow_pos (by linarith) k)
  constructor
  · intro x hx
    obtain ⟨n, hn⟩ := List.mem_iff_getElem?.mp hx
    rw [C58_formula train cfg dir sents dev init h hn]
    exact div_pos h0 (hden _ _)
  · rw [List.pairwise_iff_getElem]
    intro i j hi hj hij
    rw [C58_formula train cfg dir sents dev init h (List.getElem?_eq_getElem hi),
      C58_formula train cfg dir sents dev init h (List.getElem?_eq_getElem hj)]
    apply div_le_div_of_nonneg_left h0.le (hden _ _)
    exact mul_le_mul (decayProduct_mono hd (by omega))
      (pow_le_pow_right₀ hf (stalls_mono _ (by omega))) (by positivity) (decayProduct_pos hd _).le

/-- C58: with `lr_decay` 0 and `lr_decrease_factor` 1 the learning rate is constant. -/
theorem C58_constant {μ σ : Type} (train : μ → List σ → Rat → Res (μ × Rat))
    (cfg : TrainCfg) (dir : List Str) (sents : Nat → List σ)
    (dev : Option (Nat → List Str × μ → Res ScoreTable)) (init : μ) {st : TrainSt μ}
    {failure : Option Err} (h : trainLoop train cfg dir sents dev init = (st, failure))
    (hd : cfg.decay = 0) (hf : cfg.factor = 1) : ∀ x ∈ st.lrs, x = cfg.initialLr := by
  intro x hx
  obtain ⟨n, hn⟩ := List.mem_iff_getElem?.mp hx
  rw [C58_formula train cfg dir sents dev init h hn, hd, hf]
  have : decayProduct 0 (n + 1) = 1 := by simp [decayProduct]
  simp [this]

namespace Demo

/-- Training that succeeds; parameters count the sentences seen. -/
def trainCount (m : Nat) (b : List Nat) (_ : Rat) : Res (Nat × Rat) := .ok (m + b.length, 1)

def cfg3 : TrainCfg := ⟨1 / 10, 1 / 2, 2, 3, 2⟩

/-- Dev scores of three epochs: 3/4, then 1/2 (no progress), then 1. -/
def devTester (n : Nat) (_ : List Str × Nat) : Res ScoreTable :=
  .ok (scores1 (if n = 0 then 3 / 4 else if n = 1 then 1 / 8 else 1))

def run3 := trainLoop trainCount cfg3 ["42".toList] (fun _ => [1, 2, 3]) (some devTester) 0

end Demo

example : Demo.run3.1.lrs = [1 / 10, 1 / 15, 1 / 60] ∧ Demo.run3.2 = none := by decide +kernel
example : 0 < Demo.cfg3.initialLr ∧ 0 ≤ Demo.cfg3.decay ∧ 1 ≤ Demo.cfg3.factor := by decide +kernel

/-! ### C83 -/

/-- C83: when `NeuralTaggerTrainer.train` runs to its end with a dev tester, it has yielded one pair
per epoch; the tagger of the `i`-th pair is stored in the directory named after epoch `i`, each epoch
was saved exactly once, in order, and nothing was removed. -/
theorem C83_one_tagger_per_epoch {μ σ : Type} (train : μ → List σ → Rat → Res (μ × Rat))
    (cfg : TrainCfg) (dir : List Str) (sents : Nat → List σ)
    (test : Nat → List Str × μ → Res ScoreTable) (init : μ) {st : TrainSt μ}
    (h : trainLoop train cfg dir sents (some test) init = (st, none)) :
    st.items.length = cfg.epochs.toNat ∧
      (∀ (i : Nat) (it : ScoreTable × (List Str × μ)), st.items[i]? = some it →
        it.2.1 = dir ++ [epochName i]) ∧
      st.events = (List.range cfg.epochs.toNat).map (fun i => .save (dir ++ [epochName i])) := by
  rcases trainLoop_spec train cfg dir sents (some test) init with
    ⟨st', h1, h2⟩ | ⟨m, st', e, _, h1, h2⟩
  · rw [h1] at h
    simp only [Prod.mk.injEq] at h
    obtain ⟨rfl, _⟩ := h
    exact ⟨by simpa using h2.items, fun i it hi => (h2.itemAt i it hi).1, h2.events⟩
  · rw [h1] at h
    simp at h

/-- C83: evaluating that trainer returns a tagger whose directory is the only model left. -/
theorem C83_selected_tagger_is_stored {μ σ : Type} (train : μ → List σ → Rat → Res (μ × Rat))
    (cfg : TrainCfg) (seed : Str) (path : List Str) (sents : Nat → List σ)
    (test : Nat → List Str × μ → Res ScoreTable) (init : μ) {printer : Option ScoreTable → Res Unit}
    {better : Option ScoreTable → Option ScoreTable → Res Bool} {st : TrainSt μ}
    {failure : Option Err} {r : Option (List Str × μ) × Option ScoreTable × List Ev}
    (h : trainLoop train cfg (path ++ [seed]) sents (some test) init = (st, failure))
    (hr : singleEvaluate printer better seed path
      (st.items.map (fun it => (some it.1, it.2))) failure = .ok r) (hne : 0 < cfg.epochs) :
    ∃ tagger, r.1 = some tagger ∧ ∀ q, q ∈ dirAfter [] r.2.2 ↔ q = tagger.1 := by
  obtain ⟨hf, sel, h1, _, rfl⟩ := singleEvaluate_ok hr
  subst hf
  obtain ⟨g1, g2, _⟩ := C83_one_tagger_per_epoch train cfg _ sents test init h
  have hrun := epochs_run h1
  rcases hrun.dir (fun i j q h1 h2 => epochName_inj (prefix_snoc_inj h1 h2)) (by
      intro i c hc
      rw [epochCands_getElem?] at hc
      simp only [Option.map_eq_some_iff] at hc
      obtain ⟨p, _, rfl⟩ := hc
      intro ev hev
      simp only [List.mem_singleton] at hev
      exact ⟨_, List.prefix_refl _, .inl hev⟩) with ⟨hc, _⟩ | ⟨e, c, h2, h3, h4, h5, h6⟩
  · have := epochCands_length (path ++ [seed]) (st.items.map (fun it => (some it.1, it.2)))
    rw [hc] at this
    simp only [List.length_nil, List.length_map, g1] at this
    omega
  · rw [epochCands_getElem?, List.getElem?_map, Option.map_map, Option.map_eq_some_iff] at h2
    obtain ⟨it, h7, rfl⟩ := h2
    refine ⟨it.2, h4, fun q => ?_⟩
    rw [h6 q, g2 e it h7]
    simp [dirAfter]

/-- C83, refuted without a dev tester: iterating over the training yields no tagger although every
epoch was trained and saved. -/
theorem C83_without_tester_refuted {μ σ : Type} (train : μ → List σ → Rat → Res (μ × Rat))
    (cfg : TrainCfg) (dir : List Str) (sents : Nat → List σ) (init : μ) {st : TrainSt μ}
    (h : trainLoop train cfg dir sents none init = (st, none)) :
    st.items = [] ∧ st.taggers.length = cfg.epochs.toNat := by
  rcases trainLoop_spec train cfg dir sents none init with
    ⟨st', h1, h2⟩ | ⟨m, st', e, _, h1, h2⟩
  · rw [h1] at h
    simp only [Prod.mk.injEq] at h
    obtain ⟨rfl, _⟩ := h
    exact ⟨List.length_eq_zero_iff.mp (by simpa using h2.items), h2.taggers⟩
  · rw [h1] at h
    simp at h

/-- C83, error branch: an empty training set makes the first epoch raise `ZeroDivisionError`; nothing
is yielded or saved. -/
theorem C83_empty_training_set {μ σ : Type} (train : μ → List σ → Rat → Res (μ × Rat))
    (cfg : TrainCfg) (dir : List Str) (dev : Option (Nat → List Str × μ → Res ScoreTable)) (init : μ)
    (hn : 0 < cfg.epochs) :
    (trainLoop train cfg dir (fun _ => []) dev init).2 = some .zeroDivision ∧
      (trainLoop train cfg dir (fun _ => []) dev init).1.items = [] ∧
      (trainLoop train cfg dir (fun _ => []) dev init).1.events = [] := by
  have : ∃ n, cfg.epochs.toNat = n + 1 := ⟨cfg.epochs.toNat - 1, by omega⟩
  obtain ⟨n, hn'⟩ := this
  have hl : getLr 0 cfg.initialLr cfg.decay = .ok cfg.initialLr := by simp [getLr]
  have : trainLoop train cfg dir (fun _ => []) dev init =
      ({ model := init, lr := cfg.initialLr, prev := List.replicate 5 0 }, some .zeroDivision) := by
    unfold trainLoop
    rw [hn', List.range_succ_eq_map]
    unfold loopUntil trainStep
    simp only [hl, C57_no_sentences]
  rw [this]
  exact ⟨rfl, rfl, rfl⟩

example : (Demo.run3.1.items.map (fun it => it.2)) =
    [(["42".toList, "epoch-0".toList], 3), (["42".toList, "epoch-1".toList], 6),
     (["42".toList, "epoch-2".toList], 9)] := by decide +kernel

example : (singleEvaluate (printMetrics ["UPOS".toList]) Demo.cmpUpos "42".toList []
    (Demo.run3.1.items.map (fun it => (some it.1, it.2))) Demo.run3.2).map (fun r => r.1) =
      .ok (some (["42".toList, "epoch-2".toList], 9)) := by decide +kernel

/-! ### C84 -/

theorem pretrained_loop {τ : Type} (dir : List Str) (f : Nat → List Str → τ) (l : List Str)
    (acc : List (τ × List Str)) :
    loopUntil (fun st p =>
      match (Except.ok (f st.length (dir ++ [p])) : Res τ) with
      | .error e => .error (st, e)
      | .ok scores => .ok (st ++ [(scores, dir ++ [p])])) acc l =
    (acc ++ (l.zipIdx acc.length).map (fun x => (f x.2 (dir ++ [x.1]), dir ++ [x.1])), none) := by
  induction l generalizing acc with
  | nil => simp [loopUntil]
  | cons p l ih =>
    unfold loopUntil
    simp only
    rw [ih]
    simp

/-- C84, partial: `neural_pretrained` tests the stored models `epoch-0`, ..., `epoch-(n-1)` as epochs
`0`, ..., `n-1` exactly when there are at most ten of them.  The full claim, that the `i`-th model
tested is always `epoch-i`, fails beyond that: the names are sorted as strings. -/
theorem C84_epoch_order_partial {dir dirs : List Str} {n : Nat} (f : Nat → List Str → ScoreTable)
    (hd : dirs.Perm ((List.range n).map epochName)) :
    (∀ (i : Nat) (it : ScoreTable × List Str),
      (pretrainedTrain dir dirs (some (fun i p => .ok (f i p)))).1[i]? = some it →
        it.2 = dir ++ [epochName i]) ↔ n ≤ 10 := by
  have hres : ∀ i : Nat, ((pretrainedTrain dir dirs (some (fun i p => .ok (f i p)))).1[i]?).map Prod.snd =
      ((pySorted (· ≤ ·) dirs)[i]?).map (fun p => dir ++ [p]) := by
    intro i
    have : pretrainedTrain dir dirs (some (fun i p => .ok (f i p))) =
        ([] ++ ((pySorted (· ≤ ·) dirs).zipIdx 0).map
          (fun x => (f x.2 (dir ++ [x.1]), dir ++ [x.1])), none) := by
      unfold pretrainedTrain
      exact pretrained_loop dir f _ []
    rw [this]
    simp [List.getElem?_zipIdx, Option.map_map, Function.comp_def]
  have hsp : (pySorted (· ≤ ·) dirs).Perm ((List.range n).map epochName) :=
    (List.perm_insertionSort _ _).trans hd
  have hlen : (pySorted (· ≤ ·) dirs).length = n := by simpa using hsp.length_eq
  have hsorted : (pySorted (· ≤ ·) dirs).Pairwise (· ≤ ·) := List.pairwise_insertionSort _ _
  constructor
  · intro h
    by_contra hn
    have hat : ∀ i : Nat, i < n → (pySorted (· ≤ ·) dirs)[i]? = some (epochName i) := by
      intro i hi
      have hi' : i < (pySorted (· ≤ ·) dirs).length := by omega
      have h1 := hres i
      rw [List.getElem?_eq_getElem hi', Option.map_some, Option.map_eq_some_iff] at h1
      obtain ⟨it, h2, h3⟩ := h1
      rw [h i it h2] at h3
      rw [List.getElem?_eq_getElem hi']
      have := List.append_cancel_left h3
      simp only [List.cons.injEq, and_true] at this
      rw [this]
    have h2 := List.getElem?_eq_some_iff.mp (hat 2 (by omega))
    have h10 := List.getElem?_eq_some_iff.mp (hat 10 (by omega))
    obtain ⟨l2, e2⟩ := h2
    obtain ⟨l10, e10⟩ := h10
    have := List.pairwise_iff_getElem.mp hsorted 2 10 l2 l10 (by omega)
    rw [e2, e10] at this
    revert this
    decide +kernel
  · intro hn i it hi
    have hid : pySorted (· ≤ ·) dirs = (List.range n).map epochName := by
      refine List.Perm.eq_of_pairwise (le := (· ≤ ·)) (fun a b _ _ h1 h2 => le_antisymm h1 h2)
        hsorted ?_ hsp
      have : n = 0 ∨ n = 1 ∨ n = 2 ∨ n = 3 ∨ n = 4 ∨ n = 5 ∨ n = 6 ∨ n = 7 ∨ n = 8 ∨ n = 9 ∨ n = 10 := by
        omega
      rcases this with rfl | rfl | rfl | rfl | rfl | rfl | rfl | rfl | rfl | rfl | rfl <;> decide +kernel
    have h1 := hres i
    rw [hi, hid] at h1
    simp only [Option.map_some, List.getElem?_map] at h1
    by_cases hin : i < n
    · rw [List.getElem?_range hin] at h1
      simpa using h1
    · rw [List.getElem?_eq_none (by simpa using hin)] at h1
      simp at h1

/-- C84, refuted: with eleven stored epochs, the third model tested, whose predictions are recorded as
those of epoch 2, is that of epoch 10. -/
theorem C84_refuted : (pretrainedTrain [] ((List.range 11).map epochName)
    (some (fun _ _ => .ok (Demo.scores1 1)))).1[2]?.map Prod.snd = some ["epoch-10".toList] := by
  decide +kernel

example : ((List.range 3).map epochName).reverse.Perm ((List.range 3).map epochName) ∧
    (pretrainedTrain [] ((List.range 3).map epochName).reverse
      (some (fun _ _ => .ok (Demo.scores1 1)))).1.map Prod.snd =
      [["epoch-0".toList], ["epoch-1".toList], ["epoch-2".toList]] :=
  ⟨List.reverse_perm _, by decide +kernel⟩

end Verif
