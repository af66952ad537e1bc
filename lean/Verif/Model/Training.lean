import Verif.Model.Evaluation

/-!
# Model of evaluation/dataset.py and of training in neural/tagger/neural_tagger.py

A random generator is a stream of natural numbers: the `k`-th call of `randbelow(n)` returns
`rnd k % n`.  As the stream is arbitrary, every sequence of outcomes occurs.  Learning rates,
losses and accuracies are exact rational numbers.
-/

namespace Verif

/-! ### random -/

/-- `rnd.randrange(lo, hi)`, the `k`-th call. -/
def randrange (rnd : Nat → Nat) (k : Nat) (lo hi : Int) : Res Int :=
  if hi ≤ lo then .error .value else .ok (lo + ((rnd k % (hi - lo).toNat : Nat) : Int))

/-- `x[i], x[j] = x[j], x[i]`. -/
def swap {α : Type} (l : List α) (i j : Nat) : List α :=
  match l[i]?, l[j]? with
  | some a, some b => (l.set i b).set j a
  | _, _ => l

/-- `Random.shuffle`: `for i in reversed(range(1, n)): j = randbelow(i + 1); swap`; started with
`i = len - 1` and the number of the next call. -/
def shuffleFrom {α : Type} (rnd : Nat → Nat) : Nat → Nat → List α → List α
  | 0, _, l => l
  | i + 1, k, l => shuffleFrom rnd i (k + 1) (swap l (i + 1) (rnd k % (i + 2)))

/-- `rnd.shuffle(batch)`; it makes `len(batch) - 1` calls. -/
def shuffle {α : Type} (rnd : Nat → Nat) (k : Nat) (l : List α) : List α :=
  shuffleFrom rnd (l.length - 1) k l

/-! ### evaluation/dataset.py -/

/-- dataset.py:35-43: the loop of `__split`; `k` calls have been made, `items` is what the iterator
still yields.  `int(B / 2)` truncates towards zero (exact as long as `B` is exact as a float).  The
data set is a list: reading it does not raise. -/
def splitLoop {α : Type} (rnd : Nat → Nat) (B : Int) : Nat → Nat → List α → Res (List (List α))
  | 0, _, _ => .error .fuel
  | fuel + 1, k, items =>
    match randrange rnd k (B.tdiv 2 + 1) (B + 1) with
    | .error e => .error e
    | .ok n =>
      if n < 0 then .error .value
      else if (items.take n.toNat).isEmpty then .ok []
      else
        match splitLoop rnd B fuel (k + 1 + ((items.take n.toNat).length - 1))
            (items.drop n.toNat) with
        | .error e => .error e
        | .ok rest => .ok (shuffle rnd (k + 1) (items.take n.toNat) :: rest)

/-- dataset.py:30-45 `ShuffledDataset.__iter__`, given the generator `rnd` made in line 33;
`itertools.chain(*__split())` runs `__split` to its end at once. -/
def shuffledIter {α : Type} (rnd : Nat → Nat) (B : Int) (dataset : List α) : Res (List α) :=
  match splitLoop rnd B (dataset.length + 1) 0 dataset with
  | .error e => .error e
  | .ok batches => .ok batches.flatten

/-- dataset.py:28, 33: the `n`-th call of `__iter__` on one `ShuffledDataset`.  `outer` is the stream
of `Random(seed)`, `streams s` that of `Random(s)`. -/
def shuffledIterNth {α : Type} (outer : Nat → Nat) (streams : Nat → Nat → Nat) (B : Int)
    (dataset : List α) (n : Nat) : Res (List α) :=
  shuffledIter (streams (outer n % 1000000)) B dataset

/-! ### Minibatches -/

/-- neural_tagger.py:170-173: one sentence; the state is (`sents`, what has been yielded). -/
def minibatchStep {α : Type} (batchSize : Int) (st : List α × List (List α)) (s : α) :
    List α × List (List α) :=
  if ((st.1 ++ [s]).length : Int) ≥ batchSize then ([], st.2 ++ [st.1 ++ [s]])
  else (st.1 ++ [s], st.2)

/-- neural_tagger.py:161-176 `_get_minibatches`: the lists of sentences that are extracted. -/
def minibatches {α : Type} (batchSize : Int) (sents : List α) : List (List α) :=
  match sents.foldl (minibatchStep batchSize) ([], []) with
  | (rest, out) => if rest.length > 0 then out ++ [rest] else out

/-- neural_tagger.py:168-169: the sentences of all documents. -/
def datasetSentences (docs : List Document) : List (Document × Sentence) :=
  docs.flatMap (fun d => d.sentences.map (fun s => (d, s)))

/-- neural_tagger.py:144-149: one batch.  `train model batch lr` extracts the features and labels of
the batch and runs the optimiser: the new parameters and the loss. -/
def trainBatch {μ σ : Type} (train : μ → List σ → Rat → Res (μ × Rat)) (lr : Rat)
    (st : μ × Rat × Nat) (batch : List σ) : Res (μ × Rat × Nat) :=
  match train st.1 batch lr with
  | .error e => .error e
  | .ok (m, l) => .ok (m, st.2.1 + l, st.2.2 + 1)

/-- neural_tagger.py:141-154 `_train_epoch`: the parameters and the average loss. -/
def trainEpoch {μ σ : Type} (train : μ → List σ → Rat → Res (μ × Rat)) (batchSize : Int)
    (sents : List σ) (lr : Rat) (model : μ) : Res (μ × Rat) :=
  match forM' (trainBatch train lr) (model, 0, 0) (minibatches batchSize sents) with
  | .error e => .error e
  | .ok (m, loss, count) => if count = 0 then .error .zeroDivision else .ok (m, loss / count)

/-! ### Learning rate -/

/-- neural_tagger.py:157-158 `_get_lr`. -/
def getLr (epoch : Nat) (lr decay : Rat) : Res Rat :=
  if 1 + decay * epoch = 0 then .error .zeroDivision else .ok (lr / (1 + decay * epoch))

/-- neural_tagger.py:128: the condition. -/
def stagnates (prev : List Rat) (acc : Rat) : Res Bool :=
  match prev.getLast? with
  | none => .error .index
  | some last => .ok (decide (acc ≤ last) && decide (acc ≤ prev.sum / prev.length))

/-- neural_tagger.py:128-129. -/
def dropLr (factor lr : Rat) (prev : List Rat) (acc : Rat) : Res Rat :=
  match stagnates prev acc with
  | .error e => .error e
  | .ok false => .ok lr
  | .ok true => if factor = 0 then .error .zeroDivision else .ok (lr / factor)

/-- neural_tagger.py:127: `sum(score.aligned_accuracy for ... if ... is not None)`. -/
def devAcc (t : ScoreTable) : Rat := (t.entries.filterMap (fun p => p.2.aligned)).sum

/-! ### The trainer -/

/-- The settings used by the training loop. -/
structure TrainCfg where
  initialLr : Rat
  decay : Rat
  factor : Rat
  epochs : Int
  batchSize : Int
  deriving DecidableEq

/-- The variables of neural_tagger.py:104-136, what has been yielded, what was done to the model
directory, and the learning rate of each epoch.  A tagger is represented by the path it loads and the
parameters that were saved there. -/
structure TrainSt (μ : Type) where
  model : μ
  lr : Rat
  prev : List Rat
  items : List (ScoreTable × (List Str × μ)) := []
  events : List Ev := []
  lrs : List Rat := []
  taggers : List (List Str × μ) := []

/-- neural_tagger.py:115-123: an epoch has been trained and the tagger saved. -/
def TrainSt.saved {μ : Type} (st : TrainSt μ) (m : μ) (lr : Rat) (path : List Str) : TrainSt μ :=
  { st with model := m, lr := lr, events := st.events ++ [.save path], lrs := st.lrs ++ [lr] }

/-- neural_tagger.py:112-136: one epoch.  The data set is iterated once per epoch and a shuffled one
yields another order each time, so `sents n` are the sentences of epoch `n`.  `dev` is the dev tester,
called with the saved tagger (evaluation.py:127 makes it depend on the number of the epoch too); saving
and loading keep the parameters and raise nothing. -/
def trainStep {μ σ : Type} (train : μ → List σ → Rat → Res (μ × Rat)) (cfg : TrainCfg)
    (dir : List Str) (sents : Nat → List σ) (dev : Option (Nat → List Str × μ → Res ScoreTable))
    (st : TrainSt μ) (epoch : Nat) : Except (TrainSt μ × Err) (TrainSt μ) :=
  match getLr epoch st.lr cfg.decay with
  | .error e => .error (st, e)
  | .ok lr =>
    match trainEpoch train cfg.batchSize (sents epoch) lr st.model with
    | .error e => .error (st, e)
    | .ok (m, _) =>
      match dev with
      | none => .ok { st.saved m lr (dir ++ [epochName epoch]) with
          taggers := st.taggers ++ [(dir ++ [epochName epoch], m)] }
      | some test =>
        match test epoch (dir ++ [epochName epoch], m) with
        | .error e => .error (st.saved m lr (dir ++ [epochName epoch]), e)
        | .ok scores =>
          match dropLr cfg.factor lr st.prev (devAcc scores) with
          | .error e => .error (st.saved m lr (dir ++ [epochName epoch]), e)
          | .ok lr' => .ok
              { st.saved m lr (dir ++ [epochName epoch]) with
                lr := lr'
                prev := (st.prev ++ [devAcc scores]).tail
                items := st.items ++ [(scores, (dir ++ [epochName epoch], m))]
                taggers := st.taggers ++ [(dir ++ [epochName epoch], m)] }

/-- A `for` loop whose body may raise: the state after the completed iterations and the exception. -/
def loopUntil {σ α : Type} (f : σ → α → Except (σ × Err) σ) : σ → List α → σ × Option Err
  | s, [] => (s, none)
  | s, x :: xs =>
    match f s x with
    | .ok s' => loopUntil f s' xs
    | .error (s', e) => (s', some e)

/-- neural_tagger.py:104-138: the loop of `NeuralTaggerTrainer.train` (building features and the
network are not part of it).  `init` are the initial parameters. -/
def trainLoop {μ σ : Type} (train : μ → List σ → Rat → Res (μ × Rat)) (cfg : TrainCfg)
    (dir : List Str) (sents : Nat → List σ) (dev : Option (Nat → List Str × μ → Res ScoreTable))
    (init : μ) : TrainSt μ × Option Err :=
  loopUntil (trainStep train cfg dir sents dev)
    { model := init, lr := cfg.initialLr, prev := List.replicate 5 0 }
    (List.range cfg.epochs.toNat)

/-! ### Other trainers -/

/-- neural_tagger.py:77-87 `PretrainedTaggerTrainer.train`: `dirs` are the names of the directories
under the model directory (which contain no directories themselves).  Paths are joined with the model
directory in front, so sorting paths is sorting names.  The yielded items and the exception that ends
the iteration. -/
def pretrainedTrain (dir : List Str) (dirs : List Str)
    (dev : Option (Nat → List Str → Res ScoreTable)) :
    List (ScoreTable × List Str) × Option Err :=
  match dev with
  | none => ([], none)
  | some test =>
    loopUntil (fun st p =>
      match test st.length (dir ++ [p]) with
      | .error e => .error (st, e)
      | .ok scores => .ok (st ++ [(scores, dir ++ [p])])) [] (pySorted (· ≤ ·) dirs)

/-- trainers.py:6-10. -/
inductive Method where
  | stub | neural | neuralPretrained
  deriving DecidableEq

/-- trainers.py:19-20 `trainer_names`. -/
def trainerNames : List Str :=
  ["stub".toList, "neural".toList, "neural_pretrained".toList]

/-- trainers.py:13-16 `get_trainer`. -/
def getTrainer (name : Str) : Res Method :=
  if name = "stub".toList then .ok .stub
  else if name = "neural".toList then .ok .neural
  else if name = "neural_pretrained".toList then .ok .neuralPretrained
  else .error .notImplemented

/-- What one step of iterating over `trainer.train(...)` gives: a pair of scores and a tagger, or a
bare tagger. -/
inductive Yielded (τ : Type) where
  | pair (scores : ScoreTable) (tagger : τ)
  | bare (tagger : τ)

/-- evaluation.py:126 `for scores, tagger in ...`: a tagger that is no pair cannot be unpacked. -/
def unpackAll {τ : Type} : List (Yielded τ) → List (Option ScoreTable × τ) × Option Err
  | [] => ([], none)
  | .bare _ :: _ => ([], some .type)
  | .pair s t :: l => ((some s, t) :: (unpackAll l).1, (unpackAll l).2)

end Verif
