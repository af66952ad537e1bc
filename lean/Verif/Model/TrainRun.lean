import Verif.Model.Feeding

/-! # The whole of `NeuralTaggerTrainer.train` (neural_tagger.py) -/

namespace Verif

/-- A sentence in an epoch: what `documents` gave in that epoch, and the object to extract from. -/
structure EpochSent where
  epoch : Nat
  docs : List Document
  obj : Obj

/-- neural_tagger.py:168-169: the sentences of an epoch; `pass n` are the documents of epoch `n`. -/
def epochSents (pass : Nat → List Document) (n : Nat) : List EpochSent :=
  (sentenceObjs 0 (pass n)).map (fun o => ⟨n, pass n, o⟩)

section
variable {F μ : Type} (lower : Str → Str) (float : Str → Res F) (zero : F) (other : TextToken) (sp : Nat → Sparsify)
  (seen : Seen) (ps : List Provider)

/-- neural_tagger.py:144-147, 163-165: the features and labels of a minibatch are extracted, and the optimiser is run on
them.  `opt` is `Model.train` with the learning rate; the dropout probability does not change and is a part of it.  `sp n`
is the sparsification in epoch `n`.  Minibatches are not empty (neural_tagger.py:171-176), another exception stands for
what does not occur.  Simplification: the extractors are made for every minibatch, with the same result. -/
def feedStep (opt : μ → Features × Features → Rat → Res (μ × Rat)) (m : μ) (batch : List EpochSent) (lr : Rat) :
    Res (μ × Rat) :=
  match batch with
  | [] => .error .fuel
  | x :: _ =>
    match assemble lower float zero (datasetTok other x.docs) (sp x.epoch) seen ps with
    | .error e => .error e
    | .ok r =>
      match assemble lower float zero (datasetTok other x.docs) keepAll seen ps with
      | .error e => .error e
      | .ok r' =>
        match extractBatch r.features r'.labels (batch.map EpochSent.obj) with
        | .error e => .error e
        | .ok step => opt m step lr

/-- neural_tagger.py:92-138 `NeuralTaggerTrainer.train`: extractors, interpreter and initializer are built of the data set
(100-101), the network is built for the announced sizes (102), its parameters are initialised with the given vectors (107),
and then it is trained.  `build` makes the network and initialises it.  An exception before the first epoch is the whole
outcome; otherwise it is the state after the last completed epoch with the exception that ended it, if any. -/
def neuralTrain (build : Dict Str Shape → Dict Str (InitRows F) → Res μ)
    (opt : μ → Features × Features → Rat → Res (μ × Rat)) (cfg : TrainCfg) (dir : List Str)
    (pass : Nat → List Document) (dev : Option (Nat → List Str × μ → Res ScoreTable)) :
    Res (TrainSt μ × Option Err) :=
  match assemble lower float zero (fun _ => other) keepAll seen ps with
  | .error e => .error e
  | .ok r =>
    match assembleInterp lower seen ps with
    | .error e => .error e
    | .ok _ =>
      match r.shapes with
      | .error e => .error e
      | .ok S =>
        match r.initial with
        | .error e => .error e
        | .ok I =>
          match build S I with
          | .error e => .error e
          | .ok init => .ok (trainLoop (feedStep lower float zero other sp seen ps opt) cfg dir (epochSents pass) dev init)

end

end Verif
