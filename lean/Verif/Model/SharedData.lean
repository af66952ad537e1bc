import Verif.Model.EvalRun
import Verif.Model.TrainRun

/-! # All trainings of a run iterate over the same data set (evaluation.py:292, 302, 306) -/

namespace Verif

section
variable {F μ : Type} (lower : Str → Str) (float : Str → Res F) (zero : F) (other : TextToken) (sp : Nat → Sparsify)
  (ps : List Provider)

/-- neural_tagger.py:92-138 `NeuralTaggerTrainer.train` on a data set that has been iterated over `n` times; `iter k` is what it
gives the `k`-th time.  The builders iterate over it first, `builds` times, then every epoch once (neural_tagger.py:101, 168). -/
def neuralAt (iter : Nat → List Document) (pos : LeafSpec → Nat) (builds : Nat)
    (build : Dict Str Shape → Dict Str (InitRows F) → Res μ) (opt : μ → Features × Features → Rat → Res (μ × Rat))
    (cfg : TrainCfg) (dir : List Str) (dev : Seen → Option (Nat → List Str × μ → Res ScoreTable)) (n : Nat) :
    Res (TrainSt μ × Option Err) :=
  neuralTrain lower float zero other sp (fun s => iter (n + pos s)) ps build opt cfg dir (fun e => iter (n + builds + e))
    (dev fun s => iter (n + pos s))

end

/-- evaluation.py:126: the rounds of a training, with the taggers it yields.  `written` says whether the dev tester wrote its
predictions before a failure. -/
def roundsOf {μ τ : Type} (mk : List Str × μ → τ) (written : Bool) : Res (TrainSt μ × Option Err) → List (Round τ)
  | .error e => [⟨false, false, .error e⟩]
  | .ok (st, failure) => st.items.map (fun it => ⟨true, true, .ok (some it.1, mk it.2)⟩) ++
      failure.toList.map (fun e => ⟨decide (st.items.length < st.events.length), written, .error e⟩)

/-- evaluation.py:159-165, 190-194: how often the data set has been iterated over before the training with parameters number
`i` and seed number `j`, if a training with parameters `p` iterates over it `uses p` times. -/
def usedBefore {π : Type} (uses : π → Nat) (seeds : Nat) (hyper : List π) (i j : Nat) : Nat :=
  seeds * ((hyper.take i).map uses).sum + j * ((hyper[i]?).map uses).getD 0

/-- evaluation.py:301-307: the seeds in the order in which they are used. -/
def seedOrder : Seeds → List Str
  | .one s => [s]
  | .many ss => ss

/-- evaluation.py:287-309: a run whose trainings share the data set.  `trainAt n` is the trainer when the data set has been
iterated over `n` times; parameters are known by their number.  Simplification: the seeds are distinct. -/
def RunArgs.shared {π τ : Type} (a : RunArgs π τ) (uses : π → Nat) (trainAt : Nat → Str → π → List (Round τ)) :
    RunArgs (π × Nat) τ :=
  { modelDir := a.modelDir, deleteAfter := a.deleteAfter, seeds := a.seeds, printFields := a.printFields,
    cmpFields := a.cmpFields, cmpMetric := a.cmpMetric, devResults := a.devResults, testResults := a.testResults, test := a.test
    trainer := some fun s p => trainAt (usedBefore uses (seedOrder a.seeds).length (hyperList a.hyperparams) p.2
      ((seedOrder a.seeds).idxOf s)) s p.1
    hyperparams := match a.hyperparams with
      | .inl p => .inl (p, 0)
      | .inr l => .inr l.zipIdx }

end Verif
