import Verif.Model.SharedData
import Verif.Spec.Evaluation

/-! # Vocabulary for runs with one of several seeds -/

namespace Verif

/-- The run with one seed and one set of parameters. -/
def RunArgs.alone {π τ : Type} (a : RunArgs π τ) (s : Str) (p : π) : RunArgs π τ :=
  { a with seeds := .one s, hyperparams := .inl p }

/-- The run is not refused: nothing is to be deleted, or there is nothing in the model directory. -/
def RunArgs.Allowed {π τ : Type} (a : RunArgs π τ) (disk : List (List Str)) : Prop :=
  a.deleteAfter = false ∨ ∀ p ∈ disk, a.modelDir <+: p → p = a.modelDir

/-- The network is trained on a data set that is shuffled anew whenever it is iterated over. -/
def TrainedShuffled {π τ : Type} (trainAt : Nat → Str → π → List (Round τ)) : Prop :=
  ∃ (outer : Nat → Nat) (streams : Nat → Nat → Nat) (B : Int) (docs : List Document) (iter : Nat → List Document),
    (∀ k, shuffledIterNth outer streams B docs k = .ok (iter k)) ∧
    ∃ (F μ : Type) (lower : Str → Str) (float : Str → Res F) (zero : F) (other : TextToken) (sp : Nat → Sparsify)
      (ps : List Provider) (pos : LeafSpec → Nat) (builds : Nat)
      (build : Str → π → Dict Str Shape → Dict Str (InitRows F) → Res μ)
      (opt : Str → π → μ → Features × Features → Rat → Res (μ × Rat)) (cfg : π → TrainCfg) (dir : List Str)
      (dev : Seen → Option (Nat → List Str × μ → Res ScoreTable)) (mk : List Str × μ → τ) (written : Bool),
      ∀ n s p, trainAt n s p = roundsOf mk written
        (neuralAt lower float zero other sp ps iter pos builds (build s p) (opt s p) (cfg p) dir dev n)

/-- The trainings of a run in the order of execution: all seeds for the first parameters, then all for the second, and so on. -/
def trainingsOf {π τ : Type} (a : RunArgs π τ) : List (π × Str) :=
  (hyperList a.hyperparams).flatMap (fun p => a.seeds.list.map (fun s => (p, s)))

end Verif
