import Verif.Model.Repeat

/-! # Vocabulary for repeated runs -/

namespace Verif

variable {π F μ τ : Type}

/-- The order of the documents does not depend on the clock. -/
def Experiment.Seeded (x : Experiment π F μ τ) : Prop := ∀ c, x.shuffler = some c → c.seed ≠ none

/-- Nothing is replaced at random. -/
def Experiment.Dense (x : Experiment π F μ τ) : Prop := ∀ p ∈ hyperList x.args.hyperparams, x.rate p = 0

/-- All numbers that are drawn lie between 0 and 1, and none is 0. -/
def World.Positive (w : World) : Prop := ∀ n e o k i, 0 < w.draw n e o k i ∧ w.draw n e o k i < 1

/-- The same values are replaced in both runs. -/
def Experiment.SameDraws (x : Experiment π F μ τ) (w w' : World) : Prop :=
  ∀ p ∈ hyperList x.args.hyperparams, ∀ n e o k i, x.rate p < w.draw n e o k i ↔ x.rate p < w'.draw n e o k i

end Verif
