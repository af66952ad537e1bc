import Verif.Model.LazyRun

/-! # Vocabulary for taggers that are read from the disk -/

namespace Verif

variable {π μ : Type}

/-- Trainings whose seeds have the same text are the same. -/
def SameTrainings (name : Str → Str) (train : Str → π → List (Round μ)) (seeds : List Str) : Prop :=
  ∀ s ∈ seeds, ∀ s' ∈ seeds, name s = name s' → train s = train s'

end Verif
