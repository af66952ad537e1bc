import Verif.Spec.MoreParams
import Verif.Model.Training

/-! # Specification vocabulary for trainings with more epochs -/

namespace Verif

/-- What a training has done begins with what another one has done: the scores and taggers it yielded, what it stored, the
learning rates of its epochs. -/
def BeginsWith {μ : Type} (long short : TrainSt μ) : Prop :=
  short.items <+: long.items ∧ short.events <+: long.events ∧ short.lrs <+: long.lrs ∧ short.taggers <+: long.taggers

/-- The second result has no smaller total than the first. -/
def NotLess {π τ : Type} (a : RunArgs π τ) (first second : Option ScoreTable) : Prop :=
  ∃ dev dev', first = some dev ∧ second = some dev' ∧
    ∀ v w, TotalIs a.cmpFields a.cmpMetric dev v → TotalIs a.cmpFields a.cmpMetric dev' w → v ≤ w

end Verif
