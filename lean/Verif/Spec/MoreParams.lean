import Verif.Spec.EvalRun

/-! # Specification vocabulary for searches with more candidates -/

namespace Verif

/-- The second result is not worse: the tables are the same, or both have a total and the second is at least the first. -/
def NotWorse {π τ : Type} (a : RunArgs π τ) (first second : Option ScoreTable) : Prop :=
  ∃ dev dev', first = some dev ∧ second = some dev' ∧
    (dev = dev' ∨ ∃ v w, TotalIs a.cmpFields a.cmpMetric dev v ∧ TotalIs a.cmpFields a.cmpMetric dev' w ∧ v ≤ w)

/-- The parameter set is better than all others of the list. -/
def OnlyBest {π τ : Type} (a : RunArgs π τ) (train : Str → π → List (Round τ)) (list : List π) (p : π) : Prop :=
  ∀ q ∈ list, q ≠ p → ∀ t u v w, DevScores a train p t → DevScores a train q u →
    TotalIs a.cmpFields a.cmpMetric t v → TotalIs a.cmpFields a.cmpMetric u w → w < v

end Verif
