import Verif.Spec.UdEval

/-!
# Specification vocabulary: how the scores of two evaluations are related
-/

namespace Verif

/-- The roles are exchanged: the precision of one is the recall of the other, and F1 is the same. -/
def Mirrored (s t : Score) : Prop := s.precision = t.recall ∧ s.recall = t.precision ∧ s.f1 = t.f1

/-- `s` is less than `t` in precision, recall and F1. -/
def ScoreLt (s t : Score) : Prop := s.precision < t.precision ∧ s.recall < t.recall ∧ s.f1 < t.f1

/-- The scores that compare columns of aligned words, with the columns. -/
def Metrics.byColumns (m : Metrics) : List (List Nat × Score) :=
  [([colUPOS], m.upos), ([colXPOS], m.xpos), ([colFEATS], m.feats), ([colUPOS, colXPOS, colFEATS], m.allTags),
   ([colLEMMA], m.lemmas)]

end Verif
