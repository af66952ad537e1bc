import Verif.Spec.BestModel
import Verif.Spec.Evaluation
import Verif.Spec.UdEval

/-! # Vocabulary for runs with several seeds -/

namespace Verif

/-- The taggers are right this many times about the words of the file, all of them together. -/
def RightTogether (depth : Nat) (text : Str) (tags : List TagFn) (ms : List FileMetric) (c : Nat) : Prop :=
  ∃ cs, List.Forall₂ (fun tag c => RightWords depth text tag ms c) tags cs ∧ c = cs.sum

/-- The four numbers of the score are the average of the shares of words the taggers are right about. -/
def AverageShare (depth : Nat) (text : Str) (tags : List TagFn) (m : FileMetric) (s : Score) : Prop :=
  ∃ docs cs q, readFromStr 1 defaultCols text = .ok (docs, none) ∧
    List.Forall₂ (fun tag c => RightWords depth text tag [m] c) tags cs ∧
    q = mean (cs.map (fun c : Nat => ratio c (allTokens docs).length)) ∧
    s.precision = q ∧ s.recall = q ∧ s.f1 = q ∧ s.aligned = some q

end Verif
