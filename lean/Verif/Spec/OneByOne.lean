import Verif.Model.Datamodel

/-! # Vocabulary for claims about documents that are processed together -/

namespace Verif

/-- Processing documents together gives what processing each of them alone gives, and succeeds exactly if that does. -/
def OneByOne (process : List Document → Res (List Document)) : Prop :=
  ∀ docs outs, process docs = .ok outs ↔ List.Forall₂ (fun d o => process [d] = .ok [o]) docs outs

end Verif
