import Verif.Model.Evaluation

/-! # Specification vocabulary for evaluation -/

namespace Verif

/-- The number a score has under the name of an attribute. -/
inductive AttrIs : Str → Score → Rat → Prop
  | precision (s : Score) : AttrIs "precision".toList s s.precision
  | recall (s : Score) : AttrIs "recall".toList s s.recall
  | f1 (s : Score) : AttrIs "f1".toList s s.f1
  | aligned (s : Score) (v : Rat) : s.aligned = some v → AttrIs "aligned_accuracy".toList s v

/-- The comparison score of a table: the sum of one attribute over the fields. -/
def TotalIs (fields : List Str) (metric : Str) (t : ScoreTable) (v : Rat) : Prop :=
  ∃ vs : List Rat, List.Forall₂ (fun f x => ∃ s, t.get? f = some s ∧ AttrIs metric s x) fields vs ∧
    v = vs.sum

/-- The table can be compared: it has a total. -/
def HasTotal (fields : List Str) (metric : Str) (t : ScoreTable) : Prop :=
  ∃ v, TotalIs fields metric t v

/-- The seeds of the setting. -/
def Seeds.list : Seeds → List Str
  | .one s => [s]
  | .many ss => ss

/-- The arithmetic mean. -/
def mean (l : List Rat) : Rat := l.sum / l.length

/-- What a sequence of saving and removing leaves in the model directory.  Removing a directory
removes everything below it. -/
def dirAfter : List (List Str) → List Ev → List (List Str)
  | dir, [] => dir
  | dir, .save p :: evs => dirAfter (dir ++ [p]) evs
  | dir, .remove p :: evs => dirAfter (dir.filter (fun q => !p.isPrefixOf q)) evs

end Verif
