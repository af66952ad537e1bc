import Verif.Model.EvalRun
import Verif.Spec.Evaluation

/-!
# Specification vocabulary for evaluation runs
-/

namespace Verif

/-- The round with number `e` yielded this tagger with these scores, and it is the first among the best. -/
def BestAt {τ : Type} (fields : List Str) (metric : Str) (rounds : List (Round τ)) (e : Nat) (tagger : τ)
    (table : ScoreTable) : Prop :=
  (∃ r, rounds[e]? = some r ∧ r.outcome = .ok (some table, tagger)) ∧
  ∀ (i : Nat) (r : Round τ), rounds[i]? = some r → i ≠ e →
    ∃ other otherTagger v w, r.outcome = .ok (some other, otherTagger) ∧ TotalIs fields metric other v ∧
      TotalIs fields metric table w ∧ (i < e → v < w) ∧ (e < i → v ≤ w)

/-- What training with a parameter set gave: the number of the selected epoch of each seed, its tagger and
its scores. -/
def SelectedFor {π τ : Type} (a : RunArgs π τ) (train : Str → π → List (Round τ)) (p : π)
    (sel : List (Nat × τ × ScoreTable)) : Prop :=
  List.Forall₂ (fun s x => BestAt a.cmpFields a.cmpMetric (train s p) x.1 x.2.1 x.2.2) a.seeds.list sel

/-- The scores of the seeds taken together: those of the only seed, or the average. -/
def Together {π τ : Type} (a : RunArgs π τ) (tables : List ScoreTable) (table : ScoreTable) : Prop :=
  match a.seeds with
  | .one _ => tables = [table]
  | .many _ => averageScores a.printFields (tables.map some) = .ok table

/-- The dev scores of a parameter set. -/
def DevScores {π τ : Type} (a : RunArgs π τ) (train : Str → π → List (Round τ)) (p : π)
    (table : ScoreTable) : Prop :=
  ∃ sel, SelectedFor a train p sel ∧ Together a (sel.map (fun x => x.2.2)) table

/-- Two tables of scores, or none: a metric that is in both has the same scores. -/
def Agree : Option ScoreTable → Option ScoreTable → Prop
  | none, none => True
  | some t, some t' => ∀ m s s', t.get? m = some s → t'.get? m = some s' → s = s'
  | _, _ => False

end Verif
