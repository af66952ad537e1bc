import Verif.Spec.Interpreters
import Verif.Model.Interpreters

/-! # Vocabulary for answers within the announced sizes -/

namespace Verif

/-- The ids for one word agree with an announced shape: one class for every part, below the number of classes of the part;
or any number of ids, each below the announced number. -/
def Shape.Allows : Shape → List Int → Prop
  | .parts l, ids => List.Forall₂ (fun (i : Int) (p : Str × Nat) => 0 ≤ i ∧ i < p.2) ids l
  | .dims l, ids => ∃ n : Int, l = [some n] ∧ ∀ i ∈ ids, 0 ≤ i ∧ i < n

/-- An answer for one sentence of `n` words: for every label of the providers, and nothing else, an array with one row,
which has for every word ids that agree with the shape announced for the label. -/
def AnswersWithin (ps : List Provider) (S : Dict Str Shape) (n : Nat) (P : Features) : Prop :=
  (∀ k ∈ P.keys, k ∈ labelNames ps) ∧
  ∀ k ∈ labelNames ps, ∃ (sh : Shape) (rows : List (List Int)), S.get? k = some sh ∧ P.get? k = some (.list [.list (rows.map idsFeat)]) ∧
    rows.length = n ∧ ∀ ids ∈ rows, sh.Allows ids

/-- Asked about a sentence of the document, the network answers within the sizes announced to it. -/
def NetWithin {F : Type} (lower : Str → Str) (float : Str → Res F) (zero : F) (other : TextToken) (seen : Seen)
    (ps : List Provider) (net : Features → Res Features) (d : Document) : Prop :=
  ∀ (r : Assembled F) S s f, assemble lower float zero (docTok other d) keepAll seen ps = .ok r → r.shapes = .ok S →
    s ∈ d.sentences → r.features (sentenceBatch s) = .ok f →
    ∃ P, net f = .ok P ∧ AnswersWithin ps S (s.stop - s.start) P

/-- The providers can be used together: they can be assembled with the training data, no two features have the same name,
and no two sizes are announced under the same name. -/
structure Usable {F : Type} (lower : Str → Str) (float : Str → Res F) (zero : F) (seen : Seen)
    (ps : List Provider) : Prop where
  assembled : ∃ (tok : Nat → TextToken) (sp : Sparsify) (r : Assembled F), assemble lower float zero tok sp seen ps = .ok r
  features : (featureNames ps).Nodup
  announced : ((leafSpecs ps).filterMap LeafSpec.announces).Nodup

end Verif
