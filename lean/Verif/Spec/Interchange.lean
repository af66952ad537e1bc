import Verif.Model.Evaluation
import Verif.Spec.Datamodel
import Verif.Spec.Tagger

/-! # Vocabulary for claims about equal documents -/

namespace Verif

/-- The documents of both lists are equal (`==`) one by one. -/
def EqualDocs (ds es : List Document) : Prop := List.Forall₂ (fun d e : Document => d.pyEq e = true) ds es

/-- A token that is the root of the document is the root of its sentence. -/
def RootsAgree (docs : List Document) : Prop :=
  ∀ d ∈ docs, ∀ t ∈ d.tokens, t.headDoc = some (-1) → t.headSent = some (-1)

/-- What is written for the answers of a tagger. -/
def writtenAnswers (columns : Cols) (tag : List Document → Res (List Document)) (docs : List Document) : Res Str :=
  match tag docs with
  | .error e => .error e
  | .ok out => writeToStr columns out

/-- The processor makes equal documents of equal documents, or fails on both in the same way; what it makes are documents that
the constructor accepts. -/
def RespectsEqual (process : List Document → Res (List Document)) : Prop :=
  ∀ xs ys, (∀ x ∈ xs, Built x) → (∀ y ∈ ys, Built y) → EqualDocs xs ys →
    SameOutcome (fun as bs => (∀ a ∈ as, Built a) ∧ (∀ b ∈ bs, Built b) ∧ EqualDocs as bs) (process xs) (process ys)

end Verif
