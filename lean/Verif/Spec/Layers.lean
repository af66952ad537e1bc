import Verif.Model.Layers
import Verif.Spec.Evaluation

/-!
# Specification vocabulary for layers
-/

namespace Verif

/-- The function returns the position of a greatest element, whichever it is. -/
def TakesMax (argmax : List Rat → Nat) : Prop :=
  ∀ l : List Rat, l ≠ [] → ∃ x, l[argmax l]? = some x ∧ ∀ y ∈ l, y ≤ x

/-- A rule fits a word: it was made for this very word, or it is regular and its suffix is a proper suffix of the
word. -/
def LemmaRule.Fits (r : LemmaRule) (word : Str) : Prop :=
  (r.exc = true ∧ r.wordSuffix = word) ∨
  (r.exc = false ∧ r.wordSuffix <:+ word ∧ r.wordSuffix ≠ word)

/-- The numbers of the padded matrix at the positions of words are those of the ragged one: a row per
sentence, each beginning with the numbers of its words, and all rows equally long. -/
structure PadsTo {α : Type} (ragged padded : List (List α)) : Prop where
  rows : List.Forall₂ (fun r p => ∃ rest, p = r ++ rest) ragged padded
  width : ∀ p ∈ padded, p.length = maxLength (ragged.map List.length)

/-- The vector of a word that is the average of the vectors of its subwords. -/
def meanVector (e : Nat) (emb : Int → Nat → Rat) (ids : List Int) : List Rat :=
  (List.range e).map (fun k => mean (ids.map (fun i => emb i k)))

end Verif
