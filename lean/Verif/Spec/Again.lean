import Verif.Spec.Pipeline
import Verif.Spec.Tagger

/-!
# Specification vocabulary: annotating a document again
-/

namespace Verif

/-- `d'` is `d` with the heads and relations of its tokens changed. -/
structure Reparsed (d d' : Document) : Prop where
  text : d'.text = d.text
  sentences : d'.sentences = d.sentences
  tokens : List.Forall₂ SameButSyntax d.tokens d'.tokens

/-- The same tag and lemma, where the providers have no labels for them. -/
structure SameUnlabelled (ps : List Provider) (t t' : Token) : Prop where
  pos : ¬ (∃ p ∈ ps, p.tags) → t.pos = t'.pos
  lemma' : ¬ (∃ p ∈ ps, p.lemmas) → t.lemma' = t'.lemma'

/-- One processor after the other. -/
def andThen {α β γ : Type} (f : α → Res β) (g : β → Res γ) (a : α) : Res γ :=
  match f a with
  | .error e => .error e
  | .ok b => g b

end Verif
