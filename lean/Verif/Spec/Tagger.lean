import Verif.Spec.Interpreters

/-! # Vocabulary for what the predictions of a tagger depend on -/

namespace Verif

/-- Sentence `s` of `d` and sentence `s'` of `d'` consist of the same words. -/
structure SameWords (d : Document) (s : Sentence) (d' : Document) (s' : Sentence) : Prop where
  length : s.stop - s.start = s'.stop - s'.start
  words : ∀ k, k < s.stop - s.start →
    (d.tokens[s.start + k]?).map (tokText d.text) = (d'.tokens[s'.start + k]?).map (tokText d'.text)

/-- The provider's label is the lemma, in some form. -/
def Provider.lemmas : Provider → Prop
  | .lemmaDict _ => True
  | .lemmaRules _ _ _ => True
  | .lemmaChars _ _ _ _ => True
  | _ => False

/-- The same tag and lemma, as far as the providers have labels for them. -/
structure SamePrediction (ps : List Provider) (t t' : Token) : Prop where
  pos : (∃ p ∈ ps, p.tags) → t.pos = t'.pos
  lemma' : (∃ p ∈ ps, p.lemmas) → t.lemma' = t'.lemma'

/-- Two calls have related results, or raise the same exception. -/
def SameOutcome {α β : Type} (S : α → β → Prop) (r : Res α) (r' : Res β) : Prop :=
  (∃ a b, r = .ok a ∧ r' = .ok b ∧ S a b) ∨ ∃ e, r = .error e ∧ r' = .error e

end Verif
