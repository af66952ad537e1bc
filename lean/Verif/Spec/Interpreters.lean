import Verif.Spec.Datamodel
import Verif.Spec.Features
import Verif.Spec.Pipeline
import Verif.Spec.Providers
import Verif.Model.Interpreters

/-! # Vocabulary for tagging with the assembled interpreters -/

namespace Verif

/-- The annotation of the word can be expressed by the labels of the provider: its tag, its lemma or its lemma rule
occurs (often enough) in the training data; a lemma predicted character by character is short enough. -/
def KnownFor (lower : Str → Str) (dataset : List Document) (g : TextToken) : Provider → Prop
  | .posDict _ s => g.2.pos ∈ posLabels dataset ∧ (s = .gran → ∀ p, some p ∈ posLabels dataset →
      "UPOS".toList ∉ p.feats.keys ∧ "XPOS".toList ∉ p.feats.keys)
  | .lemmaDict _ => ∃ t ∈ datasetTokens dataset, t.2.lemma' = g.2.lemma'
  | .lemmaRules _ _ threshold => ∃ l, g.2.lemma' = some l ∧ ∃ t ∈ datasetTokens dataset, ∃ l', t.2.lemma' = some l' ∧
      LemmaRule.getRule (lower t.1) (lower l') = LemmaRule.getRule (lower g.1) (lower l) ∧
      (threshold ≤ 0 ∨ threshold < ((datasetTokens dataset).countP (fun t' =>
        t'.2.lemma'.any (fun l' => LemmaRule.getRule (lower t'.1) (lower l') =
          LemmaRule.getRule (lower g.1) (lower l)))))
  | .lemmaChars _ threshold maxLen segment => segment = charSegment ∧ ∃ l, g.2.lemma' = some l ∧ l.length < maxLen ∧
      ∀ c ∈ l, c ∈ ((datasetTokens dataset).flatMap (fun t => t.2.lemma'.getD [])) ∧
        threshold ≤ ((datasetTokens dataset).flatMap (fun t => t.2.lemma'.getD [])).count c
  | _ => True

/-- The provider's label is the tag. -/
def Provider.tags : Provider → Prop
  | .posDict _ _ => True
  | _ => False

/-- The lemma the provider's label of a word stands for, if the label is about lemmas: the lemma, lower-cased if it is
encoded as a rule. -/
def Provider.lemmaOf (lower : Str → Str) (g : TextToken) : Provider → Option (Option Str)
  | .lemmaDict _ => some g.2.lemma'
  | .lemmaRules _ _ _ => some (g.2.lemma'.map lower)
  | .lemmaChars _ _ _ _ => some g.2.lemma'
  | _ => none

/-- `u` is `t` with the annotation of `g`, as far as the providers have labels for it. -/
structure LabelledAs (lower : Str → Str) (ps : List Provider) (g : TextToken) (t u : Token) : Prop where
  pos : (∃ p ∈ ps, p.tags) → Option.Rel SamePos u.pos g.2.pos
  posKept : (∀ p ∈ ps, ¬ p.tags) → u.pos = t.pos
  lemma' : (∃ p ∈ ps, (p.lemmaOf lower g).isSome) → ∃ p ∈ ps, p.lemmaOf lower g = some u.lemma'
  lemmaKept : (∀ p ∈ ps, p.lemmaOf lower g = none) → u.lemma' = t.lemma'

end Verif
