import Verif.Spec.Tagger
import Verif.Spec.WriteLoad
import Verif.Spec.Feeding

/-! # Vocabulary for what a trained tagger can say -/

namespace Verif

/-- The tag is made of parts of these tags, as far as the splitting takes tags apart. -/
def TagOf (labels : List (Option Pos)) : Splitting → Option Pos → Prop
  | .joint, q => q ∈ labels
  | .xf, some q => (∃ p, some p ∈ labels ∧ p.upos = q.upos) ∧
      ∃ p, some p ∈ labels ∧ p.xpos = q.xpos ∧ SameMap p.feats q.feats
  | .uxf, some q => (∃ p, some p ∈ labels ∧ p.upos = q.upos) ∧ (∃ p, some p ∈ labels ∧ p.xpos = q.xpos) ∧
      ∃ p, some p ∈ labels ∧ SameMap p.feats q.feats
  | .gran, some q => (∃ p, some p ∈ labels ∧ p.upos = q.upos) ∧ (∃ p, some p ∈ labels ∧ p.xpos = q.xpos) ∧
      ∀ k v, q.feats.get? k = some v → ∃ p, some p ∈ labels ∧ p.feats.get? k = some v
  | _, none => False

/-- `lemma'` differs from `word` like `lemma₀` from `word₀`: what follows their longest common beginning is exchanged. -/
def SameEnding (word lemma' word₀ lemma₀ : Str) : Prop :=
  ∃ stem stem₀ a b, word = stem ++ a ∧ lemma' = stem ++ b ∧ word₀ = stem₀ ++ a ∧ lemma₀ = stem₀ ++ b ∧
    ∀ c, a.head? = some c → b.head? ≠ some c

/-- A tag a tagger with this provider can give: it is made of the tags of the training data. -/
def Provider.tagFrom (dataset : List Document) (q : Option Pos) : Provider → Prop
  | .posDict _ s => TagOf (posLabels dataset) s q
  | _ => False

/-- A lemma a tagger with this provider can give the word: a lemma of the training data, the lower-cased word with or
without an ending exchanged as in a word of the training data, or a sequence of segments of lemmas of the training
data. -/
def Provider.lemmaFrom (lower : Str → Str) (dataset : List Document) (word : Str) (l : Option Str) : Provider → Prop
  | .lemmaDict _ => ∃ t ∈ datasetTokens dataset, t.2.lemma' = l
  | .lemmaRules _ _ _ => ∃ m, l = some m ∧ (m = lower word ∨ ∃ t ∈ datasetTokens dataset, ∃ l₀, t.2.lemma' = some l₀ ∧
      SameEnding (lower word) m (lower t.1) (lower l₀))
  | .lemmaChars _ _ _ segment => ∃ parts, l = some (List.flatten parts) ∧ ∀ c ∈ parts, ∃ t ∈ datasetTokens dataset,
      ∃ l₀, t.2.lemma' = some l₀ ∧ c ∈ segment l₀
  | _ => False

/-- With this splitting, no feature of the tags has the name of a part of a tag. -/
def Provider.clear (dataset : List Document) : Provider → Prop
  | .posDict _ s => s = .gran → ∀ p, some p ∈ posLabels dataset → "UPOS".toList ∉ p.feats.keys ∧
      "XPOS".toList ∉ p.feats.keys
  | _ => True

/-- The segments of a lemma are parts of it. -/
def Provider.cuts : Provider → Prop
  | .lemmaChars _ _ _ segment => ∀ l, ∀ c ∈ segment l, ∀ x ∈ c, x ∈ l
  | _ => True

/-- The network has learned the training data by heart (in every step it gives the words of every sentence their labels),
and does not mind padding (for one sentence it answers what it answers for its row in a step). -/
structure LearnedByHeart {F : Type} (lower : Str → Str) (float : Str → Res F) (zero : F) (other : TextToken)
    (seen : Seen) (ps : List Provider) (n : Nat) (docs : List Document) (steps : List (Features × Features))
    (net : Features → Res Features) : Prop where
  learned : ∀ b i d s step, TrainingRow n docs b i d s → steps[b]? = some step → ∃ A, net step.1 = .ok A ∧
    ∀ P, RowLabels A i (s.stop - s.start) P → RowLabels step.2 i (s.stop - s.start) P
  padding : ∀ b i d s step f A, TrainingRow n docs b i d s → steps[b]? = some step →
    predictSentence lower float zero other seen ps .ok d s = .ok f → RowFeatures step.1 i f → net step.1 = .ok A →
    ∃ P, net f = .ok P ∧ RowLabels A i (s.stop - s.start) P

end Verif
