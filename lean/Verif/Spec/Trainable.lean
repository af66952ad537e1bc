import Verif.Spec.Providers
import Verif.Model.Providers

/-! # Vocabulary for what training data must contain -/

namespace Verif

/-- Some document of the training data has words. -/
def HasWords (dataset : List Document) : Prop := ∃ d ∈ dataset, d.tokens ≠ []

/-- Every word of the training data has a tag. -/
def AllTagged (dataset : List Document) : Prop := ∀ d ∈ dataset, ∀ t ∈ d.tokens, t.pos ≠ none

/-- Every word of the training data has a lemma. -/
def AllLemmatized (dataset : List Document) : Prop := ∀ d ∈ dataset, ∀ t ∈ d.tokens, t.lemma' ≠ none

/-- Two tags of the training data both have a universal tag or both have none. -/
def UposThroughout (dataset : List Document) : Prop :=
  ∀ d ∈ dataset, ∀ t ∈ d.tokens, ∀ d' ∈ dataset, ∀ t' ∈ d'.tokens, ∀ p p', t.pos = some p → t'.pos = some p' →
    p.upos.isSome = p'.upos.isSome

/-- Two tags of the training data both have a language specific tag or both have none. -/
def XposThroughout (dataset : List Document) : Prop :=
  ∀ d ∈ dataset, ∀ t ∈ d.tokens, ∀ d' ∈ dataset, ∀ t' ∈ d'.tokens, ∀ p p', t.pos = some p → t'.pos = some p' →
    p.xpos.isSome = p'.xpos.isSome

/-- A line of a file of vectors: a word and after it `n` numbers, separated by white space. -/
def VectorLine {F : Type} (float : Str → Res F) (n : Int) (line : Str) : Prop :=
  ∃ w vs, splitWs line = w :: vs ∧ n = (vs.length : Int) ∧ ∀ v ∈ vs, ∃ x, float v = .ok x

/-- A file of vectors: all lines have the same number of numbers; the first line may say, after another word, how many. -/
def VectorFile {F : Type} (float : Str → Res F) (lines : List Str) : Prop :=
  ∃ n : Int, (∀ line ∈ lines, VectorLine float n line) ∧ (∀ line w v, lines.head? = some line → splitWs line ≠ [w, v]) ∨
    ∃ line w v, lines.head? = some line ∧ splitWs line = [w, v] ∧ pyInt v = .ok n ∧
      ∀ line ∈ lines.tail, VectorLine float n line

/-- What the provider needs from the training data and, for pretrained vectors, from the file with them. -/
def Provider.Needs {F : Type} (float : Str → Res F) (dataset : List Document) : Provider → Prop
  | .sentLength _ => True
  | .wordEmb _ _ lines _ => VectorFile float lines
  | .trainable _ _ _ => True
  | .subwordEmb _ _ lines _ => VectorFile float lines
  | .subwords _ _ _ => True
  | .lemmaDict _ => HasWords dataset
  | .posDict _ s => HasWords dataset ∧ (s = .joint ∨ AllTagged dataset)
  | .lemmaRules _ _ _ => HasWords dataset ∧ AllLemmatized dataset
  | .lemmaChars _ _ _ _ => AllLemmatized dataset

/-- The tags the provider has to sort as a whole can be compared. -/
def Provider.Sortable (dataset : List Document) : Provider → Prop
  | .posDict _ .joint => UposThroughout dataset ∧ XposThroughout dataset
  | .posDict _ .xf => XposThroughout dataset
  | _ => True

end Verif
