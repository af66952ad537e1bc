import Verif.Spec.Conllu

/-! # Vocabulary: sentences, independent of the document they are in -/

namespace Verif

/-- What a word of a sentence looks like: its place in the text, counted from the beginning of the sentence, its annotations with
the head as a place in the sentence, its form and the form of the surface unit it belongs to. -/
structure WordView where
  start : Nat
  stop : Nat
  sub : Int
  repl : Option Str
  pos : Option Pos
  lemma' : Option Str
  deprel : Option Str
  head : Option Int
  extras : TokenExtras
  form : Str
  surface : Str

/-- The word `t` of a sentence that begins at `base` in the text. -/
def wordView (text : Str) (base : Nat) (t : Token) : WordView :=
  ⟨t.start - base, t.stop - base, t.sub, t.repl, t.pos, t.lemma', t.deprel, t.headSent, t.extras, tokText text t, docText text t⟩

/-- The words of a sentence. -/
def Document.sentenceView (d : Document) (s : Sentence) : List WordView :=
  (d.sentenceTokens s).map (wordView d.text (((d.sentenceTokens s).head?.map Token.start).getD 0))

/-- The sentences of some documents. -/
def sentenceViews (ds : List Document) : List (List WordView) := ds.flatMap fun d => d.sentences.map d.sentenceView

/-- No line of the text has a negative number in the column HEAD. -/
def NoNegativeHeads (text : Str) : Prop :=
  ∀ l ∈ contentLines text, ∀ f, (splitOn1 '\t' l)[6]? = some f → ∀ n, pyInt f = .ok n → 0 ≤ n

end Verif
