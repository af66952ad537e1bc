import Verif.Spec.FileScore
import Verif.Spec.EvalRun
import Verif.Spec.Pipeline

/-! # Vocabulary for what a whole run finds -/

namespace Verif

/-- Taggers, as the testers see them. -/
abbrev TagFn := List Document → Res (List Document)

/-- A metric: its name, the columns of the gold file, and what is written for a token of the tagger. -/
abbrev FileMetric := Str × List Nat × (Token → List Str)

/-- The tagger is right this many times about the words of the file: counted are the words for which the columns of the
file have the values of the tagger's token, for each of the metrics. -/
def RightWords (depth : Nat) (text : Str) (tag : TagFn) (ms : List FileMetric) (c : Nat) : Prop :=
  ∃ docs ud blind pred, readFromStr 1 defaultCols text = .ok (docs, none) ∧ loadConllu depth text = .ok ud ∧
    prepareTestData docs = .ok blind ∧ tag blind = .ok pred ∧
    c = (ms.map (fun m => sameCount (columnValues m.2.1 ud) ((allTokens pred).map m.2.2))).sum

/-- The answers of the tagger to the documents of the file differ from what it is asked in tags and lemmas only, which
contain neither tabs nor newlines. -/
def AnswersTags (text : Str) (tag : TagFn) : Prop :=
  ∀ docs blind pred, readFromStr 1 defaultCols text = .ok (docs, none) → prepareTestData docs = .ok blind →
    tag blind = .ok pred → List.Forall₂ (fun b e : Document => Built e ∧ Retagged b e) blind pred ∧
      ∀ e ∈ pred, ∀ u ∈ e.tokens, TokenPlain e.text u

/-- A CoNLL-U file with newlines as line ends and without comment lines of ten columns. -/
structure PlainFile (text : Str) : Prop where
  returns : '\r' ∉ text
  comments : CommentsPlain text

end Verif
