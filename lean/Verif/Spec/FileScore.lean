import Verif.Spec.WriteLoad
import Verif.Spec.ConlluLine

/-!
# Specification vocabulary for scores on a gold file

The gold file is read twice: as documents, which are shown to the tagger, and by the evaluation script.
-/

namespace Verif

/-- `r` is the row of a gold file that the evaluation compares for the word `t` of the document with the
given text; `m` says whether it belongs to a multi-word token.  (The subtype of a relation and spaces in the
form of other words are dropped.) -/
structure FileRow (text : Str) (m : Bool) (k : Nat) (t : Token) (r : List Str) : Prop where
  length : r.length = 10
  form : colOf r colFORM = if m then tokText text t else noSpaces (tokText text t)
  lemma' : colOf r colLEMMA = t.lemma'.getD underscore
  upos : colOf r colUPOS = (t.pos.bind Pos.upos).getD underscore
  xpos : colOf r colXPOS = (t.pos.bind Pos.xpos).getD underscore
  feats : ∃ p f, t.pos = some p ∧ Cell r colFEATS f ∧ Attrs f p.feats
  head : ∃ h, pyInt (colOf r colHEAD) = .ok h ∧ t.headSent = some (h - 1)
  deprel : colOf r colDEPREL = (t.deprel.getD underscore).takeWhile (· ≠ ':')

/-- No line that starts with `#` has ten columns. -/
def CommentsPlain (text : Str) : Prop :=
  ∀ l ∈ udFileLines text, l.head? = some '#' → (splitOn1 '\t' l).length ≠ 10

instance (text : Str) : Decidable (CommentsPlain text) := by unfold CommentsPlain; infer_instance

/-- The metrics that compare columns: the columns of a loaded word that are compared, and what a writer puts
there for a token. -/
def fileMetrics : List (Str × List Nat × (Token → List Str)) :=
  [("UPOS".toList, [colUPOS], fun t => [(t.pos.bind Pos.upos).getD underscore]),
   ("XPOS".toList, [colXPOS], fun t => [(t.pos.bind Pos.xpos).getD underscore]),
   ("Feats".toList, [colFEATS], fun t => [writtenFeats t]),
   ("AllTags".toList, [colUPOS, colXPOS, colFEATS],
     fun t => [(t.pos.bind Pos.upos).getD underscore, (t.pos.bind Pos.xpos).getD underscore, writtenFeats t]),
   ("Lemmas".toList, [colLEMMA], fun t => [t.lemma'.getD underscore])]

/-- The values of columns in the words of a treebank. -/
def columnValues (cols : List Nat) (ud : UD) : List (List Str) := ud.words.map fun w => cols.map (colOf w.columns)

/-- The FEATS columns are spelled the way the features are written. -/
def FeatsAsWritten (docs : List Document) (ud : UD) : Prop :=
  List.Forall₂ (fun t w => colOf w.columns colFEATS = writtenFeats t) (allTokens docs) ud.words

/-- The number of positions at which two lists have the same value. -/
def sameCount {α : Type} [DecidableEq α] (a b : List α) : Nat := ((a.zip b).filter fun p => p.1 = p.2).length

/-- The HEAD numbers and relations written for words numbered from `k + 1`. -/
def writtenArcs (cols : Cols) : Nat → List Token → List (Int × Str)
  | _, [] => []
  | k, t :: ts => (writtenHead cols k t, writtenRelation cols t) :: writtenArcs cols (k + 1) ts

/-- The HEAD numbers and relations written for documents: numbers start again in each sentence. -/
def allArcs (columns : Cols) (docs : List Document) : List (Int × Str) :=
  (sentencesOf docs).flatMap fun p => writtenArcs (withHead columns) 0 p.2

end Verif
