import Verif.Spec.UdEval

/-!
# Files with other names for the same annotations
-/

namespace Verif

/-- The columns of annotations that are compared as strings and are not the relation. -/
def labelCols : List Nat := [colUPOS, colXPOS, colFEATS, colLEMMA]

/-- The same word, with `f c` of what it had in the column `c` of annotations. -/
structure Relabelled (f : Nat → Str → Str) (a b : UDWord) : Prop where
  span : a.span = b.span
  multi : a.multi = b.multi
  parent : a.parent = b.parent
  form : colOf b.columns colFORM = colOf a.columns colFORM
  relation : colOf b.columns colDEPREL = colOf a.columns colDEPREL
  labels : ∀ c ∈ labelCols, colOf b.columns c = f c (colOf a.columns c)

/-- The same treebank with other names. -/
structure RelabelledUD (f : Nat → Str → Str) (a b : UD) : Prop where
  characters : a.characters = b.characters
  tokens : a.tokens = b.tokens
  sentences : a.sentences = b.sentences
  words : List.Forall₂ (Relabelled f) a.words b.words

end Verif
