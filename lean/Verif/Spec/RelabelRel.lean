import Verif.Spec.Relabel

/-!
# Files with other names for the relations
-/

namespace Verif

/-- The relations that do not count in CLAS. -/
def functionRelations : List Str := ["aux", "case", "cc", "clf", "cop", "det", "mark", "punct"].map String.toList

/-- The same word, with `r` of the relation it had. -/
structure OtherRelation (r : Str → Str) (a b : UDWord) : Prop where
  span : a.span = b.span
  multi : a.multi = b.multi
  parent : a.parent = b.parent
  form : colOf b.columns colFORM = colOf a.columns colFORM
  relation : colOf b.columns colDEPREL = r (colOf a.columns colDEPREL)
  labels : ∀ c ∈ labelCols, colOf b.columns c = colOf a.columns c

/-- The same treebank with other relations. -/
structure OtherRelations (r : Str → Str) (a b : UD) : Prop where
  characters : a.characters = b.characters
  tokens : a.tokens = b.tokens
  sentences : a.sentences = b.sentences
  words : List.Forall₂ (OtherRelation r) a.words b.words

end Verif
