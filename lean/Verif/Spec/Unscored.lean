import Verif.Spec.UdEval

/-!
# Specification vocabulary: parts of CoNLL-U files that are not evaluated
-/

namespace Verif

/-- Where a line of a CoNLL-U file stands: between two sentences, at the first line of a sentence that is no comment, or in a
sentence such that the next `n` lines are the words of a multi-word token. -/
inductive Standing where
  | between
  | opening
  | inside (n : Nat)

/-- The columns of a line. -/
abbrev rowOf (line : Str) : List Str := splitOn1 '\t' line

/-- A comment. -/
def CommentLine (line : Str) : Prop := line.head? = some '#'

/-- A line of an empty node: ten columns, a number with a dot. -/
def NodeLine (line : Str) : Prop := (rowOf line).length = 10 ∧ '.' ∈ colOf (rowOf line) colID

/-- Two lines with the same LEMMA, UPOS, XPOS, FEATS and HEAD, and the same DEPREL up to subtypes.  DEPS and MISC may be
anything. -/
structure SameScored (l l' : Str) : Prop where
  columns : (rowOf l).length = 10 ∧ (rowOf l').length = 10
  same : ∀ c ∈ [colLEMMA, colUPOS, colXPOS, colFEATS, colHEAD], colOf (rowOf l) c = colOf (rowOf l') c
  relation : (colOf (rowOf l) colDEPREL).takeWhile (· ≠ ':') = (colOf (rowOf l') colDEPREL).takeWhile (· ≠ ':')

/-- Two lines with the same number, which is not that of an empty node, and the same FORM up to spaces. -/
structure SameSurface (l l' : Str) : Prop where
  columns : (rowOf l).length = 10 ∧ (rowOf l').length = 10
  id : colOf (rowOf l) colID = colOf (rowOf l') colID
  real : '.' ∉ colOf (rowOf l) colID
  form : (colOf (rowOf l) colFORM).filter (· ≠ ' ') = (colOf (rowOf l') colFORM).filter (· ≠ ' ')
  notComment : ¬ CommentLine l ∧ ¬ CommentLine l'

/-- The lines of two files that differ in comments before sentences, empty nodes, DEPS, MISC, subtypes of relations, spaces in
FORM, and in multi-word token lines also in the other columns but ID and FORM, and in the ID of words of multi-word tokens. -/
inductive Unscored : Standing → List Str → List Str → Prop where
  | same {ls : List Str} : Unscored .between ls ls
  | sameInside {n : Nat} {ls : List Str} : Unscored (.inside n) ls ls
  | commentLeft {l : Str} {ls ls' : List Str} : CommentLine l → Unscored .between ls ls' → Unscored .between (l :: ls) ls'
  | commentRight {l : Str} {ls ls' : List Str} : CommentLine l → Unscored .between ls ls' → Unscored .between ls (l :: ls')
  | enter {ls ls' : List Str} : Unscored .opening ls ls' → Unscored .between ls ls'
  | openLeft {l : Str} {ls ls' : List Str} : NodeLine l → ¬ CommentLine l → Unscored .opening ls ls' → Unscored .opening (l :: ls) ls'
  | openRight {l : Str} {ls ls' : List Str} : NodeLine l → ¬ CommentLine l → Unscored .opening ls ls' → Unscored .opening ls (l :: ls')
  | openWord {l l' : Str} {ls ls' : List Str} : SameSurface l l' → '-' ∉ colOf (rowOf l) colID → SameScored l l' →
      Unscored (.inside 0) ls ls' → Unscored .opening (l :: ls) (l' :: ls')
  | openMulti {l l' a b : Str} {x y : Int} {ls ls' : List Str} : SameSurface l l' → splitOn1 '-' (colOf (rowOf l) colID) = [a, b] →
      pyInt a = .ok x → pyInt b = .ok y → Unscored (.inside (y + 1 - x).toNat) ls ls' → Unscored .opening (l :: ls) (l' :: ls')
  | nodeLeft {l : Str} {ls ls' : List Str} : NodeLine l → Unscored (.inside 0) ls ls' → Unscored (.inside 0) (l :: ls) ls'
  | nodeRight {l : Str} {ls ls' : List Str} : NodeLine l → Unscored (.inside 0) ls ls' → Unscored (.inside 0) ls (l :: ls')
  | word {l l' : Str} {ls ls' : List Str} : SameSurface l l' → '-' ∉ colOf (rowOf l) colID → SameScored l l' →
      Unscored (.inside 0) ls ls' → Unscored (.inside 0) (l :: ls) (l' :: ls')
  | multi {l l' a b : Str} {x y : Int} {ls ls' : List Str} : SameSurface l l' → splitOn1 '-' (colOf (rowOf l) colID) = [a, b] →
      pyInt a = .ok x → pyInt b = .ok y → Unscored (.inside (y + 1 - x).toNat) ls ls' → Unscored (.inside 0) (l :: ls) (l' :: ls')
  | part {l l' : Str} {n : Nat} {ls ls' : List Str} : SameScored l l' → colOf (rowOf l) colFORM = colOf (rowOf l') colFORM →
      Unscored (.inside n) ls ls' → Unscored (.inside (n + 1)) (l :: ls) (l' :: ls')
  | blank {ls ls' : List Str} : Unscored .between ls ls' → Unscored (.inside 0) ([] :: ls) ([] :: ls')

/-- Two files that differ in nothing that is evaluated. -/
def SameButUnscored (t t' : Str) : Prop := Unscored .between (udFileLines t) (udFileLines t')

end Verif
