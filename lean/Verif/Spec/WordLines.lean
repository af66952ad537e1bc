import Verif.Spec.Conllu

/-!
# Specification vocabulary: word lines of written text
-/

namespace Verif

/-- The ID of a row has no dash. -/
def isWordRow (r : List Str) : Bool := !((r.headD []).contains '-')

/-- The lines of words (not range lines) of a text, by their ID. -/
def wordLines (out : Str) : List Str :=
  ((fileLines out).map (stripBy isEol)).filter fun l => l != [] && !(((splitOn1 '\t' l).headD []).contains '-')

/-- The number of words of the multiword token the tokens end in (0 if they do not end in one): the tokens
sharing the span of the last one, provided one of those is a multiword token. -/
def repeatedAt (toks : List Token) : Nat :=
  (toks.filter fun t => toks.getLast?.any fun u => u.coincides t && toks.any fun f =>
    f.isMultiword && f.coincides u).length

end Verif
