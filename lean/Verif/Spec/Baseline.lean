import Verif.Spec.WriteLoad
import Verif.Spec.Extractors

/-! # Vocabulary for claims about the baseline -/

namespace Verif

/-- The number of words that have equal tags (`==` of tags, see C14) in both lists of documents. -/
def rightTags (gold out : List Document) : Nat :=
  ((allTokens gold).zip (allTokens out)).countP fun p => Token.optPosEq p.1.pos p.2.pos

/-- The number of words that have tags with the same universal tag in both lists of documents. -/
def rightUpos (gold out : List Document) : Nat :=
  ((allTokens gold).zip (allTokens out)).countP fun p => p.1.pos.bind Pos.upos = p.2.pos.bind Pos.upos

/-- The number of words that have the same lemma in both lists of documents. -/
def rightLemmas (gold out : List Document) : Nat :=
  ((allTokens gold).zip (allTokens out)).countP fun p => p.1.lemma' = p.2.lemma'

/-- The documents have as many words as the gold documents, and all of them have this tag. -/
def AllTaggedAs (q : Option Pos) (gold out : List Document) : Prop :=
  List.Forall₂ (fun d e : Document => e.tokens.length = d.tokens.length ∧ ∀ t ∈ e.tokens, t.pos = q) gold out

/-- Every tag of the documents is equal to one of the list. -/
def TagsAmong (tags : List (Option Pos)) (docs : List Document) : Prop :=
  ∀ t ∈ allTokens docs, ∃ q ∈ tags, Token.optPosEq q t.pos = true

end Verif
