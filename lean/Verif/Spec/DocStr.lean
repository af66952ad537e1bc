import Verif.Model.DocStr

/-!
# What a printed document looks like

The printed form is cut into pieces of the document text (`kept`) and insertions (`added`).
-/

namespace Verif

inductive Piece where
  | kept (s : Str)
  | added (s : Str)
  deriving DecidableEq

def Piece.str : Piece → Str
  | .kept s => s
  | .added s => s

def Piece.text : Piece → Str
  | .kept s => s
  | .added _ => []

/-- How strings are quoted, as Python's `repr` does: the printed form begins with a quote, and whatever
follows it, the string can be told from it. -/
structure Quoting (reprStr : Str → Str) : Prop where
  starts : ∀ s, ∃ c t, reprStr s = c :: t ∧ (c = '\'' ∨ c = '"')
  delimits : ∀ a b x y, reprStr a ++ x = reprStr b ++ y → a = b

/-- What is printed about a token after its text. -/
def annotation (reprStr : Str → Str) (t : Token) : Str :=
  (match t.pos with | none => [] | some p => "|'pos':".toList ++ p.repr reprStr) ++
  (match t.lemma' with | none => [] | some l => "|'lemma':'".toList ++ l ++ "'".toList)

/-- The pieces `ps` print the tokens `ts` of a document with text `text`, from offset `a` on up to
offset `b`: the text between the tokens is kept, each token is enclosed in brackets together with its
annotation.  A token ending where the previous one ends is a further word of a multiword token: the
text of the multiword token is inserted once more. -/
inductive TokensPrinted (reprStr : Str → Str) (text : Str) : Nat → List Token → List Piece → Nat → Prop
  | nil (a : Nat) : TokensPrinted reprStr text a [] [] a
  | cons {a b : Nat} {t : Token} {ts : List Token} {ps : List Piece} :
      a ≤ t.start → TokensPrinted reprStr text t.stop ts ps b →
      TokensPrinted reprStr text a (t :: ts)
        (.kept (slice text a t.start) :: .added ['['] :: .kept (slice text t.start t.stop) ::
          .added (annotation reprStr t ++ [']']) :: ps) b
  | again {a b : Nat} {t : Token} {ts : List Token} {ps : List Piece} :
      t.stop = a → TokensPrinted reprStr text a ts ps b →
      TokensPrinted reprStr text a (t :: ts)
        (.added ('[' :: slice text t.start t.stop ++ annotation reprStr t ++ [']']) :: ps) b

/-- The pieces `ps` print the sentences `ss` (given by their tokens): each sentence is enclosed in
brackets, the opening one directly before its first token. -/
inductive SentencesPrinted (reprStr : Str → Str) (text : Str) :
    Nat → List (List Token) → List Piece → Nat → Prop
  | nil (a : Nat) : SentencesPrinted reprStr text a [] [] a
  | cons {a b c : Nat} {t : Token} {ts : List Token} {ss : List (List Token)} {ps qs : List Piece} :
      TokensPrinted reprStr text (max a t.start) (t :: ts) ps b →
      SentencesPrinted reprStr text b ss qs c →
      SentencesPrinted reprStr text a ((t :: ts) :: ss)
        (.kept (slice text a (max a t.start)) :: .added ['['] :: ps ++ .added [']'] :: qs) c

end Verif
