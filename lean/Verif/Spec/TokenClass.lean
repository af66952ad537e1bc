import Verif.Model.TokenClass

namespace Verif

/-- The document without the classes of its tokens. -/
def DocObj.forget (d : DocObj) : Document :=
  { text := d.text, tokens := d.tokens.map TokObj.token, sentences := d.sentences }

/-- Two objects that show the same text: `text`, `doc_text` and `space_after` agree, including
whether they exist at all. -/
def ShowsSame (a b : TokObj) : Prop :=
  a.text = b.text ∧ a.docText = b.docText ∧ a.spaceAfter = b.spaceAfter

/-- `r` is `o` after an update: no error, the attributes are those `t` (what the update of a plain
token gives), the text is that of `o`, and the object is no longer part of a document. -/
def UpdatedTo (o : TokObj) (t : Res Token) (r : Res TokObj) : Prop :=
  ∃ o', r = .ok o' ∧ t = .ok o'.token ∧ ShowsSame o o' ∧ ∀ n, o' ≠ .nav n

end Verif
