import Verif.Spec.Conllu

/-!
# Specification vocabulary for writing a document and reading it back
-/

namespace Verif

/-- A feature of a part of speech that survives the `a=b|c=d` notation. -/
def FeatOk (e : Str × Str) : Prop := '=' ∉ e.1 ∧ '|' ∉ e.1 ∧ '=' ∉ e.2 ∧ '|' ∉ e.2

instance (e : Str × Str) : Decidable (FeatOk e) := by unfold FeatOk; infer_instance

/-- A token all of whose values survive being written: no tab, no newline, no reserved value `_`, no
separator in features, and neither pos nor head missing. -/
structure TokenWritable (text : Str) (t : Token) : Prop where
  plain : TokenPlain text t
  inside : t.stop ≤ text.length
  head : t.headSent ≠ none
  lemma' : t.lemma' ≠ some underscore
  deprel : t.deprel ≠ some underscore
  pos : ∃ p, t.pos = some p ∧ p.upos ≠ some underscore ∧ p.xpos ≠ some underscore ∧
    ∀ e ∈ p.feats.entries, FeatOk e

/-- A document that can be written and read back: its tokens are writable, its first token does not
continue a multiword token, and no sentence but the last ends in a multiword token. -/
structure Writable (d : Document) : Prop where
  ne : d.tokens ≠ []
  token : ∀ t ∈ d.tokens, TokenWritable d.text t
  first : ∀ t, d.tokens.head? = some t → t.sub = 0
  ends : ∀ s ∈ d.sentences.dropLast, EndsRegular (d.sentenceTokens s)

/-- Two tokens, of documents with the given texts, that agree in everything CoNLL-U can express. -/
structure SameWord (text text' : Str) (t t' : Token) : Prop where
  form : tokText text t = tokText text' t'
  surface : docText text t = docText text' t'
  sub : t.sub = t'.sub
  repl : t.repl = t'.repl
  pos : Option.Rel SamePos t.pos t'.pos
  lemma' : t.lemma' = t'.lemma'
  deprel : t.deprel = t'.deprel
  headSent : t.headSent = t'.headSent
  isRoot : t.isRoot = t'.isRoot

/-- From position `pos` on, the text consists of the surface forms of the tokens, each followed by one
space exactly if `space_after` holds, and of nothing else. -/
def Spaced (text : Str) : Nat → List Token → Prop
  | pos, [] => pos = text.length
  | pos, t :: ts =>
    if t.sub = 0 then
      t.start = pos ∧ (text.drop t.stop).take (spaceIf (spaceAfter text t)).length = spaceIf (spaceAfter text t) ∧
        Spaced text (t.stop + (spaceIf (spaceAfter text t)).length) ts
    else Spaced text pos ts

instance Spaced.decidable (text : Str) : ∀ (pos : Nat) (ts : List Token), Decidable (Spaced text pos ts)
  | pos, [] => inferInstanceAs (Decidable (pos = text.length))
  | pos, t :: ts => by
    unfold Spaced
    have := Spaced.decidable text (t.stop + (spaceIf (spaceAfter text t)).length) ts
    have := Spaced.decidable text pos ts
    infer_instance

end Verif
