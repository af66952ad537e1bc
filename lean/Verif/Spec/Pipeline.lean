import Verif.Model.Pipeline

/-!
# Specification vocabulary for taggers, parsers and processors
-/

namespace Verif

/-- The syntactic head of a token is kept.  (If only one of the two views says root, so does the
other afterwards.) -/
def KeepsHead (a b : Token) : Prop :=
  if a.isRoot then b.headDoc = some (-1) ∧ b.headSent = some (-1)
  else b.headDoc = a.headDoc ∧ b.headSent = a.headSent

/-- Agreement of two tokens on everything but part of speech and lemma. -/
structure SameButMorph (a b : Token) : Prop where
  start : b.start = a.start
  stop : b.stop = a.stop
  sub : b.sub = a.sub
  repl : b.repl = a.repl
  deprel : b.deprel = a.deprel
  extras : b.extras = a.extras
  head : KeepsHead a b

/-- Agreement of two tokens on everything but head and relation. -/
structure SameButSyntax (a b : Token) : Prop where
  start : b.start = a.start
  stop : b.stop = a.stop
  sub : b.sub = a.sub
  repl : b.repl = a.repl
  pos : b.pos = a.pos
  lemma' : b.lemma' = a.lemma'
  extras : b.extras = a.extras

/-- `d'` is `d` with the part of speech and lemma of its tokens changed. -/
structure Retagged (d d' : Document) : Prop where
  text : d'.text = d.text
  sentences : d'.sentences = d.sentences
  tokens : List.Forall₂ SameButMorph d.tokens d'.tokens

/-- The label predicted for a word can be interpreted: one class per part of the tag, a known lemma,
a known rule, known characters. -/
def WordInterp.InRange : WordInterp → List Int → Prop
  | .pos _ t, ids =>
    List.Forall₂ (fun (i : Int) (l : List TagPart) => 0 ≤ i ∧ i < l.length) ids t.id2parts
  | .lemmaDict _ lemmas, ids => ∃ i rest, ids = i :: rest ∧ 0 ≤ i ∧ i < lemmas.length
  | .lemmaRule _ rules, ids => ∃ i rest, ids = i :: rest ∧ 0 ≤ i ∧ i < rules.length
  | .lemmaChars _ chars, ids =>
    ∀ i ∈ ids, i = PADDING ∨ i = OOV ∨ i = START ∨ i = END ∨ (chars.get? i).isSome

/-- The tag table came from training labels. -/
def WordInterp.Trained : WordInterp → Prop
  | .pos _ t => ∃ s labels, buildPosTable s labels = .ok t
  | _ => True

/-- Whether an interpreter sets the tag (and not the lemma). -/
def WordInterp.tagsPos : WordInterp → Bool
  | .pos _ _ => true
  | _ => false

/-- `i` is the last interpreter of its kind: the one that decides about the tag or the lemma. -/
def Decides (is : List WordInterp) (i : WordInterp) : Prop :=
  ∃ pre post, is = pre ++ i :: post ∧ ∀ x ∈ post, x.tagsPos ≠ i.tagsPos

/-- The `j`-th word `t` of a sentence became `u`: its tag and its lemma are what the interpreters
that decide about them make of the labels predicted for this word; without such an interpreter they
are unchanged. -/
def InterpretedAs (lower : Str → Str) (is : List WordInterp) (labels : Dict Str (List (List Int)))
    (j : Nat) (t : TextToken) (u : Token) : Prop :=
  (∀ i, Decides is i → ∃ rows ids w, labels.get? i.name = some rows ∧ rows[j]? = some ids ∧
    i.apply lower t ids = .ok w ∧ (i.tagsPos = true → u.pos = w.pos) ∧
    (i.tagsPos = false → u.lemma' = w.lemma')) ∧
  ((∀ i ∈ is, i.tagsPos = false) → u.pos = t.2.pos) ∧
  ((∀ i ∈ is, i.tagsPos = true) → u.lemma' = t.2.lemma')

/-- The array of integers `ids`. -/
def intArray (ids : List Int) : Feat := .list (ids.map Feat.int)

/-- What the network returned for a single sentence of `n` words: for every label an array with one
row, which has one entry per word. -/
def PredictionFor (n : Nat) (labels : Dict Str (List (List Int)))
    (pred : Dict Str (List Feat)) : Prop :=
  pred.keys = labels.keys ∧ labels.keys ≠ [] ∧
  ∀ k rows, labels.get? k = some rows →
    rows.length = n ∧ pred.get? k = some [.list (rows.map intArray)]

/-- A processor without failures in `__enter__` and `__exit__`. -/
def Proc.Sound (p : Proc) : Prop := p.enterErr = none ∧ p.exitErr = none

/-- Documents `a` become `c` when they pass through the processors one after the other, the first
one first. -/
inductive Flows : List Proc → List Document → List Document → Prop
  | done (a : List Document) : Flows [] a a
  | step {p : Proc} {ps : List Proc} {a b c : List Document} :
      p.process a = .ok b → Flows ps b c → Flows (p :: ps) a c

end Verif
