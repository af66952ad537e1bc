import Verif.Model.Datamodel

/-!
# Specification vocabulary for the data model

Definitions used in the statements about documents; they do not mention the algorithms of the
model, only its data.
-/

namespace Verif

/-- Token `a` lies before token `b`: it ends where `b` starts or earlier, or both cover the same
span (words of one multiword token) and `a` has the smaller `sub_index`. -/
def Before (a b : Token) : Prop :=
  a.stop ≤ b.start ∨ (a.start = b.start ∧ a.stop = b.stop ∧ a.sub < b.sub)

/-- The sentences `ss` tile the positions `a, ..., n-1`: each starts where the previous one ends. -/
def Tiles : Nat → List Sentence → Nat → Prop
  | a, [], n => a = n
  | a, s :: ss, n => s.start = a ∧ Tiles s.stop ss n

/-- Within a list of words, `b` directly following `a` continues the numbering of a multiword token
or starts a new one at 0. -/
def NumberedAfter (a b : Token) : Prop :=
  b.repl.isSome →
    (a.repl.isSome ∧ a.start = b.start ∧ a.stop = b.stop → b.sub = a.sub + 1) ∧
    (¬ (a.repl.isSome ∧ a.start = b.start ∧ a.stop = b.stop) → b.sub = 0)

/-- Agreement of two tokens on everything but the two head indices. -/
def SameButHeads (a b : Token) : Prop :=
  a.start = b.start ∧ a.stop = b.stop ∧ a.sub = b.sub ∧ a.repl = b.repl ∧ a.pos = b.pos ∧
  a.lemma' = b.lemma' ∧ a.deprel = b.deprel ∧ a.extras = b.extras

/-- The heads of a token of a sentence starting at `k` do not contradict each other: at most one is
given, or one of them says root, or they differ by the sentence start. -/
def HeadsConsistent (k : Nat) (t : Token) : Prop :=
  ∀ s d : Int, t.headSent = some s → t.headDoc = some d → s = -1 ∨ d = -1 ∨ d = s + k

/-- A document some constructor call returned. -/
def Built (d : Document) : Prop :=
  ∃ text tokens sentences validate, Document.new text tokens sentences validate = .ok d

/-- A document some constructor call with `validate_syntax=True` returned. -/
def BuiltValid (d : Document) : Prop :=
  ∃ text tokens sentences, Document.new text tokens sentences true = .ok d

/-- Following `head_sentence_index` from position `i` of the sentence `ts` leads to a root, through
positions of the sentence only. -/
inductive ReachesRoot (ts : List Token) : Nat → Prop
  | root {i : Nat} {t : Token} : ts[i]? = some t → t.isRoot = true → ReachesRoot ts i
  | step {i h : Nat} {t : Token} : ts[i]? = some t → t.isRoot = false →
      t.headSent = some (h : Int) → ReachesRoot ts h → ReachesRoot ts i

/-- A sentence whose heads form one tree: exactly one root, from which every token descends. -/
def IsTree (ts : List Token) : Prop :=
  (∃! i : Nat, ∃ t, ts[i]? = some t ∧ t.isRoot = true) ∧ ∀ i < ts.length, ReachesRoot ts i

/-- A sentence without any syntactic annotation. -/
def Headless (ts : List Token) : Prop := ∀ t ∈ ts, t.headDoc = none ∧ t.headSent = none

/-- The tokens of sentence `s` of document `d`. -/
def Document.sentenceTokens (d : Document) (s : Sentence) : List Token :=
  (d.tokens.drop s.start).take (s.stop - s.start)

/-- Two dictionaries hold the same values under the same keys; insertion order does not matter. -/
def SameMap {K V : Type} [DecidableEq K] (d e : Dict K V) : Prop := ∀ k, d.get? k = e.get? k

/-- Observational equality of part-of-speech values. -/
def SamePos (p q : Pos) : Prop := p.upos = q.upos ∧ p.xpos = q.xpos ∧ SameMap p.feats q.feats

/-- Observational equality of two tokens apart from the head in the sentence view. -/
structure SameButSentHead (a b : Token) : Prop where
  start : a.start = b.start
  stop : a.stop = b.stop
  pos : Option.Rel SamePos a.pos b.pos
  lemma' : a.lemma' = b.lemma'
  deprel : a.deprel = b.deprel
  sub : a.sub = b.sub
  repl : a.repl = b.repl
  headDoc : a.headDoc = b.headDoc
  extras : SameMap a.extras b.extras

/-- The tags of `p` and `q` are comparable up to the first difference: at the first tag in which they
differ neither is `None`. -/
def TagsComparable (p q : Pos) : Prop :=
  (p.upos ≠ q.upos → p.upos.isSome ∧ q.upos.isSome) ∧
  (p.upos = q.upos → p.xpos ≠ q.xpos → p.xpos.isSome ∧ q.xpos.isSome)

end Verif
