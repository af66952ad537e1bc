import Verif.Model.Wrappers
import Verif.Spec.Datamodel
import Verif.Spec.ConlluLine
import Verif.Spec.RoundTrip

/-!
# Specification vocabulary for the wrappers around other parsers
-/

namespace Verif

/-- The token `u` stands at the place of `t` and has the same text and extras. -/
structure SamePlace (t u : Token) : Prop where
  start : u.start = t.start
  stop : u.stop = t.stop
  sub : u.sub = t.sub
  repl : u.repl = t.repl
  extras : u.extras = t.extras

/-- An empty string counts as missing. -/
def clean : Option Str → Option Str
  | some [] => none
  | o => o

/-- The token `u` stands at the place of `t` and is annotated as the UDPipe word `w` says. -/
structure AnnotatedAs (t : Token) (w : UdWord) (u : Token) : Prop where
  place : SamePlace t u
  lemma' : u.lemma' = clean (some w.lemma')
  deprel : u.deprel = clean (some w.deprel)
  head : u.headSent = if w.head < 0 then none else some (w.head - 1)
  noPos : w.upostag = [] → w.xpostag = [] → w.feats = [] → u.pos = none
  pos : (w.upostag ≠ [] ∨ w.xpostag ≠ [] ∨ w.feats ≠ []) → ∃ p, u.pos = some p ∧
    p.upos = clean (some w.upostag) ∧ p.xpos = clean (some w.xpostag) ∧
    Attrs (clean (some w.feats)) p.feats

/-- Lemma and part of speech of `t` and `u` agree if empty strings and empty tags count as missing. -/
structure SameMorphology (t u : Token) : Prop where
  lemma' : u.lemma' = clean t.lemma'
  pos : (u.pos = none ∧ ∀ p, t.pos = some p → clean p.upos = none ∧ clean p.xpos = none ∧ p.feats.keys = []) ∨
    ∃ p q, t.pos = some p ∧ u.pos = some q ∧ q.upos = clean p.upos ∧ q.xpos = clean p.xpos ∧
      SameMap q.feats p.feats

/-- The features can be written as `a=b|c=d`. -/
def FeatsWritable (t : Token) : Prop := ∀ p, t.pos = some p → ∀ e ∈ p.feats.entries, FeatOk e

/-- What the model answers for a sentence can be turned into tokens: one word per token, and every
part of a feature string contains `=`. -/
def UdAnswer (n : Nat) (ws : List UdWord) : Prop :=
  ws.length = n ∧ ∀ w ∈ ws, w.feats ≠ [] → ∃ f, Attrs (some w.feats) f

/-- All sentences of a sequence of documents, in order, each given by its tokens. -/
def allSentences (docs : List Document) : List (List Token) :=
  docs.flatMap (fun d => d.sentences.map d.sentenceTokens)

/-- `p` holds, in whatever order, the predictions for the sentences `n < total`: `cell n k f` for the
field `f` and `extra n k f` for the extra field `f` of word `k < len n`. -/
structure Holds (p : TdPreds) (extraFields : List Str) (total : Nat) (len : Nat → Nat)
    (cell : Nat → Nat → Str → Str) (extra : Nat → Nat → Str → ExtraVal) : Prop where
  indices : p.indices.Perm (List.range total)
  ids : "id".toList ∈ p.fields.keys
  fields : ∀ f rows, p.fields.get? f = some rows → ∀ i n k : Nat, p.indices[i]? = some n → k < len n →
    ∃ row, rows[i]? = some row ∧ row[k + 1]? = some (cell n k f)
  extras : ∀ f ∈ extraFields, ∃ rows, p.extras.get? f = some rows ∧
    ∀ i n k : Nat, p.indices[i]? = some n → k < len n →
      ∃ row, rows[i]? = some row ∧ row[k + 1]? = some (extra n k f)

/-- The ten columns predicted for a word; columns without prediction hold `_`. -/
def predictedRow (p : TdPreds) (cell : Str → Str) : List Str :=
  ["id", "form", "lemma", "upos", "xpos", "ufeats", "dephead", "deprel", "semrel", "misc"].map (fun f =>
    if f.toList ∈ p.fields.keys then cell f.toList else ['_'])

/-- The token `u` stands at the place of `t` and is annotated as the parsed line `w` says; the extra
fields are added to its extras. -/
structure TakenFrom (t : Token) (w : PTok) (extraFields : List Str) (extra : Str → ExtraVal)
    (u : Token) : Prop where
  start : u.start = t.start
  stop : u.stop = t.stop
  sub : u.sub = t.sub
  repl : u.repl = t.repl
  pos : u.pos = w.pos
  lemma' : u.lemma' = w.lemma'
  deprel : u.deprel = w.deprel
  head : u.headSent = w.head.map (fun h => h - 1)
  extras : ∀ k, u.extras.get? k = if k ∈ extraFields then some (extra k) else t.extras.get? k

end Verif
