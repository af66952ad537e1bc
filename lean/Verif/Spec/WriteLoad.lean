import Verif.Spec.RoundTrip
import Verif.Spec.UdEval

/-!
# Specification vocabulary for writing documents and loading them for evaluation
-/

namespace Verif

/-- What is written for an optional value. -/
def written (cols : Cols) (c : Nat) (v : Option Str) : Str := if c ∈ cols then v.getD underscore else underscore

/-- The HEAD number written for the word with number `k + 1`: that of its head, 0 for a root; without
annotation (or if HEAD is not written) the previous word, and 0 for the first word. -/
def writtenHead (cols : Cols) (k : Nat) (t : Token) : Int :=
  if colHEAD ∈ cols then match t.headSent with
    | some v => v + 1
    | none => k
  else k

/-- The relation that is written, without its subtype; none without a head. -/
def writtenRelation (cols : Cols) (t : Token) : Str :=
  if colHEAD ∈ cols ∧ t.headSent ≠ none then (written cols colDEPREL t.deprel).takeWhile (· ≠ ':') else underscore

/-- The HEAD numbers of words numbered from `k + 1`. -/
def writtenHeads (cols : Cols) : Nat → List Token → List Int
  | _, [] => []
  | k, t :: ts => writtenHead cols k t :: writtenHeads cols (k + 1) ts

/-- Features as they are written: `a=b|c=d`, sorted. -/
def featsText (d : Dict Str Str) : Str :=
  if d.entries.isEmpty then underscore
  else joinWith '|' (pySorted (· ≤ ·) (d.entries.map fun e => e.1 ++ '=' :: e.2))

/-- `r` is what is loaded for the word `t` with number `k + 1`; `m` says whether it belongs to a multi-word
token.  (Spaces in the form of other words are dropped.) -/
structure LoadedRow (cols : Cols) (text : Str) (m : Bool) (k : Nat) (t : Token) (r : List Str) : Prop where
  length : r.length = 10
  form : colOf r colFORM = if m then tokText text t else noSpaces (tokText text t)
  lemma' : colOf r colLEMMA = written cols colLEMMA t.lemma'
  upos : colOf r colUPOS = written cols colUPOS (t.pos.bind Pos.upos)
  xpos : colOf r colXPOS = written cols colXPOS (t.pos.bind Pos.xpos)
  feats : ∀ p, t.pos = some p → colOf r colFEATS = featsText p.feats
  noFeats : t.pos = none → colOf r colFEATS = underscore
  head : pyInt (colOf r colHEAD) = .ok (writtenHead cols k t)
  deprel : colOf r colDEPREL = writtenRelation cols t

/-- The tokens `us` are loaded for the words `toks`, which are numbered from `k + 1`: one token per word,
except that the words that share the span of a multiword token form one token.  `R m k t r` says that `r`
is a row for the word `t` with number `k + 1`, inside of a multi-word token if `m`. -/
inductive TokensAs (R : Bool → Nat → Token → List Str → Prop) (text : Str) : Nat → List Token → List UdToken → Prop
  | nil (k : Nat) : TokensAs R text k [] []
  | word {k : Nat} {t : Token} {toks : List Token} {r : List Str} {us : List UdToken} :
      t.isMultiword = false → R false k t r → TokensAs R text (k + 1) toks us →
      TokensAs R text k (t :: toks) (⟨noSpaces (docText text t), false, [r]⟩ :: us)
  | multi {k : Nat} {t : Token} {g toks : List Token} {rs : List (List Str)} {us : List UdToken} :
      t.isMultiword = true → (∀ u ∈ g, t.coincides u = true) →
      (∀ u, toks.head? = some u → t.coincides u = false) →
      WordRows (fun k t _ r => R true k t r) k (t :: g) rs →
      TokensAs R text (k + (g.length + 1)) toks us →
      TokensAs R text k (t :: (g ++ toks)) (⟨noSpaces (docText text t), true, rs⟩ :: us)

/-- The tokens `us` are loaded for the written words `toks`. -/
abbrev LoadsAs (cols : Cols) (text : Str) : Nat → List Token → List UdToken → Prop :=
  TokensAs (LoadedRow cols text) text

/-- A document the evaluation can load: no value contains a tab or newline, no form consists of spaces
only, and no sentence but the last ends in a multiword token. -/
structure Loadable (d : Document) : Prop where
  plain : ∀ t ∈ d.tokens, TokenPlain d.text t
  form : ∀ t ∈ d.tokens, noSpaces (docText d.text t) ≠ []
  ends : ∀ s ∈ d.sentences.dropLast, EndsRegular (d.sentenceTokens s)

/-- The sentences of documents, each with the text of its document. -/
def sentencesOf (docs : List Document) : List (Str × List Token) :=
  docs.flatMap fun d => d.sentences.map fun s => (d.text, d.sentenceTokens s)

/-- Documents that can be written with the given columns and evaluated with recursion limit `depth`. -/
structure Scorable (columns : Cols) (depth : Nat) (docs : List Document) : Prop where
  valid : ∀ d ∈ docs, BuiltValid d
  loadable : ∀ d ∈ docs, Loadable d
  heads : ∀ d ∈ docs, ∀ t ∈ d.tokens, ∀ v, t.headSent = some v → -1 ≤ v
  short : ∀ d ∈ docs, ∀ s ∈ d.sentences, s.stop - s.start ≤ depth
  feats : ∀ d ∈ docs, ∀ t ∈ d.tokens, t.pos = none ∨ colFEATS ∈ columns

/-- Two documents that differ in annotations of tokens only. -/
def SameSkeleton (a b : Document) : Prop :=
  a.text = b.text ∧ a.sentences = b.sentences ∧ List.Forall₂ (fun t u : Token => t.start = u.start ∧ t.stop = u.stop ∧
    t.sub = u.sub ∧ t.repl = u.repl) a.tokens b.tokens

/-- The features as they are written. -/
def writtenFeats (t : Token) : Str := match t.pos with
  | some p => featsText p.feats
  | none => underscore

/-- The values that a metric compares. -/
def metricValues (columns : Cols) : List (Str × (Token → List Str)) :=
  [("UPOS".toList, fun t => [written columns colUPOS (t.pos.bind Pos.upos)]),
   ("XPOS".toList, fun t => [written columns colXPOS (t.pos.bind Pos.xpos)]),
   ("Feats".toList, fun t => [writtenFeats t]),
   ("AllTags".toList, fun t => [written columns colUPOS (t.pos.bind Pos.upos),
     written columns colXPOS (t.pos.bind Pos.xpos), writtenFeats t]),
   ("Lemmas".toList, fun t => [written columns colLEMMA t.lemma'])]

/-- The tokens of documents. -/
def allTokens (docs : List Document) : List Token := docs.flatMap Document.tokens

/-- The number of positions at which `f` has the same value for the tokens of both lists. -/
def samePlaces {α : Type} [DecidableEq α] (f : Token → α) (a b : List Token) : Nat :=
  ((a.zip b).filter fun p => f p.1 = f p.2).length

end Verif
