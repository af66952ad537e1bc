import Verif.Model.ConlluIO
import Verif.Spec.Datamodel

/-!
# Specification vocabulary for CoNLL-U input and output

A grammar of CoNLL-U text in terms of parsed lines, and what the document for a piece of such text
is.  The grammar does not mention the reader's states.
-/

namespace Verif

/-- A surface unit: an ordinary word, or a multiword token with its words. -/
inductive Item where
  | word (p : PTok)
  | multi (h : PTok) (ws : List PTok)
  deriving DecidableEq

namespace Item

/-- The line that carries the surface form. -/
def surface : Item → PTok
  | word p => p
  | multi h _ => h

/-- The lines that carry the syntactic words. -/
def words : Item → List PTok
  | word p => [p]
  | multi _ ws => ws

/-- The piece of text: the surface form, followed by a space unless `SpaceAfter` is given. -/
def piece (it : Item) : Str := it.surface.text ++ spaceIf it.surface.spaceAfter

end Item

/-- The text of a sequence of surface units. -/
def surfaceText (its : List Item) : Str := its.flatMap Item.piece

/-- The number of syntactic words. -/
def wordCount (its : List Item) : Nat := (its.flatMap Item.words).length

/-- Token `t` carries the annotation of the line `p` and has the given span, number and text. -/
structure TokenOf (start stop sub : Nat) (repl : Option Str) (p : PTok) (t : Token) : Prop where
  start : t.start = start
  stop : t.stop = stop
  sub : t.sub = sub
  repl : t.repl = repl
  pos : t.pos = p.pos
  lemma' : t.lemma' = p.lemma'
  deprel : t.deprel = p.deprel
  headSent : t.headSent = p.head.map (· - 1)
  extras : t.extras = Dict.empty

/-- The tokens of one surface unit starting at text position `off`. -/
def ItemTokens (off : Nat) : Item → List Token → Prop
  | .word p, toks => ∃ t, toks = [t] ∧ TokenOf off (off + p.text.length) 0 none p t
  | .multi h ws, toks => toks.length = ws.length ∧ ∀ (i : Nat) (p : PTok) (t : Token),
      ws[i]? = some p → toks[i]? = some t → TokenOf off (off + h.text.length) i (some p.text) p t

/-- The tokens of a sequence of surface units. -/
def ItemsTokens : Nat → List Item → List Token → Prop
  | _, [], toks => toks = []
  | off, it :: its, toks => ∃ a b, toks = a ++ b ∧ ItemTokens off it a ∧
      ItemsTokens (off + it.piece.length) its b

/-- The sentence boundaries, counted in words from `k`. -/
def Bounds : Nat → List (List Item) → List Sentence → Prop
  | _, [], ss => ss = []
  | k, its :: sents, ss => ∃ s rest, ss = s :: rest ∧ s.start = k ∧ s.stop = k + wordCount its ∧
      Bounds s.stop sents rest

/-- `d` is the document for the given sentences. -/
structure DocOf (sents : List (List Item)) (d : Document) : Prop where
  text : d.text = surfaceText sents.flatten
  tokens : ItemsTokens 0 sents.flatten d.tokens
  bounds : Bounds 0 sents d.sentences

/-- `d` is what the constructor (with validation) returns for the given sentences: their text, their
tokens (with the head in the sentence view only) and their boundaries. -/
def DocRaw (sents : List (List Item)) (d : Document) : Prop :=
  ∃ toks ss, ItemsTokens 0 sents.flatten toks ∧ (∀ t ∈ toks, t.headDoc = none) ∧ Bounds 0 sents ss ∧
    Document.new (surfaceText sents.flatten) toks (some ss) true = .ok d

/-- How the sentences are distributed over documents: full groups, then a non-empty rest. -/
structure Chunked (limit : Nat) (sents : List (List Item)) (chunks : List (List (List Item))) : Prop where
  flatten : chunks.flatten = sents
  size : ∀ c ∈ chunks, c ≠ [] ∧ c.length ≤ limit
  full : ∀ c ∈ chunks.dropLast, c.length = limit

/-- The line `l` is not empty and parses to `p`. -/
def LineOf (cols : Cols) (l : Str) (p : PTok) : Prop :=
  l ≠ [] ∧ parseLine cols (splitOn1 '\t' l) = .ok p

/-- The lines `ls` spell the surface units `its`; lines with a decimal ID (empty nodes) are skipped. -/
inductive ItemLines (cols : Cols) : List Str → List Item → Prop
  | nil : ItemLines cols [] []
  | skip {l : Str} {p : PTok} {id : Str} {ls : List Str} {its : List Item} :
      LineOf cols l p → p.id = some id → '.' ∈ id → ItemLines cols ls its →
      ItemLines cols (l :: ls) its
  | word {l : Str} {p : PTok} {id : Str} {ls : List Str} {its : List Item} :
      LineOf cols l p → p.id = some id → '.' ∉ id → '-' ∉ id → p.text ≠ [] → ItemLines cols ls its →
      ItemLines cols (l :: ls) (.word p :: its)
  | multi {l : Str} {h : PTok} {id a b : Str} {x y : Int} {wl : List Str} {ws : List PTok}
      {ls : List Str} {its : List Item} :
      LineOf cols l h → h.id = some id → '.' ∉ id → splitOn1 '-' id = [a, b] →
      pyInt a = .ok x → pyInt b = .ok y → h.text ≠ [] → ws ≠ [] → y - x + 1 = ws.length →
      List.Forall₂ (LineOf cols) wl ws → ItemLines cols ls its →
      ItemLines cols (l :: (wl ++ ls)) (.multi h ws :: its)

/-- The lines spell the sentences: every sentence has a word and is closed by a blank line. -/
inductive SentLines (cols : Cols) : List Str → List (List Item) → Prop
  | nil {ls : List Str} : ItemLines cols ls [] → SentLines cols ls []
  | cons {ls rest : List Str} {its : List Item} {sents : List (List Item)} :
      ItemLines cols ls its → its ≠ [] → SentLines cols rest sents →
      SentLines cols (ls ++ [] :: rest) (its :: sents)

/-- The lines of a text that are not comments, without line ends. -/
def contentLines (text : Str) : List Str :=
  ((fileLines text).map (stripBy isEol)).filter fun l => l.head? != some '#'

/-! ### Written text -/

/-- The range line of a multiword token whose `n` words have the numbers `k+1, ..., k+n`. -/
def headerRow (text : Str) (k n : Nat) (t : Token) : List Str :=
  [natStr (k + 1) ++ '-' :: natStr (k + n), docText text t, underscore, underscore, underscore,
   underscore, underscore, underscore, underscore,
   if spaceAfter text t then underscore else spaceAfterNo]

/-- `P k t b r`: the row `r` is a line for the word `t` with number `k + 1`; `b` says whether it may
carry the spacing.  The rows of `toks`, one each, numbered from `k + 1`. -/
def WordRows (P : Nat → Token → Bool → List Str → Prop) (k : Nat) (toks : List Token)
    (rows : List (List Str)) : Prop :=
  rows.length = toks.length ∧ ∀ (i : Nat) (t : Token) (r : List Str), toks[i]? = some t → rows[i]? = some r →
    P (k + i) t false r

/-- The rows of the words `toks`, numbered from `k + 1`: one row per word, in order, and one range line
before each maximal group of words that share the span of a multiword token. -/
inductive Block (text : Str) (P : Nat → Token → Bool → List Str → Prop) :
    Nat → List Token → List (List Str) → Prop
  | nil (k : Nat) : Block text P k [] []
  | word {k : Nat} {t : Token} {toks : List Token} {r : List Str} {rs : List (List Str)} :
      t.isMultiword = false → P k t true r → Block text P (k + 1) toks rs →
      Block text P k (t :: toks) (r :: rs)
  | multi {k : Nat} {t : Token} {g toks : List Token} {ws rs : List (List Str)} :
      t.isMultiword = true → (∀ u ∈ g, t.coincides u = true) →
      (∀ u, toks.head? = some u → t.coincides u = false) →
      WordRows P k (t :: g) ws → Block text P (k + (g.length + 1)) toks rs →
      Block text P k (t :: (g ++ toks)) (headerRow text k (g.length + 1) t :: (ws ++ rs))

/-- A block of rows as text: the lines and one blank line. -/
def blockText (rows : List (List Str)) : Str := rows.flatMap formatLine ++ ['\n']

/-- The sentence does not end in a multiword token: no multiword token shares the span of its last
word. -/
def EndsRegular (toks : List Token) : Prop :=
  ∀ u, toks.getLast? = some u → ∀ t ∈ toks, t.isMultiword = true → t.coincides u = false

instance (toks : List Token) : Decidable (EndsRegular toks) :=
  decidable_of_iff (toks.getLast?.all (fun u => toks.all fun t => !t.isMultiword || !t.coincides u) = true) (by
    unfold EndsRegular
    cases toks.getLast? with
    | none => simp
    | some u =>
      simp only [Option.all_some, List.all_eq_true, Bool.or_eq_true, Bool.not_eq_true', Option.some.injEq]
      constructor
      · rintro h _ rfl t ht hm
        rcases h t ht with h | h
        · rw [hm] at h; cases h
        · exact h
      · intro h t ht
        cases hm : t.isMultiword with
        | false => exact .inl rfl
        | true => exact .inr (h u rfl t ht hm))

/-- A line of the output: a row, or the blank line after a sentence. -/
def lineText : Option (List Str) → Str
  | some r => formatLine r
  | none => ['\n']

/-- No tab and no newline. -/
def Plain (s : Str) : Prop := '\t' ∉ s ∧ '\n' ∉ s

instance (s : Str) : Decidable (Plain s) := by unfold Plain; infer_instance

/-- All values of a token that are written contain no tab and no newline. -/
structure TokenPlain (text : Str) (t : Token) : Prop where
  form : Plain (tokText text t)
  surface : Plain (docText text t)
  lemma' : ∀ s, t.lemma' = some s → Plain s
  deprel : ∀ s, t.deprel = some s → Plain s
  upos : ∀ p s, t.pos = some p → p.upos = some s → Plain s
  xpos : ∀ p s, t.pos = some p → p.xpos = some s → Plain s
  feats : ∀ p, t.pos = some p → ∀ e ∈ p.feats.entries, Plain e.1 ∧ Plain e.2

end Verif
