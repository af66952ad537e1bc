import Verif.Model.UdEval

/-!
# Specification vocabulary for the UD evaluation

A grammar of the files the loader accepts, and what it returns for them.  The grammar does not
mention the loader's state.
-/

namespace Verif

/-! ### Trees given by HEAD numbers -/

/-- From position `i` (counted from 0) the root is reached in `k` steps: HEAD 0 is the root, HEAD `h`
leads to the `h`-th word. -/
inductive Climbs (heads : List Int) : Nat → Nat → Prop
  | root {i : Nat} : heads[i]? = some 0 → Climbs heads 0 i
  | step {i h k : Nat} : heads[i]? = some ((h : Int) + 1) → Climbs heads k h → Climbs heads (k + 1) i

/-- The HEAD numbers of a sentence form a tree: exactly one word has HEAD 0 and it is reached from every
word. -/
def HeadTree (heads : List Int) : Prop :=
  (∃! i : Nat, heads[i]? = some 0) ∧ ∀ i < heads.length, ∃ k, Climbs heads k i

/-- Word `j` is word `i` or an ancestor of it. -/
inductive Above (heads : List Int) : Nat → Nat → Prop
  | refl (i : Nat) : Above heads i i
  | step {i h j : Nat} : heads[i]? = some ((h : Int) + 1) → Above heads h j → Above heads i j

/-- From position `i`, `k` steps lead to the root or to a word that is one of the first `b` words or an
ancestor of one of them. -/
inductive Meets (heads : List Int) (b : Nat) : Nat → Nat → Prop
  | root {i : Nat} : heads[i]? = some 0 → Meets heads b 0 i
  | seen {i j : Nat} : j < b → Above heads j i → Meets heads b 0 i
  | step {i h k : Nat} : heads[i]? = some ((h : Int) + 1) → Meets heads b k h → Meets heads b (k + 1) i

/-- Climbing from each word in turn, fewer than `depth` steps lead to the root or to a word met before. -/
def Shallow (depth : Nat) (heads : List Int) : Prop :=
  ∀ i < heads.length, ∃ k < depth, Meets heads i k i

/-! ### Files -/

/-- A column of a row. -/
abbrev colOf (r : List Str) (c : Nat) : Str := r.getD c []

/-- The row with the subtype removed from DEPREL. -/
def cutDeprel (r : List Str) : List Str := r.modify colDEPREL (fun d => d.takeWhile (· ≠ ':'))

/-- The row with FORM replaced. -/
def withForm (r : List Str) (form : Str) : List Str := r.set colFORM form

/-- `s` without spaces. -/
def noSpaces (s : Str) : Str := s.filter (· ≠ ' ')

/-- A token: its surface form without spaces, whether it is a multi-word token, and the rows of its
words. -/
structure UdToken where
  form : Str
  multi : Bool
  rows : List (List Str)

/-- The rows of the words of a sequence of tokens. -/
def rowsOf (us : List UdToken) : List (List Str) := us.flatMap UdToken.rows

/-- The lines `ls` spell the tokens `us`, where `k` words precede them in the sentence.  Lines have ten
columns.  Lines with a decimal ID (empty nodes) are skipped; a word has its number as ID and a
non-negative HEAD; a range `a-b` is followed by `b - a + 1` lines. -/
inductive UdLines : Nat → List Str → List UdToken → Prop
  | nil (k : Nat) : UdLines k [] []
  | skip {k : Nat} {l : Str} {r : List Str} {ls : List Str} {us : List UdToken} :
      splitOn1 '\t' l = r → r.length = 10 → '.' ∈ colOf r colID → UdLines k ls us →
      UdLines k (l :: ls) us
  | word {k : Nat} {l form : Str} {r : List Str} {h : Int} {ls : List Str} {us : List UdToken} :
      splitOn1 '\t' l = r → r.length = 10 → '.' ∉ colOf r colID → '-' ∉ colOf r colID →
      noSpaces (colOf r colFORM) = form → form ≠ [] → pyInt (colOf r colID) = .ok ((k : Int) + 1) →
      pyInt (colOf r colHEAD) = .ok h → 0 ≤ h → UdLines (k + 1) ls us →
      UdLines k (l :: ls) (⟨form, false, [cutDeprel (withForm r form)]⟩ :: us)
  | multi {k : Nat} {l form a b : Str} {r : List Str} {x y : Int} {wl : List Str}
      {ls : List Str} {us : List UdToken} :
      splitOn1 '\t' l = r → r.length = 10 → '.' ∉ colOf r colID → splitOn1 '-' (colOf r colID) = [a, b] →
      noSpaces (colOf r colFORM) = form → form ≠ [] → pyInt a = .ok x → pyInt b = .ok y →
      wl.length = (y + 1 - x).toNat → (∀ w ∈ wl, (splitOn1 '\t' w).length = 10) →
      UdLines (k + wl.length) ls us →
      UdLines k (l :: (wl ++ ls)) (⟨form, true, wl.map (fun w => cutDeprel (splitOn1 '\t' w))⟩ :: us)

/-- The lines of a file spell the sentences: every sentence may be preceded by comments and is closed
by a blank line; comments may also end the file. -/
inductive UdSents : List Str → List (List UdToken) → Prop
  | nil {cs : List Str} : (∀ l ∈ cs, l.head? = some '#') → UdSents cs []
  | cons {cs body rest : List Str} {us : List UdToken} {sents : List (List UdToken)} :
      (∀ l ∈ cs, l.head? = some '#') → (∀ l, body.head? = some l → l.head? ≠ some '#') →
      UdLines 0 body us → UdSents rest sents →
      UdSents (cs ++ (body ++ [] :: rest)) (us :: sents)

/-- The lines of a text without line ends. -/
def udFileLines (text : Str) : List Str := (fileLines text).map rstripEol

/-- The HEAD numbers of rows. -/
def HeadsOf (rows : List (List Str)) (heads : List Int) : Prop :=
  List.Forall₂ (fun r h => pyInt (colOf r colHEAD) = .ok h) rows heads

/-! ### Loaded treebanks -/

/-- The spans of tokens laid out from position `off` on. -/
def tokSpans : Nat → List UdToken → List Span
  | _, [] => []
  | off, u :: us => ⟨off, off + u.form.length⟩ :: tokSpans (off + u.form.length) us

/-- The words of tokens laid out from position `off` on: the span of the token, whether it is a
multi-word token, and the row. -/
def tokWords : Nat → List UdToken → List (Span × Bool × List Str)
  | _, [] => []
  | off, u :: us => u.rows.map (fun r => (⟨off, off + u.form.length⟩, u.multi, r)) ++
      tokWords (off + u.form.length) us

/-- The number of characters of tokens. -/
def udLength (us : List UdToken) : Nat := (us.flatMap UdToken.form).length

/-- The spans of sentences laid out from position `off` on. -/
def sentSpans : Nat → List (List UdToken) → List Span
  | _, [] => []
  | off, us :: sents => ⟨off, off + udLength us⟩ :: sentSpans (off + udLength us) sents

/-- The parent of a word with the given row in a sentence that is preceded by `o` words.  (Python's
negative indices make a negative HEAD some word of the file.) -/
def LinkOf (o : Nat) (r : List Str) (l : Link) : Prop :=
  ∃ h : Int, pyInt (colOf r colHEAD) = .ok h ∧ (h = 0 → l = .none) ∧
    (0 < h → l = .word (o + (h.toNat - 1))) ∧ (h < 0 → ∃ p, l = .word p)

/-- The parents of the words of the sentences, `o` words preceding them. -/
def LinksOf : Nat → List (List UdToken) → List Link → Prop
  | _, [], ls => ls = []
  | o, us :: sents, ls => ∃ a b, ls = a ++ b ∧ List.Forall₂ (LinkOf o) (rowsOf us) a ∧
      LinksOf (o + (rowsOf us).length) sents b

/-- `ud` is the treebank with the given sentences. -/
structure UdOf (sents : List (List UdToken)) (ud : UD) : Prop where
  characters : ud.characters = sents.flatten.flatMap UdToken.form
  tokens : ud.tokens = tokSpans 0 sents.flatten
  words : ud.words.map (fun w => (w.span, w.multi, w.columns)) = tokWords 0 sents.flatten
  sentences : ud.sentences = sentSpans 0 sents
  links : LinksOf 0 sents (ud.words.map UDWord.parent)
  bound : ∀ w ∈ ud.words, ∀ p, w.parent = .word p → p < ud.words.length

/-- The spans are non-empty and tile the positions `a, ..., n-1`. -/
def SpansTile : Nat → List Span → Nat → Prop
  | a, [], n => a = n
  | a, s :: ss, n => s.start = a ∧ s.start < s.stop ∧ SpansTile s.stop ss n

/-- Word `a` comes before word `b`: they belong to one multi-word token, or `a` ends where `b` starts or
earlier. -/
def WordBefore (a b : UDWord) : Prop :=
  (a.multi = true ∧ b.multi = true ∧ a.span = b.span) ∨ a.span.stop ≤ b.span.start

/-! ### Alignments -/

/-- `l` pairs positions of equal elements of `xs` and `ys`, going up in both lists. -/
def IsMatching {α : Type} (xs ys : List α) (l : List (Nat × Nat)) : Prop :=
  l.Pairwise (fun a b => a.1 < b.1 ∧ a.2 < b.2) ∧ ∀ p ∈ l, ∃ x, xs[p.1]? = some x ∧ ys[p.2]? = some x

/-- A matching with as many pairs as possible. -/
def IsLongest {α : Type} (xs ys : List α) (l : List (Nat × Nat)) : Prop :=
  IsMatching xs ys l ∧ ∀ l', IsMatching xs ys l' → l'.length ≤ l.length

/-- The lower-cased forms of the words at positions `a, ..., b-1`. -/
def lowerForms (lower : Str → Str) (words : List UDWord) (a b : Nat) : List Str :=
  ((words.take b).drop a).map (fun w => lower (colOf w.columns colFORM))

/-- A part of two lists of words, `gs, ..., gi-1` and `ss, ..., si-1`, with the aligned pairs in it. -/
structure Part where
  gs : Nat
  gi : Nat
  ss : Nat
  si : Nat
  pairs : List (Nat × Nat)

/-- The word at position `i`, if there is one, lies beyond the end `e` of a multiword span. -/
def PastEnd (words : List UDWord) (i e : Nat) : Prop :=
  ∀ w, words[i]? = some w → (w.multi = true → e ≤ w.span.start) ∧ (w.multi = false → e < w.span.stop)

/-- Among the words at positions `a, ..., b-1` there is a word of a multi-word token that ends at `e`. -/
def MultiEnds (words : List UDWord) (a b e : Nat) : Prop :=
  ∃ i w, a ≤ i ∧ i < b ∧ words[i]? = some w ∧ w.multi = true ∧ w.span.stop = e

/-- The words at positions `a, ..., b-1` start before `e`, and multi-word tokens among them end there or
earlier. -/
def AllWithin (words : List UDWord) (a b e : Nat) : Prop :=
  ∀ i w, a ≤ i → i < b → words[i]? = some w → w.span.start < e ∧ (w.multi = true → w.span.stop ≤ e)

/-- The part consists of two words outside of multi-word tokens with the same span, which are aligned. -/
def SinglePart (gold sys : List UDWord) (p : Part) : Prop :=
  p.gi = p.gs + 1 ∧ p.si = p.ss + 1 ∧ p.pairs = [(p.gs, p.ss)] ∧
    ∃ g s, gold[p.gs]? = some g ∧ sys[p.ss]? = some s ∧ g.multi = false ∧ s.multi = false ∧ g.span = s.span

/-- The part is a multiword span: it ends at a position `e` where the last of its multi-word tokens ends
and behind which both next words lie, and the aligned pairs are as many as possible with equal
lower-cased forms. -/
def MultiPart (lower : Str → Str) (gold sys : List UDWord) (p : Part) : Prop :=
  p.gs ≤ p.gi ∧ p.gi ≤ gold.length ∧ p.ss ≤ p.si ∧ p.si ≤ sys.length ∧
  (∃ e, (MultiEnds gold p.gs p.gi e ∨ MultiEnds sys p.ss p.si e) ∧
    AllWithin gold p.gs p.gi e ∧ AllWithin sys p.ss p.si e ∧ PastEnd gold p.gi e ∧ PastEnd sys p.si e) ∧
  ∃ l, p.pairs = l.map (fun q => (p.gs + q.1, p.ss + q.2)) ∧
    IsLongest (lowerForms lower gold p.gs p.gi) (lowerForms lower sys p.ss p.si) l

/-- The pairs are those of consecutive parts, and words of multi-word tokens are outside of the parts only
if they come after all words of the other side. -/
structure AlignedBy (lower : Str → Str) (gold sys : List UDWord) (parts : List Part)
    (pairs : List (Nat × Nat)) : Prop where
  each : ∀ p ∈ parts, SinglePart gold sys p ∨ MultiPart lower gold sys p
  ordered : parts.Pairwise (fun p q => p.gi ≤ q.gs ∧ p.si ≤ q.ss)
  pairs : pairs = parts.flatMap Part.pairs
  covered : ∃ G S, (gold.length ≤ G ∨ sys.length ≤ S) ∧
    (∀ i w, i < G → gold[i]? = some w → w.multi = true → ∃ p ∈ parts, p.gs ≤ i ∧ i < p.gi) ∧
    (∀ i w, i < S → sys[i]? = some w → w.multi = true → ∃ p ∈ parts, p.ss ≤ i ∧ i < p.si)

/-! ### Scores -/

/-- All values of a score lie between 0 and 1 and F1 lies between precision and recall. -/
structure ScoreBounded (s : Score) : Prop where
  precision : 0 ≤ s.precision ∧ s.precision ≤ 1
  recall : 0 ≤ s.recall ∧ s.recall ≤ 1
  f1 : min s.precision s.recall ≤ s.f1 ∧ s.f1 ≤ max s.precision s.recall
  aligned : ∀ a, s.aligned = some a → 0 ≤ a ∧ a ≤ 1

/-- `s` is at most `t` in precision, recall and F1. -/
def ScoreLe (s t : Score) : Prop := s.precision ≤ t.precision ∧ s.recall ≤ t.recall ∧ s.f1 ≤ t.f1

/-- `a / b`, and 0 if `b` is 0. -/
def ratio (a b : Rat) : Rat := if b = 0 then 0 else a / b

/-- `s` has the precision, recall, F1 and aligned accuracy for the given totals. -/
structure IsScore (s : Score) (gold sys correct : Rat) (aligned : Option Rat) : Prop where
  precision : s.precision = ratio correct sys
  recall : s.recall = ratio correct gold
  f1 : s.f1 = ratio (2 * correct) (gold + sys)
  aligned : s.aligned = aligned.map (ratio correct)

/-- A perfect score; `al` says whether there is an aligned accuracy. -/
def Perfect (al : Bool) (s : Score) : Prop :=
  s.precision = 1 ∧ s.recall = 1 ∧ s.f1 = 1 ∧ s.aligned = if al then some 1 else none

/-- All scores of an evaluation. -/
def Metrics.scores (m : Metrics) : List Score :=
  [m.tokens, m.sentences, m.words, m.upos, m.xpos, m.feats, m.allTags, m.lemmas, m.uas, m.las, m.clas] ++ m.weighted.toList

/-- The treebank comes from the loader. -/
def Loaded (ud : UD) : Prop := ∃ depth text, loadConllu depth text = .ok ud

/-- The weight of a word in CLAS: relations of function words and punctuation do not count. -/
def clasWeight (w : UDWord) : Rat :=
  if colOf w.columns colDEPREL ∈ ["aux", "case", "cc", "clf", "cop", "det", "mark", "punct"].map String.toList then 0 else 1

/-- The weight of a word by its relation, 1 unless the table says otherwise. -/
def tableWeight (weights : Dict Str Rat) (w : UDWord) : Rat := (weights.get? (colOf w.columns colDEPREL)).getD 1

/-- The two words at the positions of the pair are in relation `P`. -/
def PairSat (gold sys : List UDWord) (P : UDWord → UDWord → Prop) (p : Nat × Nat) : Prop :=
  ∃ g s, gold[p.1]? = some g ∧ sys[p.2]? = some s ∧ P g s

open Classical in
/-- The pairs whose words are in relation `P`. -/
noncomputable def pairsSat (gold sys : List UDWord) (P : UDWord → UDWord → Prop) (pairs : List (Nat × Nat)) :
    List (Nat × Nat) := pairs.filter (fun p => decide (PairSat gold sys P p))

/-- The total weight of the gold words of pairs. -/
def goldWeight (wt : UDWord → Rat) (gold : List UDWord) (pairs : List (Nat × Nat)) : Rat :=
  (pairs.map (fun p => ((gold[p.1]?).map wt).getD 0)).sum

/-- The words agree in the given columns. -/
def ColsAgree (cols : List Nat) (g s : UDWord) : Prop := ∀ c ∈ cols, colOf g.columns c = colOf s.columns c

/-- Both words are roots, or their parents are aligned to each other. -/
def HeadsAgree (pairs : List (Nat × Nat)) (g s : UDWord) : Prop :=
  (g.parent = .none ∧ s.parent = .none) ∨ ∃ a b, g.parent = .word a ∧ s.parent = .word b ∧ (a, b) ∈ pairs

/-- Two words look the same to the alignment. -/
def SameLook (lower : Str → Str) (a b : UDWord) : Prop :=
  a.span = b.span ∧ a.multi = b.multi ∧ lower (colOf a.columns colFORM) = lower (colOf b.columns colFORM)

open Classical in
/-- The number of positions at which the words of the two lists are in relation `P`. -/
noncomputable def agreeing (P : UDWord → UDWord → Prop) (gold sys : List UDWord) : Nat :=
  ((gold.zip sys).filter (fun p => decide (P p.1 p.2))).length

end Verif
