import Verif.Spec.EvalRel

/-!
# Specification vocabulary: two files behind each other
-/

namespace Verif

/-- The span `n` characters further on. -/
def Span.shift (n : Nat) (s : Span) : Span := ⟨s.start + n, s.stop + n⟩

/-- The parent if `k` words are put in front. -/
def Link.shift (k : Nat) : Link → Link
  | .word i => .word (i + k)
  | l => l

/-- The word if `n` characters and `k` words are put in front. -/
def UDWord.shift (n k : Nat) (w : UDWord) : UDWord := { w with span := w.span.shift n, parent := w.parent.shift k }

/-- The treebank that consists of the sentences of `a` and then those of `b`. -/
def UD.join (a b : UD) : UD :=
  { characters := a.characters ++ b.characters
    tokens := a.tokens ++ b.tokens.map (Span.shift a.characters.length)
    words := a.words ++ b.words.map (UDWord.shift a.characters.length a.words.length)
    sentences := a.sentences ++ b.sentences.map (Span.shift a.characters.length) }

/-- No word has a negative HEAD. -/
def HeadsOk (ud : UD) : Prop := ∀ w ∈ ud.words, ∀ h, pyInt (colOf w.columns colHEAD) = .ok h → 0 ≤ h

/-- The score `s` counts two evaluations together: there are `c1` correct ones among `g1` gold and `y1` system
units in the first and `c2` among `g2` and `y2` in the second, and `a`, `b` and `s` are the scores of the first,
of the second, and of the sums; `k1` and `k2` are the aligned units of the two. -/
def Pooled (g1 y1 g2 y2 : Rat) (k1 k2 : Option Rat) (a b s : Score) : Prop :=
  ∃ c1 c2 : Rat, 0 ≤ c1 ∧ c1 ≤ g1 ∧ c1 ≤ y1 ∧ 0 ≤ c2 ∧ c2 ≤ g2 ∧ c2 ≤ y2 ∧
    IsScore a g1 y1 c1 k1 ∧ IsScore b g2 y2 c2 k2 ∧
    IsScore s (g1 + g2) (y1 + y2) (c1 + c2) (k1.bind fun x => k2.map fun y => x + y)

/-- The scores `m` count the evaluations of `y1` against `g1` and of `y2` against `g2` together. -/
structure PooledMetrics (weights : Option (Dict Str Rat)) (g1 y1 g2 y2 : UD) (m1 m2 m : Metrics) : Prop where
  tokens : Pooled g1.tokens.length y1.tokens.length g2.tokens.length y2.tokens.length none none m1.tokens m2.tokens m.tokens
  sentences : Pooled g1.sentences.length y1.sentences.length g2.sentences.length y2.sentences.length none none
    m1.sentences m2.sentences m.sentences
  words : ∃ n1 n2 : Nat, n1 ≤ g1.words.length ∧ n1 ≤ y1.words.length ∧ n2 ≤ g2.words.length ∧ n2 ≤ y2.words.length ∧
    IsScore m1.words g1.words.length y1.words.length n1 none ∧ IsScore m2.words g2.words.length y2.words.length n2 none ∧
    IsScore m.words (g1.words.length + g2.words.length) (y1.words.length + y2.words.length) (n1 + n2) none ∧
    ∀ f ∈ [Metrics.upos, Metrics.xpos, Metrics.feats, Metrics.allTags, Metrics.lemmas, Metrics.uas, Metrics.las],
      Pooled g1.words.length y1.words.length g2.words.length y2.words.length (some n1) (some n2) (f m1) (f m2) (f m)
  clas : ∃ k1 k2 : Rat, Pooled (g1.words.map clasWeight).sum (y1.words.map clasWeight).sum (g2.words.map clasWeight).sum
    (y2.words.map clasWeight).sum (some k1) (some k2) m1.clas m2.clas m.clas
  weighted : ∀ ws, weights = some ws → (∀ e ∈ ws.entries, 0 ≤ e.2) → ∃ (a b s : Score) (k1 k2 : Rat),
    m1.weighted = some a ∧ m2.weighted = some b ∧ m.weighted = some s ∧
    Pooled (g1.words.map (tableWeight ws)).sum (y1.words.map (tableWeight ws)).sum (g2.words.map (tableWeight ws)).sum
      (y2.words.map (tableWeight ws)).sum (some k1) (some k2) a b s

/-- `s` lies between `a` and `b` in precision, recall and F1. -/
def ScoreBetween (a b s : Score) : Prop :=
  ∀ f ∈ [Score.precision, Score.recall, Score.f1], min (f a) (f b) ≤ f s ∧ f s ≤ max (f a) (f b)

end Verif
