import Verif.Spec.Wrappers

/-!
# Specification vocabulary: annotation that the graph-based parser does not predict
-/

namespace Verif

/-- The HEAD column that says what token `t` says. -/
def headColumn (t : Token) : Str :=
  match t.headSent with
  | none => "_".toList
  | some v => if v = -1 then "0".toList else intStr (v + 1)

/-- Token `u` lacks all annotation for which `has` knows no column. -/
structure Forgets (has : Str → Prop) (u : Token) : Prop where
  lemma' : ¬ has "lemma".toList → u.lemma' = none
  upos : ¬ has "upos".toList → u.pos.bind Pos.upos = none
  xpos : ¬ has "xpos".toList → u.pos.bind Pos.xpos = none
  feats : ¬ has "ufeats".toList → ∀ q, u.pos = some q → ∀ k, q.feats.get? k = none
  head : ¬ has "dephead".toList → u.headSent = none
  deprel : ¬ has "deprel".toList → u.deprel = none

/-- Token `u` has the annotation of `t` in all columns that `has` knows and in which `cell` says what `t` says. -/
structure Retains (has : Str → Prop) (cell : Str → Str) (t u : Token) : Prop where
  lemma' : has "lemma".toList → cell "lemma".toList = t.lemma'.getD "_".toList → t.lemma' ≠ some "_".toList →
    u.lemma' = t.lemma'
  upos : has "upos".toList → cell "upos".toList = (t.pos.bind Pos.upos).getD "_".toList →
    t.pos.bind Pos.upos ≠ some "_".toList → u.pos.bind Pos.upos = t.pos.bind Pos.upos
  xpos : has "xpos".toList → cell "xpos".toList = (t.pos.bind Pos.xpos).getD "_".toList →
    t.pos.bind Pos.xpos ≠ some "_".toList → u.pos.bind Pos.xpos = t.pos.bind Pos.xpos
  head : has "dephead".toList → cell "dephead".toList = headColumn t → u.headSent = t.headSent
  deprel : has "deprel".toList → cell "deprel".toList = t.deprel.getD "_".toList → t.deprel ≠ some "_".toList →
    u.deprel = t.deprel

end Verif
