import Verif.Spec.UdJoin

/-!
# Specification vocabulary: evaluating many files, or the blocks of one file, in any order
-/

namespace Verif

/-- A gold file and a system file that can be evaluated: both end with a line end, have no negative HEADs, and the scores
are `m`. -/
structure Evaluated (lower : Str → Str) (d : Nat) (weights : Option (Dict Str Rat)) (b : Str × Str) (g y : UD)
    (m : Metrics) : Prop where
  gold : loadConllu d b.1 = .ok g
  sys : loadConllu d b.2 = .ok y
  goldEnds : b.1 = [] ∨ b.1.getLast? = some '\n'
  sysEnds : b.2 = [] ∨ b.2.getLast? = some '\n'
  goldHeads : HeadsOk g
  sysHeads : HeadsOk y
  scores : evaluate lower g y weights = .ok m

/-- The same tokens, each with at least one word. -/
def TokensAgree (g y : UD) : Prop :=
  g.tokens = y.tokens ∧ (∀ t ∈ g.tokens, ∃ w ∈ g.words, w.span = t) ∧ ∀ t ∈ y.tokens, ∃ w ∈ y.words, w.span = t

/-- No multi-word tokens. -/
def NoMulti (ud : UD) : Prop := ∀ w ∈ ud.words, w.multi = false

/-- The same precision, recall and F1. -/
def SameScore (a b : Score) : Prop := a.precision = b.precision ∧ a.recall = b.recall ∧ a.f1 = b.f1

/-- All gold files behind each other, and all system files. -/
def joined (bs : List (Str × Str)) : Str × Str := ((bs.map Prod.fst).flatten, (bs.map Prod.snd).flatten)

end Verif
