import Verif.Model.Evaluation

/-!
# Scores in floating point

In Verif/Model/UdEval.lean and Verif/Model/Evaluation.lean scores are exact rational numbers.  Here every operation is followed by
`rnd`, the rounding of floating point numbers, which stays a parameter.  The sum of Python adds one number after the other (before
3.12; later versions compensate the rounding).
-/

namespace Verif

section
variable (rnd : Rat → Rat)

/-- conll17_ud_eval.py:246-250 `Score.__init__` with numbers of words (integers, which are exact). -/
def flScore (gold sys correct : Nat) (aligned : Option Nat) : Score where
  precision := if sys = 0 then 0 else rnd ((correct : Rat) / sys)
  recall := if gold = 0 then 0 else rnd ((correct : Rat) / gold)
  f1 := if sys + gold = 0 then 0 else rnd ((2 * correct : Nat) / (sys + gold : Nat))
  aligned := aligned.map fun (a : Nat) => if a = 0 then (0 : Rat) else rnd ((correct : Rat) / a)

/-- evaluation.py:206-207: one summand, as `scoreAdd`. -/
def flAdd (metric : Str) (t : ScoreTable) (acc : Rat) (field : Str) : Res Rat :=
  match t.get? field with
  | none => .error .attribute
  | some s =>
    match scoreAttr metric s with
    | .error e => .error e
    | .ok none => .error .type
    | .ok (some v) => .ok (rnd (acc + v))

/-- evaluation.py:206-207 `__sum`, as `scoreSum`. -/
def flSum (fields : List Str) (metric : Str) : Option ScoreTable → Res Rat
  | none => if fields.isEmpty then .ok 0 else .error .attribute
  | some t => forM' (flAdd rnd metric t) 0 fields

/-- evaluation.py:204-212 `score_comparator`, as `scoreBetter`. -/
def flBetter (fields : List Str) (metric : Str) (new old : Option ScoreTable) : Res Bool :=
  match flSum rnd fields metric new with
  | .error e => .error e
  | .ok a =>
    match flSum rnd fields metric old with
    | .error e => .error e
    | .ok b => .ok (decide (b < a))

/-- evaluation.py:235-245: one attribute of one metric, summed up over the seeds and divided by their number. -/
def flMean (vs : List Rat) : Rat := rnd (vs.foldl (fun a v => rnd (a + v)) 0 / vs.length)

end

end Verif
