import Verif.Model.UdEval
import Verif.Model.Extractors

/-!
# Model of the evaluation program, conll17_ud_eval.py:446-516

Formatting of numbers is not modelled: the report holds the numbers that are printed.  `float` is Python's
conversion; it gives a rational number or raises an exception (infinities and not-a-number are not
modelled).
-/

namespace Verif

/-- `not line.strip()`. -/
def isBlank (line : Str) : Bool := line.all isSpace

/-- conll17_ud_eval.py:451-460: one line of the weights file. -/
def weightStep (float : Str → Res Rat) (d : Dict Str Rat) (line : Str) : Res (Dict Str Rat) :=
  if line.head? = some '#' ∨ isBlank line = true then .ok d
  else match splitWs (rstripEol line) with
    | [r, x] =>
      match float x with
      | .error e => .error e
      | .ok v => .ok (d.set r v)
    | _ => .error .value

/-- conll17_ud_eval.py:446-462 `load_deprel_weights`; the lines have their ends. -/
def loadWeights (float : Str → Res Rat) : Option (List Str) → Res (Option (Dict Str Rat))
  | none => .ok none
  | some lines =>
    match forM' (weightStep float) Dict.empty lines with
    | .error e => .error e
    | .ok d => .ok (some d)

/-- The arguments of the program: the texts of the gold file, the system file and the weights file and the
number of `-v` options (conll17_ud_eval.py:479-490). -/
structure EvalArgs where
  gold : Str
  system : Str
  weights : Option Str
  verbose : Nat

/-- conll17_ud_eval.py:468-476 `evaluate_wrapper`. -/
def evaluateWrapper (float : Str → Res Rat) (lower : Str → Str) (depth : Nat) (a : EvalArgs) : Res Metrics :=
  match loadConllu depth a.gold with
  | .error e => .error e
  | .ok g =>
    match loadConllu depth a.system with
    | .error e => .error e
    | .ok s =>
      match loadWeights float (a.weights.map fileLines) with
      | .error e => .error e
      | .ok ws => evaluate lower g s ws

/-- conll17_ud_eval.py:426-442: the scores of an evaluation by their names. -/
def Metrics.byName (m : Metrics) : Dict Str Score :=
  Dict.ofList ([("Tokens".toList, m.tokens), ("Sentences".toList, m.sentences), ("Words".toList, m.words),
    ("UPOS".toList, m.upos), ("XPOS".toList, m.xpos), ("Feats".toList, m.feats),
    ("AllTags".toList, m.allTags), ("Lemmas".toList, m.lemmas), ("UAS".toList, m.uas),
    ("LAS".toList, m.las), ("CLAS".toList, m.clas)] ++
    m.weighted.toList.map (fun s => ("WeightedLAS".toList, s)))

/-- What is printed: one number, or a table of names and percentages. -/
inductive Report where
  | las (f1 : Rat)
  | table (rows : List (Str × Rat × Rat × Rat × Option Rat))
  deriving DecidableEq

/-- conll17_ud_eval.py:509-516: one row. -/
def reportRow (d : Dict Str Score) (name : Str) : Res (Str × Rat × Rat × Rat × Option Rat) :=
  match d.getItem name with
  | .error e => .error e
  | .ok s => .ok (name, 100 * s.precision, 100 * s.recall, 100 * s.f1, s.aligned.map (fun x => 100 * x))

/-- conll17_ud_eval.py:503-505: the names of the rows. -/
def reportNames (weights : Bool) : List Str :=
  ["Tokens".toList, "Sentences".toList, "Words".toList, "UPOS".toList, "XPOS".toList, "Feats".toList,
    "AllTags".toList, "Lemmas".toList, "UAS".toList, "LAS".toList, "CLAS".toList] ++
    (if weights then ["WeightedLAS".toList] else [])

/-- conll17_ud_eval.py:492-516 `main` after the arguments are parsed. -/
def evalMain (float : Str → Res Rat) (lower : Str → Str) (depth : Nat) (a : EvalArgs) : Res Report :=
  match evaluateWrapper float lower depth a with
  | .error e => .error e
  | .ok m =>
    if a.verbose = 0 ∧ a.weights = none then
      match m.byName.getItem "LAS".toList with
      | .error e => .error e
      | .ok s => .ok (.las (100 * s.f1))
    else
      match mapM' (reportRow m.byName) (reportNames a.weights.isSome) with
      | .error e => .error e
      | .ok rows => .ok (.table rows)

end Verif
