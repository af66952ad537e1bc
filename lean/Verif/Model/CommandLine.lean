import Verif.Model.GridRun

/-!
# Model of the command lines of the evaluation and grid search programs, evaluation.py:335-357, grid_eval.py:19-25, 62-70

`argparse` (Python 3.7) is modelled for parsers without positional arguments.  Simplifications: the messages and exit codes of
`argparse` are left out, so that asking for help and a mistake are the same, "the program ends"; `--settings=--` is taken as the value
`--`; digits are ASCII digits and a number has no newline behind it.
-/

namespace Verif

/-- The options of the two programs: evaluation.py:337-342, grid_eval.py:21, and the two that `argparse` adds. -/
inductive Opt where
  | shortHelp | help | settings | method | hyperparams | deleteAfter | grid
  deriving DecidableEq

/-- How the options are written: evaluation.py:337-342, grid_eval.py:21. -/
def Opt.name : Opt → Str
  | .shortHelp => "-h".toList
  | .help => "--help".toList
  | .settings => "--settings".toList
  | .method => "--method".toList
  | .hyperparams => "--hyperparams".toList
  | .deleteAfter => "--delete_after".toList
  | .grid => "--grid".toList

/-- The options with a value; evaluation.py:341 `action='store_true'` has none. -/
def Opt.takesValue : Opt → Bool
  | .settings | .method | .hyperparams | .grid => true
  | _ => false

/-- evaluation.py:335-343 `_build_parser`. -/
def evalOpts : List Opt := [.shortHelp, .help, .settings, .method, .hyperparams, .deleteAfter]

/-- grid_eval.py:20-21. -/
def gridOpts : List Opt := evalOpts ++ [.grid]

/-- `argparse`: what an argument is taken for; `explicit` is what stands behind `=` (or behind `-h`). -/
inductive ArgClass where
  | value
  | opt (o : Opt) (explicit : Option Str)
  | unknown
  | ambiguous
  deriving DecidableEq

/-- `argparse`: `^-\d+$|^-\d*\.\d+$`. -/
def looksNegative : Str → Bool
  | '-' :: ds => (!ds.isEmpty && ds.all Char.isDigit) || (match ds.dropWhile Char.isDigit with
    | '.' :: fs => !fs.isEmpty && fs.all Char.isDigit
    | _ => false)
  | _ => false

/-- `split('=', 1)`: what is before the first `=`, and what is behind it if there is one. -/
def splitEq (arg : Str) : Str × Option Str :=
  (arg.takeWhile (· ≠ '='), match arg.dropWhile (· ≠ '=') with
    | [] => none
    | _ :: v => some v)

/-- `argparse._get_option_tuples`: the options an argument can be an abbreviation of. -/
def optionTuples (opts : List Opt) : Str → List (Opt × Option Str)
  | '-' :: '-' :: r => (opts.filter fun o => (splitEq ('-' :: '-' :: r)).1.isPrefixOf o.name).map fun o => (o, (splitEq ('-' :: '-' :: r)).2)
  | '-' :: c :: r => opts.filterMap fun o =>
      if o.name = ['-', c] then some (o, some r) else if ('-' :: c :: r).isPrefixOf o.name then some (o, none) else none
  | _ => []

/-- `argparse._parse_optional`. -/
def classifyArg (opts : List Opt) (arg : Str) : ArgClass :=
  if arg.head? ≠ some '-' then .value
  else match opts.find? (fun o => o.name = arg) with
    | some o => .opt o none
    | none =>
      if arg = ['-'] then .value
      else match (splitEq arg).2.bind fun v => (opts.find? fun o => o.name = (splitEq arg).1).map fun o => (o, v) with
        | some (o, v) => .opt o (some v)
        | none =>
          match optionTuples opts arg with
          | [x] => .opt x.1 x.2
          | _ :: _ :: _ => .ambiguous
          | [] => if looksNegative arg then .value else if ' ' ∈ arg then .value else .unknown

/-- The namespace that `parse_args` returns: evaluation.py:337-342, grid_eval.py:21. -/
structure CliArgs where
  settings : Option Str := none
  method : Option Str := none
  hypers : Option Str := none
  grid : Option Str := none
  deleteAfter : Bool := false
  deriving DecidableEq

/-- `argparse`: a value is stored. -/
def CliArgs.store (ns : CliArgs) (o : Opt) (v : Str) : CliArgs :=
  match o with
  | .settings => { ns with settings := some v }
  | .method => { ns with method := some v }
  | .hyperparams => { ns with hypers := some v }
  | .grid => { ns with grid := some v }
  | _ => ns

/-- `argparse.parse_args` (evaluation.py:347, grid_eval.py:22): `none` if the program ends.  Arguments that belong to no option and
everything from `--` on are not recognized. -/
def parseArgs (opts : List Opt) (ns : CliArgs) : List Str → Option CliArgs
  | [] => some ns
  | [arg] =>
    if arg = "--".toList then none
    else match classifyArg opts arg with
      | .opt o (some v) => if o.takesValue then some (ns.store o v) else none
      | .opt .deleteAfter none => some { ns with deleteAfter := true }
      | _ => none
  | arg :: next :: rest =>
    if arg = "--".toList then none
    else match classifyArg opts arg with
      | .opt o (some v) => if o.takesValue then parseArgs opts (ns.store o v) (next :: rest) else none
      | .opt .deleteAfter none => parseArgs opts { ns with deleteAfter := true } (next :: rest)
      | .opt o none =>
        if o.takesValue then
          if next = "--".toList then none
          else match classifyArg opts next with
            | .value => parseArgs opts (ns.store o next) rest
            | _ => none
        else none
      | _ => none

/-- What the two programs read, as functions of paths (an exception of `open` or `json.load` is an error), and how the settings and the
name of the method become the arguments of a run (Model/Settings.lean, Model/EvalRun.lean). -/
structure ProgramFiles (σ τ : Type) where
  settings : Str → Res σ
  params : Str → Res (Json ⊕ List Json)
  grid : Str → Res (List (Str × List (List (Str × Json))))
  setup : σ → Option Str → RunArgs Json τ

/-- evaluation.py:348, 350, grid_eval.py:23: `open(None)` is a `TypeError`. -/
def openArg {α : Type} (load : Str → Res α) : Option Str → Res α
  | none => .error .type
  | some path => load path

/-- evaluation.py:346-352 `_parse_arguments`, after the parsing. -/
def loadArgs {σ τ : Type} (files : ProgramFiles σ τ) (ns : CliArgs) : Res (RunArgs Json τ) :=
  match openArg files.settings ns.settings with
  | .error e => .error e
  | .ok s =>
    match openArg files.params ns.hypers with
    | .error e => .error e
    | .ok ps => .ok { files.setup s ns.method with deleteAfter := ns.deleteAfter, hyperparams := ps }

/-- evaluation.py:355-357: the evaluation program; `none` if `argparse` ends it. -/
def evalProgram {σ τ : Type} (files : ProgramFiles σ τ) (argv : List Str) (disk : List (List Str)) : Option (Tr (Final Json)) :=
  (parseArgs evalOpts {} argv).map fun ns => (Tr.lift (loadArgs files ns)).bind fun a => a.main disk

/-- grid_eval.py:19-25, 62-70: the grid search program, which parses the command line twice.  Simplification: parameters that are not
a dictionary are refused here. -/
def gridProgram {σ τ : Type} (depth : Nat) (files : ProgramFiles σ τ) (argv : List Str) (disk : List (List Str)) :
    Option (Tr (Final Json)) :=
  (parseArgs gridOpts {} argv).bind fun ns₁ => (parseArgs gridOpts {} argv).map fun ns =>
    (Tr.lift (openArg files.grid ns₁.grid)).bind fun grid =>
      (Tr.lift (loadArgs files ns)).bind fun a =>
        match a.hyperparams with
        | .inl (.obj base) => gridMain depth a grid base disk
        | _ => .lift (.error .type)

end Verif
