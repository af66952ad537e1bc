import Verif.Model.Grid
import Verif.Model.EvalRun

/-!
# Model of the grid search program, grid_eval.py:62-70

The settings and the trainer are those of Model/EvalRun.lean; the command line and the loading of the
JSON files are in Model/CommandLine.lean.
-/

namespace Verif

/-- grid_eval.py:62-70 `main`: the grid is checked, the parameters are built, the evaluation is run with
`delete_after=True` whatever the command line said.  `depth` bounds the nesting of the files. -/
def gridMain {τ : Type} (depth : Nat) (a : RunArgs Json τ) (grid : List (Str × List (List (Str × Json))))
    (params : List (Str × Json)) (disk : List (List Str)) : Tr (Final Json) :=
  (Tr.lift (checkGrid grid)).bind (fun _ =>
    (Tr.lift (gridParams depth (grid.map fun e => (e.1, e.2.map Json.obj)) (.obj params))).bind (fun ps =>
      ({ a with deleteAfter := true, hyperparams := .inr ps } : RunArgs Json τ).main disk))

end Verif
