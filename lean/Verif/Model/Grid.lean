import Verif.Py

/-!
# Model of evaluation/grid_eval.py

Dictionaries are mutable objects that can be shared, so they live in a heap.  Values that are not
dictionaries (numbers, strings, lists, ...) are atoms: the code never changes them.  Nested calls
deeper than `depth` raise `RecursionError`.
-/

namespace Verif

/-- A JSON value; `atom` stands for everything that is not a dictionary.  The entries of a dictionary
are in insertion order. -/
inductive Json where
  | atom (s : Str)
  | obj (l : List (Str × Json))

/-- A value in the heap: an atom or a reference to a dictionary. -/
inductive HVal where
  | atom (s : Str)
  | ref (a : Nat)
  deriving DecidableEq

/-- The dictionaries by address. -/
abbrev Heap := List (List (Str × HVal))

/-- The dictionary at an address.  (There are no dangling references; an unknown address is reported
as `AttributeError` so that it cannot pass unnoticed.) -/
def Heap.dict (h : Heap) (a : Nat) : Res (List (Str × HVal)) :=
  match h[a]? with
  | some d => .ok d
  | none => .error .attribute

mutual
/-- `json.load` (grid_eval.py:24, and the hyperparameters of evaluation.py): fresh dictionaries. -/
def Json.alloc : Json → Heap → HVal × Heap
  | .atom s, h => (.atom s, h)
  | .obj l, h => (.ref (allocEntries l h).2.length, (allocEntries l h).2 ++ [(allocEntries l h).1])

/-- The entries of a dictionary. -/
def allocEntries : List (Str × Json) → Heap → List (Str × HVal) × Heap
  | [], h => ([], h)
  | (k, v) :: l, h =>
    ((k, (v.alloc h).1) :: (allocEntries l (v.alloc h).2).1, (allocEntries l (v.alloc h).2).2)
end

/-- One entry of a copied dictionary, with the function that copies values. -/
def copyEntry (copy : Heap → HVal → Res (HVal × Heap)) (acc : List (Str × HVal) × Heap)
    (e : Str × HVal) : Res (List (Str × HVal) × Heap) :=
  match copy acc.2 e.2 with
  | .error x => .error x
  | .ok (v, h) => .ok (acc.1 ++ [(e.1, v)], h)

/-- `copy.deepcopy` (grid_eval.py:31) of a value without shared parts. -/
def deepCopy : Nat → Heap → HVal → Res (HVal × Heap)
  | _, h, .atom s => .ok (.atom s, h)
  | 0, _, .ref _ => .error .recursion
  | n + 1, h, .ref a =>
    match h.dict a with
    | .error x => .error x
    | .ok d =>
      match forM' (copyEntry (deepCopy n)) ([], h) d with
      | .error x => .error x
      | .ok (d', h') => .ok (.ref h'.length, h' ++ [d'])

/-- grid_eval.py:8-15, the body of the loop: `hyper` and `grid` are the addresses of the two
dictionaries, `merge` is the recursive call. -/
def mergeIntoKey (merge : Heap → Nat → Nat → Res Heap) (hyper grid : Nat) (h : Heap) (key : Str) :
    Res Heap :=
  match h.dict hyper with
  | .error x => .error x
  | .ok hd =>
    match assocGet key hd with
    | none => .error .value
    | some hv =>
      match h.dict grid with
      | .error x => .error x
      | .ok gd =>
        match assocGet key gd with
        | none => .error .key
        | some gv =>
          match hv, gv with
          | .ref a, .ref b => merge h a b
          | _, _ => .ok (h.set hyper (assocSet key gv hd))

/-- grid_eval.py:7-16 `__merge_dicts`: changes the dictionary `hyper` in place.  The loop never adds or
removes a key, so the keys are those at its start. -/
def mergeInto : Nat → Heap → Nat → Nat → Res Heap
  | 0, _, _, _ => .error .recursion
  | n + 1, h, hyper, grid =>
    match h.dict grid with
    | .error x => .error x
    | .ok gd => forM' (mergeIntoKey (mergeInto n) hyper grid) h (gd.map Prod.fst)

/-- grid_eval.py:32-33: merging one value of a combination. -/
def mergeOne (depth : Nat) (hyper : HVal) (h : Heap) (grid : HVal) : Res Heap :=
  match hyper, grid with
  | .ref a, .ref b => mergeInto depth h a b
  | _, _ => .error .type

/-- grid_eval.py:30-34: one combination. -/
def buildOne (depth : Nat) (params : HVal) (acc : List HVal × Heap) (combination : List HVal) :
    Res (List HVal × Heap) :=
  match deepCopy depth acc.2 params with
  | .error x => .error x
  | .ok (hypers, h) =>
    match forM' (mergeOne depth hypers) h combination with
    | .error x => .error x
    | .ok h' => .ok (acc.1 ++ [hypers], h')

/-- grid_eval.py:28-35 `__build_list_of_new_hyperparams`. -/
def buildList (depth : Nat) (combinations : List (List HVal)) (params : HVal) (h : Heap) :
    Res (List HVal × Heap) :=
  forM' (buildOne depth params) ([], h) combinations

/-- `itertools.product` (grid_eval.py:66): the last list varies fastest. -/
def product {α : Type} : List (List α) → List (List α)
  | [] => [[]]
  | l :: ls => l.flatMap fun x => (product ls).map fun c => x :: c

/-- The values of a grid are loaded one after the other. -/
def allocList : List Json → Heap → List HVal × Heap
  | [], h => ([], h)
  | v :: vs, h => ((v.alloc h).1 :: (allocList vs (v.alloc h).2).1, (allocList vs (v.alloc h).2).2)

/-- The grid: a list of values for each name. -/
def allocGrid : List (List Json) → Heap → List (List HVal) × Heap
  | [], h => ([], h)
  | l :: ls, h =>
    ((allocList l h).1 :: (allocGrid ls (allocList l h).2).1, (allocGrid ls (allocList l h).2).2)

/-- One entry of a dictionary read back, with the function that reads values. -/
def readEntry (read : HVal → Res Json) (e : Str × HVal) : Res (Str × Json) :=
  match read e.2 with
  | .error x => .error x
  | .ok v => .ok (e.1, v)

/-- The JSON value that a heap value stands for. -/
def readBack : Nat → Heap → HVal → Res Json
  | _, _, .atom s => .ok (.atom s)
  | 0, _, .ref _ => .error .recursion
  | n + 1, h, .ref a =>
    match h.dict a with
    | .error x => .error x
    | .ok d =>
      match mapM' (readEntry (readBack n h)) d with
      | .error x => .error x
      | .ok l => .ok (.obj l)

/-- grid_eval.py:62-68, without the check: the parameters that are handed to the evaluation. -/
def gridParams (depth : Nat) (grid : List (Str × List Json)) (params : Json) : Res (List Json) :=
  match buildList depth (product (allocGrid (grid.map Prod.snd) []).1)
      (params.alloc (allocGrid (grid.map Prod.snd) []).2).1
      (params.alloc (allocGrid (grid.map Prod.snd) []).2).2 with
  | .error x => .error x
  | .ok (rs, h) => mapM' (readBack depth h) rs

/-! ### The check -/

mutual
/-- grid_eval.py:38-45 `__take_all_key_path` on a dictionary with the given entries: only the first key
counts; an empty dictionary gives `None`. -/
def keyPath : List (Str × Json) → Option (List Str)
  | [] => none
  | (k, v) :: _ => (valuePath v).map (k :: ·)

/-- The rest of the path behind a key. -/
def valuePath : Json → Option (List Str)
  | .atom _ => some []
  | .obj l => keyPath l
end

/-- The set of paths of the values of one name (a set as a list without repetitions). -/
def pathSet (values : List (List (Str × Json))) : List (Option (List Str)) := (values.map keyPath).dedup

/-- grid_eval.py:51-56: one name. -/
def checkName (big : List (Option (List Str))) (values : List (List (Str × Json))) :
    Res (List (Option (List Str))) :=
  if (pathSet values).length ≠ 1 then .error .value else .ok (big ∪ pathSet values)

/-- grid_eval.py:48-59 `__check_is_grid_valid`. -/
def checkGrid (grid : List (Str × List (List (Str × Json)))) : Res Unit :=
  match forM' checkName [] (grid.map Prod.snd) with
  | .error x => .error x
  | .ok big => if big.length ≠ grid.length then .error .value else .ok ()

end Verif
