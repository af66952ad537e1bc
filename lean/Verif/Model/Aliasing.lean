import Verif.Py

/-!
# Model of the sharing of mutable objects in /repo/babylondigger/datamodel.py

`Model/Datamodel` represents the dictionaries inside `Pos` and `TokenExtras` by values.  Here they are
objects in a heap which a caller can hold references to and change, so that sharing is visible.

Simplifications: every mutable object is a dictionary with string keys (a list or an object with
attributes is a dictionary from positions or names); everything immutable is an atom.  Class-specific
hooks (`__deepcopy__`, `__copy__`) and the attributes Python cannot hide (`_Pos__feats`) are not
modelled.
-/

namespace Verif

/-- A Python value: an immutable one or a reference to a mutable object. -/
inductive PyVal where
  | atom (n : Nat)
  | ref (r : Nat)
  deriving DecidableEq

abbrev PyObj := Dict Str PyVal

/-- The mutable objects created so far; a reference is a position. -/
abbrev PyHeap := List PyObj

/-- The same value in a copy of the heap that starts at position `n`. -/
def PyVal.moved (n : Nat) : PyVal → PyVal
  | .atom a => .atom a
  | .ref r => .ref (n + r)

def movedObj (n : Nat) (o : PyObj) : PyObj :=
  ⟨o.entries.map (fun p => (p.1, p.2.moved n)), by
    rw [List.map_map]; exact o.nodup⟩

/-- `copy.deepcopy(v)`: a copy of everything `v` reaches, preserving sharing and cycles.  The model
copies all objects; copies of objects `v` does not reach are garbage nobody refers to. -/
def deepcopy (h : PyHeap) (v : PyVal) : PyHeap × PyVal :=
  (h ++ h.map (movedObj h.length), v.moved h.length)

/-- The state of a program using the library: the heap, the private dictionaries of the `TokenExtras`
and `Pos` objects in the order of their creation, and the values the program has got hold of. -/
structure Prog where
  heap : PyHeap
  extras : List Nat
  poses : List Nat
  known : List PyVal

/-- The program's arguments: literals and values it has got hold of. -/
inductive Arg where
  | lit (n : Nat)
  | var (i : Nat)
  deriving DecidableEq

def Prog.arg (w : Prog) : Arg → Res PyVal
  | .lit n => .ok (.atom n)
  | .var i =>
    match w.known[i]? with
    | none => .error .index
    | some v => .ok v

/-- The object a value refers to; using an atom as a dictionary is a `TypeError`. -/
def Prog.obj (w : Prog) : PyVal → Res (Nat × PyObj)
  | .atom _ => .error .type
  | .ref r =>
    match w.heap[r]? with
    | none => .error .index
    | some o => .ok (r, o)

def Prog.items (w : Prog) (l : List (Str × Arg)) : Res (List (Str × PyVal)) :=
  mapM' (fun p => match w.arg p.2 with
    | .error e => .error e
    | .ok v => .ok (p.1, v)) l

/-- What a program can do with dictionaries, extras and part-of-speech values. -/
inductive Op where
  /-- create a dictionary -/
  | create (l : List (Str × Arg))
  /-- change a dictionary in any way: give it new contents -/
  | assign (x : Arg) (l : List (Str × Arg))
  /-- `x[k]` -/
  | read (x : Arg) (k : Str)
  /-- `TokenExtras(x)` -/
  | mkExtras (x : Arg)
  /-- `extras[k]` -/
  | item (e : Nat) (k : Str)
  /-- `extras.as_dict()` -/
  | asDict (e : Nat)
  /-- `extras.update(x)` -/
  | update (e : Nat) (x : Arg)
  /-- `Pos(..., feats=x)` -/
  | mkPos (x : Arg)
  /-- `pos.feats` -/
  | feats (p : Nat)
  /-- `pos.feature(k)` -/
  | feature (p : Nat) (k : Str)

/-- `e`-th extras, resp. `p`-th part of speech: the private dictionary. -/
def Prog.privObj (w : Prog) (l : List Nat) (e : Nat) : Res (Nat × PyObj) :=
  match l[e]? with
  | none => .error .index
  | some r => w.obj (.ref r)

/-- datamodel.py:54-55 `TokenExtras.__init__`. -/
def Prog.newExtras (w : Prog) (v : PyVal) : Res Prog :=
  match w.obj v with
  | .error e => .error e
  | .ok (r, _) =>
    .ok { w with heap := (deepcopy w.heap v).1, extras := w.extras ++ [w.heap.length + r] }

/-- datamodel.py:77-82 `TokenExtras.update`: without updates the object itself is returned (the model
lists it once more); otherwise a shallow copy is updated and handed to the constructor. -/
def Prog.updateExtras (w : Prog) (e : Nat) (v : PyVal) : Res Prog :=
  match w.privObj w.extras e with
  | .error err => .error err
  | .ok (r, o) =>
    match w.obj v with
    | .error err => .error err
    | .ok (_, u) =>
      if u.entries.isEmpty then .ok { w with extras := w.extras ++ [r] }
      else ({ w with heap := w.heap ++ [o.update u] } : Prog).newExtras (.ref w.heap.length)

/-- datamodel.py:9-28 and 53-82: one step of a program. -/
def Prog.exec (w : Prog) : Op → Res Prog
  | .create l =>
    match w.items l with
    | .error e => .error e
    | .ok kvs => .ok { w with heap := w.heap ++ [Dict.ofList kvs], known := w.known ++ [.ref w.heap.length] }
  | .assign x l =>
    match w.arg x with
    | .error e => .error e
    | .ok v =>
      match w.obj v with
      | .error e => .error e
      | .ok (r, _) =>
        match w.items l with
        | .error e => .error e
        | .ok kvs => .ok { w with heap := w.heap.set r (Dict.ofList kvs) }
  | .read x k =>
    match w.arg x with
    | .error e => .error e
    | .ok v =>
      match w.obj v with
      | .error e => .error e
      | .ok (_, o) =>
        match o.getItem k with
        | .error e => .error e
        | .ok y => .ok { w with known := w.known ++ [y] }
  | .mkExtras x =>
    match w.arg x with
    | .error e => .error e
    | .ok v => w.newExtras v
  | .item e k =>
    match w.privObj w.extras e with
    | .error err => .error err
    | .ok (_, o) =>
      match o.getItem k with
      | .error err => .error err
      | .ok y =>
        .ok { w with heap := (deepcopy w.heap y).1, known := w.known ++ [(deepcopy w.heap y).2] }
  | .asDict e =>
    match w.privObj w.extras e with
    | .error err => .error err
    | .ok (r, _) =>
      .ok { w with heap := (deepcopy w.heap (.ref r)).1,
                   known := w.known ++ [(deepcopy w.heap (.ref r)).2] }
  | .update e x =>
    match w.arg x with
    | .error err => .error err
    | .ok v => w.updateExtras e v
  | .mkPos x =>
    match w.arg x with
    | .error e => .error e
    | .ok v =>
      match w.obj v with
      | .error e => .error e
      | .ok (_, o) => .ok { w with heap := w.heap ++ [o], poses := w.poses ++ [w.heap.length] }
  | .feats p =>
    match w.privObj w.poses p with
    | .error e => .error e
    | .ok (_, o) => .ok { w with heap := w.heap ++ [o], known := w.known ++ [.ref w.heap.length] }
  | .feature p k =>
    match w.privObj w.poses p with
    | .error e => .error e
    | .ok (_, o) =>
      match o.get? k with
      | none => .ok { w with known := w.known ++ [.atom 0] }
      | some y => .ok { w with known := w.known ++ [y] }

/-- A program run; a step that raises changes nothing (the program may catch the exception). -/
def Prog.run (w : Prog) : List Op → Prog
  | [] => w
  | op :: ops =>
    match w.exec op with
    | .error _ => w.run ops
    | .ok w' => w'.run ops

/-- The state in which a program starts. -/
def Prog.initial : Prog := ⟨[], [], [], []⟩

end Verif
