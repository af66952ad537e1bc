import Verif.Py
import Mathlib.Data.Rat.Defs
import Mathlib.Algebra.Order.Ring.Rat

/-!
# Model of babylondigger/features/builder.py

Feature values are trees.  Simplification: padding extends lists in place in Python; the model
returns the padded value, which is the same provided no list object occurs twice in one feature
(all extractors build fresh lists).
-/

namespace Verif

/-- A feature value: an integer, a Boolean (which is an `int` for `isinstance`), a value of another
type (opaque), or a list. -/
inductive Feat where
  | int (n : Int)
  | bool (b : Bool)
  | other (a : Nat)
  | list (l : List Feat)
  deriving Repr

/-- builder.py:17 `PADDING`. -/
def PADDING : Int := 0
/-- builder.py:18 `OOV`. -/
def OOV : Int := 1
/-- builder.py:19 `START`. -/
def START : Int := 2
/-- builder.py:20 `END`. -/
def END : Int := 3

/-- Features (labels): feature name to value. -/
abbrev Features := Dict Str Feat

namespace Feat

/-- `isinstance(x, list)`. -/
def isList : Feat → Bool
  | list _ => true
  | _ => false

/-- The elements of a list (nothing for other values). -/
def items : Feat → List Feat
  | list l => l
  | _ => []

mutual
/-- Nesting depth; bounds the recursion of `_pad_sequence`. -/
def depth : Feat → Nat
  | list l => depthL l + 1
  | _ => 0
def depthL : List Feat → Nat
  | [] => 0
  | x :: xs => max (depth x) (depthL xs)
end

end Feat

/-- Cut a list into pieces of the given lengths: the elements of the flattened sequence seen as
elements of the lists they come from. -/
def regroup {α : Type} : List Nat → List α → List (List α)
  | [], _ => []
  | n :: ns, l => l.take n :: regroup ns (l.drop n)

/-- `max(map(len, sequence))`. -/
def maxLen (seq : List Feat) : Nat := (seq.map (fun x => x.items.length)).foldl max 0

/-- builder.py:153-154: the loop extending the elements. -/
def extendAll (n : Nat) (padding : Feat) (elems : List (List Feat)) : List Feat :=
  elems.map (fun l => .list (l ++ List.replicate (n - l.length) padding))

/-- builder.py:141-155 `_pad_sequence`: the returned padding and the padded sequence. -/
def padSequence : Nat → List Feat → Res (Feat × List Feat)
  | 0, _ => .error .fuel
  | fuel + 1, seq =>
    if seq.all (fun x => !x.isList) then .ok (.int PADDING, seq)
    else if !seq.all Feat.isList then .error .value
    else match padSequence fuel (seq.flatMap Feat.items) with
      | .error e => .error e
      | .ok (padding, flat) =>
        .ok (.list (List.replicate (maxLen seq) padding),
          extendAll (maxLen seq) padding (regroup (seq.map (fun x => x.items.length)) flat))

/-- builder.py:136-137: `_pad_sequence(value)` for one feature value; iterating over something that
is not a list is a `TypeError`. -/
def padValue (v : Feat) : Res Feat :=
  match v with
  | .list l =>
    match padSequence (Feat.depthL l + 1) l with
    | .error e => .error e
    | .ok (_, l') => .ok (.list l')
  | _ => .error .type

/-- Apply a function to every value of a dictionary, in place. -/
def mapValues (f : Feat → Res Feat) (d : Features) : Res (List (Str × Feat)) :=
  mapM' (fun p => match f p.2 with
    | .error e => .error e
    | .ok v => .ok (p.1, v)) d.entries

/-- builder.py:134-138 `PaddingFeatureExtractor.get_features`, given the inner features. -/
def padFeatures (d : Features) : Res Features :=
  match mapValues padValue d with
  | .error e => .error e
  | .ok l => .ok (Dict.ofList l)

/-! ### Sparsification -/

mutual
/-- builder.py:186-192 `_sparse_rate_sequence`; `rnd i` is the result of the `i`-th call of
`random.random()`, `k` counts the calls made so far. -/
def sparseRate (rnd : Nat → Rat) (rate : Rat) : Feat → Nat → Res (Feat × Nat)
  | .int n, k => .ok (if rnd k > rate then .int n else .int OOV, k + 1)
  | .bool b, k => .ok (if rnd k > rate then .bool b else .int OOV, k + 1)
  | .other _, _ => .error .notImplemented
  | .list l, k =>
    match sparseRateL rnd rate l k with
    | .error e => .error e
    | .ok (l', k') => .ok (.list l', k')
def sparseRateL (rnd : Nat → Rat) (rate : Rat) : List Feat → Nat → Res (List Feat × Nat)
  | [], k => .ok ([], k)
  | x :: xs, k =>
    match sparseRate rnd rate x k with
    | .error e => .error e
    | .ok (y, k1) =>
      match sparseRateL rnd rate xs k1 with
      | .error e => .error e
      | .ok (ys, k2) => .ok (y :: ys, k2)
end

/-! ### Composite extraction -/

/-- builder.py:257-263 `_merge_dicts`: one step of the loop. -/
def mergeStep {V : Type} (result d : Dict Str V) : Res (Dict Str V) :=
  if d.keys.any (fun k => (result.get? k).isSome) then .error .value
  else .ok (result.update d)

/-- builder.py:257-263 `_merge_dicts`. -/
def mergeDicts {V : Type} (ds : List (Dict Str V)) : Res (Dict Str V) := forM' mergeStep Dict.empty ds

/-! ### Sequences -/

/-- builder.py:296-300 `__append`: one key. -/
def appendKey (result : Dict Str (List Feat)) (p : Str × Feat) : Dict Str (List Feat) :=
  result.set p.1 ((result.get? p.1).getD [] ++ [p.2])

/-- builder.py:296-300 `__append`. -/
def appendFeatures (result : Dict Str (List Feat)) (d : Features) : Dict Str (List Feat) :=
  d.entries.foldl appendKey result

/-- builder.py:295-305 `IterableFeatureExtractor.get_features`, given the features of the
elements. -/
def collect (ds : List Features) : Dict Str (List Feat) := ds.foldl appendFeatures Dict.empty

/-- `zip(*lists)`: as many tuples as the shortest list is long; none for no lists. -/
def zipAll {α : Type} (ls : List (List α)) : List (List α) :=
  match ls with
  | [] => []
  | l :: ls' =>
    (List.range ((ls'.map List.length).foldl min l.length)).map
      (fun i => ls.filterMap (fun l => l[i]?))

/-- builder.py:314 `converted_value`: one dictionary per element. -/
def converted (value : Dict Str (List Feat)) : List Features :=
  (zipAll (value.entries.map Prod.snd)).map (fun t => Dict.ofList (value.keys.zip t))

/-- builder.py:312-315 `IterableInterpreter.interpret` with the element interpreter `f`. -/
def iterInterpret {α β : Type} (f : α → Features → Res β) (objs : List α)
    (value : Dict Str (List Feat)) : Res (List β) :=
  mapM' (fun p => f p.1 p.2) (objs.zip (converted value))

/-- builder.py:239-243 `CompositeInterpreter.interpret`. -/
def compositeInterpret {α : Type} (fs : List (α → Features → Res α)) (obj : α) (value : Features) :
    Res α :=
  forM' (fun r f => f r value) obj fs

/-! ### Builders and their merging -/

/-- Feature extractor builders: the wrappers of builder.py, and all other builders as leaves with
their Python type and an identity. -/
inductive Builder where
  | padding (b : Builder)
  | sparse (b : Builder)
  | iter (b : Builder)
  | comp (l : List Builder)
  | empty
  | leaf (ty id : Nat)

/-- `type(builder)`. -/
inductive Kind where
  | padding | sparse | iter | comp | empty | leaf (ty : Nat)
  deriving DecidableEq

namespace Builder

def kind : Builder → Kind
  | padding _ => .padding
  | sparse _ => .sparse
  | iter _ => .iter
  | comp _ => .comp
  | empty => .empty
  | leaf ty _ => .leaf ty

/-- The wrapped builders. -/
def inner : Builder → List Builder
  | padding b => [b]
  | sparse b => [b]
  | iter b => [b]
  | comp l => l
  | _ => []

mutual
/-- Number of nodes; bounds the recursion of `merge`. -/
def size : Builder → Nat
  | padding b => size b + 1
  | sparse b => size b + 1
  | iter b => size b + 1
  | comp l => sizeL l + 1
  | _ => 1
def sizeL : List Builder → Nat
  | [] => 0
  | b :: bs => size b + sizeL bs
end

end Builder

/-- builder.py:390-392: grouping by type, in order of first occurrence. -/
def groupAdd (groups : List (Kind × List Builder)) (b : Builder) : List (Kind × List Builder) :=
  assocSet b.kind ((assocGet b.kind groups).getD [] ++ [b]) groups

/-- builder.py:390-392 `type2builder`. -/
def groupByKind (bs : List Builder) : List (Kind × List Builder) := bs.foldl groupAdd []

/-- builder.py:403-406 (`t.merge(values)` for at least two builders of one type; what is added to
`result`): the wrappers merge their inner builders (124-127, 167-171, 212-215, 284-288), the empty
builder returns the first one (376-378), other types raise `NotImplementedError` (95-105), which is
caught.  `rec` is the recursive call of `merge`. -/
def mergeSame (rec : List Builder → Res Builder) (k : Kind) (values : List Builder) :
    Res (List Builder) :=
  match k with
  | .padding => (rec (values.flatMap Builder.inner)).map (fun b => [Builder.padding b])
  | .sparse => (rec (values.flatMap Builder.inner)).map (fun b => [Builder.sparse b])
  | .iter => (rec (values.flatMap Builder.inner)).map (fun b => [Builder.iter b])
  | .comp => (rec (values.flatMap Builder.inner)).map (fun b => [b])
  | .empty => .ok (values.take 1)
  | .leaf _ => .ok values

/-- builder.py:397-406: one iteration of the loop; what it adds to `result`. -/
def mergeGroup (rec : List Builder → Res Builder) (skip : Bool) (g : Kind × List Builder) :
    Res (List Builder) :=
  if skip && decide (g.1 = .empty) then .ok []
  else if g.2.length = 1 then .ok g.2
  else mergeSame rec g.1 g.2

/-- builder.py:407-409: the result. -/
def wrapResult : List Builder → Builder
  | [b] => b
  | l => .comp l

/-- builder.py:383-409 `merge`. -/
def mergeFuel : Nat → List Builder → Res Builder
  | 0, _ => .error .fuel
  | fuel + 1, bs =>
    if (groupByKind bs).isEmpty then .error .value
    else match mapM' (mergeGroup (mergeFuel fuel) (decide (1 < (groupByKind bs).length)))
        (groupByKind bs) with
      | .error e => .error e
      | .ok parts => .ok (wrapResult parts.flatten)

/-- builder.py:383-409 `merge`. -/
def mergeBuilders (bs : List Builder) : Res Builder := mergeFuel (Builder.sizeL bs + 1) bs

/-! ### What the built extractors compute -/

/-- An object features are extracted from: it has an identity and can be iterated over. -/
inductive Obj where
  | mk (id : Nat) (items : List Obj)

def Obj.items : Obj → List Obj
  | mk _ l => l

/-- A feature extractor. -/
abbrev Extractor := Obj → Res Features

/-- builder.py:130-138 `PaddingFeatureExtractor`. -/
def padX (x : Extractor) : Extractor := fun o =>
  match x o with
  | .error e => .error e
  | .ok d => padFeatures d

/-- builder.py:174-183 `SparseFeatureExtractor`; `sp` is what sparsification does to a value. -/
def sparseX (sp : Feat → Res Feat) (x : Extractor) : Extractor := fun o =>
  match x o with
  | .error e => .error e
  | .ok d =>
    match mapValues sp d with
    | .error e => .error e
    | .ok l => .ok (Dict.ofList l)

/-- Collected lists as feature values. -/
def listFeatures (d : Dict Str (List Feat)) : Features :=
  Dict.ofList (d.entries.map (fun p => (p.1, Feat.list p.2)))

/-- builder.py:291-305 `IterableFeatureExtractor`. -/
def iterX (x : Extractor) : Extractor := fun o =>
  match mapM' x o.items with
  | .error e => .error e
  | .ok ds => .ok (listFeatures (collect ds))

/-- builder.py:227-232 `CompositeFeatureExtractor`. -/
def compX (xs : List Extractor) : Extractor := fun o =>
  match mapM' (fun x => x o) xs with
  | .error e => .error e
  | .ok ds => mergeDicts ds

/-- builder.py:206-210 `CompositeFeatureExtractorBuilder.build`: a single part is used as it is; no
parts cannot be unpacked (`ValueError`). -/
def compBuild (xs : List Extractor) : Extractor :=
  match xs with
  | [] => fun _ => .error .value
  | [x] => x
  | xs => compX xs

mutual
/-- The extractor a builder builds.  `lf` gives the extractors of the leaf builders; sparsification
is the function `sp` on values (at prediction time, with rate 0, the identity). -/
def Builder.extractor (lf : Nat → Nat → Extractor) (sp : Feat → Res Feat) : Builder → Extractor
  | .padding b => padX (b.extractor lf sp)
  | .sparse b => sparseX sp (b.extractor lf sp)
  | .iter b => iterX (b.extractor lf sp)
  | .comp l => compBuild (Builder.extractorL lf sp l)
  | .empty => fun _ => .ok Dict.empty
  | .leaf ty id => lf ty id
def Builder.extractorL (lf : Nat → Nat → Extractor) (sp : Feat → Res Feat) :
    List Builder → List Extractor
  | [] => []
  | b :: bs => b.extractor lf sp :: Builder.extractorL lf sp bs
end

end Verif
