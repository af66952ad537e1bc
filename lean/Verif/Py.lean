import Mathlib.Data.List.Sort
import Mathlib.Data.Char
import Mathlib.Data.List.Lex
import Mathlib.Data.List.Basic
import Mathlib.Tactic.Common

/-!
# The fragment of Python semantics used by the model

Nothing in this file is specific to /repo.
-/

namespace Verif

/-- Python `str`: a sequence of code points.  (Simplification: lone surrogates, which `Char`
excludes, are not represented.)  Comparison is by code point, as in Python. -/
abbrev Str := List Char

/-- Python exception classes that the modelled code can raise.  Messages are dropped.
`unpack` is the `ValueError` of iterable unpacking; `fuel` marks an exhausted loop bound of the
model (never a Python outcome: it is proved unreachable where it matters). -/
inductive Err where
  | assertion | value | index | key | type | attribute | runtime | notImplemented
  | udError | recursion | stopIteration | zeroDivision | fuel
  deriving DecidableEq, Repr

/-- Outcome of a Python call that may raise. -/
abbrev Res (α : Type _) := Except Err α

def Res.isOk {α : Type _} : Res α → Bool
  | .ok _ => true
  | .error _ => false

/-- `l[i]` with Python's negative indices. -/
def pyGet {α : Type _} (l : List α) (i : Int) : Res α :=
  let j := if i < 0 then i + l.length else i
  if j < 0 then .error .index
  else match l[j.toNat]? with
    | some x => .ok x
    | none => .error .index

/-- `l[a:b]` for non-negative `a`, `b`. -/
def slice {α : Type _} (l : List α) (a b : Nat) : List α := (l.drop a).take (b - a)

/-- `sorted(l, key=...)` where `le` compares keys with `<=`: a stable sort. -/
def pySorted {α : Type _} (le : α → α → Prop) [DecidableRel le] (l : List α) : List α :=
  l.insertionSort le

/-- `for x in l: acc = f(acc, x)` where the body may raise. -/
def forM' {σ α : Type _} (f : σ → α → Res σ) : σ → List α → Res σ
  | s, [] => .ok s
  | s, x :: xs =>
    match f s x with
    | .ok s' => forM' f s' xs
    | .error e => .error e

/-- `[f(x) for x in l]` where `f` may raise. -/
def mapM' {α β : Type _} (f : α → Res β) : List α → Res (List β)
  | [] => .ok []
  | x :: xs =>
    match f x with
    | .error e => .error e
    | .ok y =>
      match mapM' f xs with
      | .error e => .error e
      | .ok ys => .ok (y :: ys)

/-! ### Characters and numbers -/

/-- `c.isspace()`: the Unicode white space characters known to Python. -/
def isSpace (c : Char) : Bool :=
  let n := c.toNat
  (9 ≤ n && n ≤ 13) || (28 ≤ n && n ≤ 32) || n == 0x85 || n == 0xa0 || n == 0x1680 ||
  (0x2000 ≤ n && n ≤ 0x200a) || n == 0x2028 || n == 0x2029 || n == 0x202f || n == 0x205f ||
  n == 0x3000

/-- `s.strip(chars)` where `p` recognises the characters to be stripped. -/
def stripBy (p : Char → Bool) (s : Str) : Str :=
  ((s.dropWhile p).reverse.dropWhile p).reverse

def digitVal (c : Char) : Option Nat :=
  if 48 ≤ c.toNat ∧ c.toNat ≤ 57 then some (c.toNat - 48) else none

/-- Decimal digits with single underscores between digits, as accepted by `int`. -/
def parseDigits : Nat → Bool → Str → Option Nat
  | acc, d, [] => if d then some acc else none
  | acc, d, c :: cs =>
    if c = '_' then (if d then parseDigits acc false cs else none)
    else match digitVal c with
      | some v => parseDigits (acc * 10 + v) true cs
      | none => none

/-- An optional sign and digits. -/
def signedDigits (s : Str) : Option Int :=
  if s.head? = some '-' then (parseDigits 0 false s.tail).map (fun n => -(n : Int))
  else if s.head? = some '+' then (parseDigits 0 false s.tail).map (fun n => (n : Int))
  else (parseDigits 0 false s).map (fun n => (n : Int))

/-- `int(s)`.  (Simplification: non-ASCII decimal digits are rejected.) -/
def pyInt (s : Str) : Res Int :=
  match signedDigits (stripBy isSpace s) with
  | some i => .ok i
  | none => .error .value

def digitChar (n : Nat) : Char := Char.ofNat (48 + n % 10)

def natStrAux : Nat → Nat → Str → Str
  | 0, _, acc => acc
  | f + 1, n, acc =>
    if n < 10 then digitChar n :: acc else natStrAux f (n / 10) (digitChar n :: acc)

/-- `str(n)` for a non-negative integer. -/
def natStr (n : Nat) : Str := natStrAux (n + 1) n []

/-- `str(i)` for an integer. -/
def intStr : Int → Str
  | .ofNat n => natStr n
  | .negSucc n => '-' :: natStr (n + 1)

/-- `s.split(sep)` for a one-character separator. -/
def splitOn1 (sep : Char) : Str → List Str
  | [] => [[]]
  | c :: cs =>
    if c = sep then [] :: splitOn1 sep cs
    else match splitOn1 sep cs with
      | [] => [[c]]
      | w :: ws => (c :: w) :: ws

/-- `sep.join(parts)` for a one-character separator. -/
def joinWith (sep : Char) : List Str → Str
  | [] => []
  | [w] => w
  | w :: ws => w ++ sep :: joinWith sep ws

/-! ### Dictionaries -/

/-- Python `dict`: insertion-ordered, one entry per key. -/
structure Dict (K V : Type) where
  entries : List (K × V)
  nodup : (entries.map Prod.fst).Nodup
  deriving DecidableEq

/-- Lookup in an association list. -/
def assocGet {K V : Type} [DecidableEq K] (k : K) : List (K × V) → Option V
  | [] => none
  | (k', v) :: l => if k' = k then some v else assocGet k l

/-- Insertion in an association list: overwrite in place or append. -/
def assocSet {K V : Type} [DecidableEq K] (k : K) (v : V) : List (K × V) → List (K × V)
  | [] => [(k, v)]
  | (k', v') :: l => if k' = k then (k', v) :: l else (k', v') :: assocSet k v l

section
variable {K V : Type} [DecidableEq K]

theorem assocSet_keys (k : K) (v : V) (l : List (K × V)) :
    (assocSet k v l).map Prod.fst =
      if k ∈ l.map Prod.fst then l.map Prod.fst else l.map Prod.fst ++ [k] := by
  induction l with
  | nil => simp [assocSet]
  | cons p l ih =>
    obtain ⟨k', v'⟩ := p
    by_cases h : k' = k
    · simp [assocSet, h]
    · have h' : ¬ k = k' := fun e => h e.symm
      simp only [assocSet, h, if_false, List.map_cons, ih, List.mem_cons, h', false_or]
      split <;> simp

theorem assocSet_nodup (k : K) (v : V) (l : List (K × V)) (h : (l.map Prod.fst).Nodup) :
    ((assocSet k v l).map Prod.fst).Nodup := by
  rw [assocSet_keys]
  split
  · exact h
  · rename_i hk
    rw [List.nodup_append]
    refine ⟨h, by simp, ?_⟩
    intro a ha b hb
    simp at hb
    subst hb
    intro e
    exact hk (e ▸ ha)

def Dict.empty : Dict K V := ⟨[], by simp⟩

/-- `d.get(k)` / `d[k]`. -/
def Dict.get? (d : Dict K V) (k : K) : Option V := assocGet k d.entries

/-- `d[k]`. -/
def Dict.getItem (d : Dict K V) (k : K) : Res V :=
  match d.get? k with
  | some v => .ok v
  | none => .error .key

/-- `d[k] = v`. -/
def Dict.set (d : Dict K V) (k : K) (v : V) : Dict K V :=
  ⟨assocSet k v d.entries, assocSet_nodup k v d.entries d.nodup⟩

/-- `d.keys()`, in insertion order. -/
def Dict.keys (d : Dict K V) : List K := d.entries.map Prod.fst

/-- `d.update(pairs)`. -/
def Dict.updateList (d : Dict K V) (l : List (K × V)) : Dict K V :=
  l.foldl (fun d p => d.set p.1 p.2) d

/-- `d.update(e)`. -/
def Dict.update (d e : Dict K V) : Dict K V := d.updateList e.entries

/-- `dict(pairs)`. -/
def Dict.ofList (l : List (K × V)) : Dict K V := Dict.empty.updateList l

/-- `d == e` for dictionaries: same size and every entry of `d` is in `e`. -/
def Dict.pyEq [DecidableEq V] (d e : Dict K V) : Bool :=
  d.entries.length == e.entries.length && d.entries.all (fun p => e.get? p.1 == some p.2)

end

end Verif
