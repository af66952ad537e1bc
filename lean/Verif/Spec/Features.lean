import Verif.Model.Features

/-! # Vocabulary for the properties of features -/

namespace Verif

/-- The value found by following a path of positions. -/
def Feat.at : Feat → List Nat → Option Feat
  | f, [] => some f
  | .list l, i :: p =>
    match l[i]? with
    | none => none
    | some x => x.at p
  | _, _ :: _ => none

/-- A value occurs at the given nesting depth. -/
def Feat.AtDepth (k : Nat) (f x : Feat) : Prop := ∃ p, p.length = k ∧ f.at p = some x

/-- At every depth there are only lists or only other values. -/
def Feat.Uniform (f : Feat) : Prop :=
  ∀ k x y, f.AtDepth k x → f.AtDepth k y → x.isList = y.isList

/-- The value is a tensor of this shape: all lists at one depth have the same length, and below the
last dimension there are no lists. -/
def Feat.HasShape : List Nat → Feat → Prop
  | [], f => f.isList = false
  | n :: s, f => ∃ l, f = .list l ∧ l.length = n ∧ ∀ x ∈ l, Feat.HasShape s x

/-- Every value of `a` is at its position in `b`. -/
def Feat.Keeps (a b : Feat) : Prop :=
  ∀ p x, a.at p = some x →
    ∃ y, b.at p = some y ∧ (x.isList = false → y = x) ∧ (x.isList = true → y.isList = true)

/-- Whatever `b` has beyond `a` is padding. -/
def Feat.AddsPadding (a b : Feat) : Prop :=
  ∀ p y, b.at p = some y → y.isList = false → a.at p = none → y = .int PADDING

/-- Two features have the same nesting and each leaf of the second satisfies `r` with respect to
that of the first. -/
def Feat.SameShape (r : Feat → Feat → Prop) (a b : Feat) : Prop :=
  ∀ p, (∀ x, a.at p = some x → x.isList = false → ∃ y, b.at p = some y ∧ y.isList = false ∧ r x y) ∧
    (∀ l, a.at p = some (.list l) → ∃ l', b.at p = some (.list l') ∧ l'.length = l.length) ∧
    (a.at p = none → b.at p = none)

/-- Some leaf is not a number. -/
def Feat.HasOther (f : Feat) : Prop := ∃ p a, f.at p = some (.other a)

/-- Two dictionaries have the same entries, in whatever order. -/
def SameDict {V : Type} (d e : Dict Str V) : Prop := ∀ k, d.get? k = e.get? k

/-- No key occurs in two of the dictionaries. -/
def DisjointKeys {V : Type} (ds : List (Dict Str V)) : Prop :=
  ds.Pairwise (fun d e => ∀ k, k ∈ d.keys → k ∉ e.keys)

/-- The wrappers around a leaf builder, outermost first. -/
inductive Wrapper where
  | padding | sparse | iter
  deriving DecidableEq

mutual
/-- The leaf builders below a builder (`none`: an empty one) with the wrappers around them. -/
def Builder.leaves : Builder → List (List Wrapper × Option (Nat × Nat))
  | .padding b => b.leaves.map (fun x => (.padding :: x.1, x.2))
  | .sparse b => b.leaves.map (fun x => (.sparse :: x.1, x.2))
  | .iter b => b.leaves.map (fun x => (.iter :: x.1, x.2))
  | .comp l => Builder.leavesL l
  | .empty => [([], none)]
  | .leaf ty id => [([], some (ty, id))]
def Builder.leavesL : List Builder → List (List Wrapper × Option (Nat × Nat))
  | [] => []
  | b :: bs => b.leaves ++ Builder.leavesL bs
end

mutual
/-- No composite builder without parts. -/
def Builder.WellFormed : Builder → Prop
  | .padding b => b.WellFormed
  | .sparse b => b.WellFormed
  | .iter b => b.WellFormed
  | .comp l => l ≠ [] ∧ Builder.WellFormedL l
  | .empty => True
  | .leaf _ _ => True
def Builder.WellFormedL : List Builder → Prop
  | [] => True
  | b :: bs => b.WellFormed ∧ Builder.WellFormedL bs
end

/-- Whenever the first extractor returns features, the second returns the same features. -/
def Extractor.Refines (s t : Extractor) : Prop :=
  ∀ o D, s o = .ok D → ∃ D', t o = .ok D' ∧ SameDict D D'

end Verif
