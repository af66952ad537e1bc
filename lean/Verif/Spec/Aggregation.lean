import Verif.Spec.SharedLayers
import Mathlib.Algebra.BigOperators.Ring.Finset

/-! # What the layers over subwords and words are said to compute -/

namespace Verif

open Finset

/-- A component of a vector. -/
def comp (v : List Rat) (c : Nat) : Rat := v.getD c 0

/-- A component of a vector of a sequence, zero outside of the sequence. -/
def entry (x : Rows) (i : Int) (c : Nat) : Rat := if 0 ≤ i then comp (x.getD i.toNat []) c else 0

/-- `y` is made of `x`, with vectors of size `n`, by a convolution with zero padding on both sides, and a rectifier. -/
structure IsConv (n : Nat) (k : ConvKernel) (x y : Rows) : Prop where
  length : y.length = x.length
  size : ∀ v ∈ y, v.length = k.count
  value : ∀ i < x.length, ∀ c < k.count, entry y i c = max 0 (∑ j ∈ range k.size, ∑ a ∈ range n,
    k.weight j a c * entry x ((i : Int) + j * k.dilation - ((k.size - 1) * k.dilation / 2 : Nat)) a)

/-- `y` is made of `x` by these convolutions, one after the other. -/
def IsConvs : Nat → List ConvKernel → Rows → Rows → Prop
  | _, [], x, y => y = x
  | n, k :: ks, x, z => ∃ y, IsConv n k x y ∧ IsConvs k.count ks y z

/-- Max pooling: every component is the greatest one in the sequence. -/
def IsMaxOver (n : Nat) (y : Rows) (v : List Rat) : Prop :=
  v.length = n ∧ ∀ c < n, (∃ i < y.length, entry y i c = comp v c) ∧ ∀ i < y.length, entry y i c ≤ comp v c

/-- The state of a recurrent cell after a sequence. -/
def RnnCell.after (c : RnnCell) (x : Rows) : c.State := x.foldl (fun s v => (c.step s v).1) c.init

/-- The output of a recurrent cell for the last vector of a sequence that is not empty. -/
def RnnCell.last (c : RnnCell) (x : Rows) : List Rat :=
  match x.getLast? with
  | some v => (c.step (c.after x.dropLast) v).2
  | none => List.replicate c.size 0

/-- The outputs of a cell are vectors of its size. -/
def RnnCell.Sized (c : RnnCell) : Prop := ∀ s v, (c.step s v).2.length = c.size

/-- README.md:120 "the sum of final states" of both directions. -/
def sumOfFinal (fw bw : RnnCell) (x : Rows) : List Rat := List.zipWith (· + ·) (fw.last x) (bw.last x.reverse)

/-- The scalar product of the vectors with all vectors: how much attention they deserve. -/
def attention (n : Nat) (x : Rows) (i : Nat) : Rat := ∑ c ∈ range n, entry x i c * ∑ k ∈ range x.length, entry x k c

/-- A softmax gives greater numbers greater shares. -/
def GreaterShares (f : List Rat → List Rat) : Prop :=
  ∀ l : List Rat, ∀ i < l.length, ∀ j < l.length, comp l i ≤ comp l j → comp (f l) i ≤ comp (f l) j

/-- The vector of the `i`-th feature of a word of a batch: for features of whole words the one of its id, for subwords
their aggregation, padded to the number of subwords of the longest word. -/
def FeatureVector (batch : List (List WordIds)) (i : Nat) : WordFeat → List Int → List Rat → Prop
  | .word emb dense, ids, v => ∀ id, ids = [id] → v = dense (emb id)
  | .sub agg post, ids, v => ∃ k, v = post (agg (ids ++ List.replicate k PADDING)) ∧
      (∀ s ∈ batch, ∀ w ∈ s, ∀ l, w[i]? = some l → l.length ≤ ids.length + k) ∧
      ∃ s ∈ batch, ∃ w ∈ s, ∃ l, w[i]? = some l ∧ l.length = ids.length + k

end Verif
