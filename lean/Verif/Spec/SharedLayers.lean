import Verif.Model.SharedLayers

/-!
# Specification vocabulary for the shared part of the network
-/

namespace Verif

/-- How many places to the right of a place a stack of convolutions sees. -/
def reachRight (ks : List ConvKernel) : Nat :=
  (ks.map (fun k => (k.size - 1) * k.dilation - (k.size - 1) * k.dilation / 2)).sum

/-- How many places to the left of a place a stack of convolutions sees. -/
def reachLeft (ks : List ConvKernel) : Nat := (ks.map (fun k => (k.size - 1) * k.dilation / 2)).sum

/-- How many words to the right of a word can be seen by the convolutions over words. -/
def SharedOut.reach : SharedOut → Nat
  | .wordFeatures => 0
  | .bilstm _ => 0
  | .dilated ks => reachRight ks
  | .skipSum inner => inner.reach
  | .skipConcat inner => inner.reach
  | .sentCnn inner _ => inner.reach

/-- Dropout that does nothing. -/
def noDropout : Nat → Rows → Rows := fun _ x => x

/-- Dropout with a probability to keep; `u` gives the random numbers of every layer. -/
def withDropout (keep : Rat) (u : Nat → Nat → Nat → Rat) : Nat → Rows → Rows := fun k x => dropRows keep (u k) x

/-- Random numbers are taken from [0, 1). -/
def UnitRandom (u : Nat → Nat → Nat → Rat) : Prop := ∀ k i j, 0 ≤ u k i j ∧ u k i j < 1

/-- What a softmax is about: positive numbers, one for each number, with sum one. -/
def IsSoftmax (f : List Rat → List Rat) : Prop :=
  ∀ l, l ≠ [] → (f l).length = l.length ∧ (∀ p ∈ f l, 0 < p) ∧ (f l).sum = 1

end Verif
