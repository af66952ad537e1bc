import Verif.Model.Evaluation
import Mathlib.Data.List.Forall2
import Mathlib.Algebra.BigOperators.Group.List.Basic

/-! # What shuffling, minibatches and learning rates should be -/

namespace Verif

/-- `r` lists the elements of `l` in another order; each is moved by less than `B` positions.
`L[i]` is the old position of the element now at position `i`. -/
def MovedLessThan {α : Type} (B : Nat) (l r : List α) : Prop :=
  ∃ L : List Nat, L.Perm (List.range l.length) ∧ r.map some = L.map (fun j => l[j]?) ∧
    ∀ i j : Nat, L[i]? = some j → i < j + B ∧ j < i + B

/-- Sizes a batch may have when at most `B` documents are shuffled together: more than half of `B`,
except for the last. -/
def BatchSizes {α : Type} (B : Nat) (bs : List (List α)) : Prop :=
  (∀ b ∈ bs, 0 < b.length ∧ b.length ≤ B) ∧ ∀ b ∈ bs.dropLast, B / 2 + 1 ≤ b.length

/-- `batches` cut `sents` into consecutive pieces of `n` elements, the last of which may be
shorter but not empty. -/
def Chunks {α : Type} (n : Nat) (sents : List α) (batches : List (List α)) : Prop :=
  batches.flatten = sents ∧ (∀ b ∈ batches, 0 < b.length ∧ b.length ≤ n) ∧
    ∀ b ∈ batches.dropLast, b.length = n

/-- Training on the batches one after the other, starting with parameters `m`, gives the losses and
the final parameters. -/
inductive TrainedOn {μ σ : Type} (train : μ → List σ → Rat → Res (μ × Rat)) (lr : Rat) :
    μ → List (List σ) → List Rat → μ → Prop
  | nil (m : μ) : TrainedOn train lr m [] [] m
  | cons {m m1 m2 : μ} {b : List σ} {bs : List (List σ)} {l : Rat} {ls : List Rat} :
      train m b lr = .ok (m1, l) → TrainedOn train lr m1 bs ls m2 →
      TrainedOn train lr m (b :: bs) (l :: ls) m2

/-- The accuracy `k ≥ 1` epochs before epoch `m`; zero before the first epoch. -/
def accBefore (accs : List Rat) (m k : Nat) : Rat :=
  if k ≤ m then (accs[m - k]?).getD 0 else 0

/-- Epoch `m` is no better than the epoch before and no better than the last five on average. -/
def NoProgress (accs : List Rat) (m : Nat) : Prop :=
  ∃ acc, accs[m]? = some acc ∧ acc ≤ accBefore accs m 1 ∧
    acc ≤ (accBefore accs m 5 + accBefore accs m 4 + accBefore accs m 3 + accBefore accs m 2 +
      accBefore accs m 1) / 5

instance (accs : List Rat) (m : Nat) : Decidable (NoProgress accs m) :=
  match h : accs[m]? with
  | none => isFalse (fun ⟨_, h1, _⟩ => by rw [h] at h1; cases h1)
  | some acc =>
    if h2 : acc ≤ accBefore accs m 1 ∧
        acc ≤ (accBefore accs m 5 + accBefore accs m 4 + accBefore accs m 3 + accBefore accs m 2 +
          accBefore accs m 1) / 5 then
      isTrue ⟨acc, h, h2⟩
    else
      isFalse (fun ⟨a, h1, h3⟩ => by rw [h] at h1; injection h1 with h1; exact h2 (h1 ▸ h3))

/-- The accuracy that an epoch is judged by: the sum of the aligned accuracies of all metrics of the evaluation
on the dev set, metrics that have none counting 0. -/
def devAccuracy (scores : Dict Str Score) : Rat :=
  (scores.entries.map (fun e => e.2.aligned.getD 0)).sum

/-- How many of the first `n` epochs made no progress. -/
def stalls (accs : List Rat) (n : Nat) : Nat := (List.range n).countP (fun m => NoProgress accs m)

/-- The decay accumulated by epoch `n`: the product of `1 + decay * e` over the epochs `e < n`. -/
def decayProduct (decay : Rat) (n : Nat) : Rat :=
  ((List.range n).map (fun e => 1 + decay * (e : Rat))).prod

end Verif
