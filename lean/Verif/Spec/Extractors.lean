import Verif.Model.Extractors

/-! # Vocabulary for the properties of feature extractors -/

namespace Verif

/-- `==` is an equivalence relation. -/
structure EqRel {α : Type} (eq : α → α → Bool) : Prop where
  refl : ∀ a, eq a a = true
  symm : ∀ a b, eq a b = true → eq b a = true
  trans : ∀ a b c, eq a b = true → eq b c = true → eq a c = true

/-- How often something equal to `x` occurs. -/
def occurrences {α : Type} (eq : α → α → Bool) (x : α) (xs : List α) : Nat := xs.countP (eq x)

/-- No two entries of a list are equal. -/
def Distinct {α : Type} (eq : α → α → Bool) (l : List α) : Prop :=
  l.Pairwise (fun a b => eq a b = false)

/-- All comparisons between elements of the list succeed. -/
def Comparable {α : Type} (lt : α → α → Res Bool) (l : List α) : Prop :=
  ∀ a ∈ l, ∀ b ∈ l, ∃ r, lt a b = .ok r

/-- On the elements of the list the comparison is a strict order in which only equal elements are
unordered. -/
structure OrderedBy {α : Type} (eq : α → α → Bool) (lt : α → α → Res Bool) (l : List α) : Prop where
  trans : ∀ a ∈ l, ∀ b ∈ l, ∀ c ∈ l, lt a b = .ok true → lt b c = .ok true → lt a c = .ok true
  total : ∀ a ∈ l, ∀ b ∈ l, eq a b = false → lt a b = .ok true ∨ lt b a = .ok true

end Verif
