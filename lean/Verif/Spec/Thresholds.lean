import Verif.Spec.Extractors

/-!
# Larger vocabularies
-/

namespace Verif

/-- The vocabulary `d` knows everything `d'` knows, and numbers it in the same order; nothing gets a smaller number. -/
structure Extends (d d' : Dict Str Int) : Prop where
  known : ∀ w i', d'.get? w = some i' → ∃ i, d.get? w = some i ∧ i' ≤ i
  order : ∀ w v i j i' j', d'.get? w = some i' → d'.get? v = some j' → d.get? w = some i → d.get? v = some j →
    (i' < j' ↔ i < j)
  size : d'.entries.length ≤ d.entries.length

end Verif
