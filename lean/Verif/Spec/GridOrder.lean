import Verif.Spec.Grid

/-! # Vocabulary for claims about the settings of a grid search -/

namespace Verif

/-- The setting with this path has this value in the dictionary. -/
inductive ValueAt : List (Str × Json) → List Str → Str → Prop
  | leaf {l : List (Str × Json)} {k s : Str} : assocGet k l = some (.atom s) → ValueAt l [k] s
  | sub {l x : List (Str × Json)} {k s : Str} {p : List Str} : assocGet k l = some (.obj x) → ValueAt x p s →
      ValueAt l (k :: p) s

/-- Different names of the grid are about different settings. -/
def Separate (grid : List (Str × List (List (Str × Json)))) : Prop :=
  grid.Pairwise fun e e' => ∀ a ∈ e.2, ∀ b ∈ e'.2, ∀ p, Sets a p → ¬ Sets b p

end Verif
