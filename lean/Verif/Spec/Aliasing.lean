import Verif.Model.Aliasing

/-!
# What a program can see of an object

An object shows its keys, and under each key a value; following keys from value to value visits
everything it reaches.  Cyclic objects are covered because only finite paths are followed.
-/

namespace Verif

/-- What is found at the end of a path. -/
inductive Found where
  | value (n : Nat)
  | keys (ks : List Str)
  deriving DecidableEq

/-- Follow the keys of a path. -/
def view (h : PyHeap) : PyVal → List Str → Option Found
  | .atom n, [] => some (.value n)
  | .atom _, _ :: _ => none
  | .ref r, [] =>
    match h[r]? with
    | none => none
    | some o => some (.keys o.keys)
  | .ref r, k :: p =>
    match h[r]? with
    | none => none
    | some o =>
      match o.get? k with
      | none => none
      | some v => view h v p

/-- A dictionary holding immutable values only, as the features of a part of speech should. -/
def PyObj.Flat (o : PyObj) : Prop := ∀ k v, o.get? k = some v → ∃ n, v = .atom n

/-- The features passed to `Pos` in this step are a dictionary of immutable values. -/
def Prog.FlatFeats (w : Prog) : Op → Prop
  | .mkPos x => ∀ v r o, w.arg x = .ok v → w.obj v = .ok (r, o) → o.Flat
  | _ => True

/-- All features passed to `Pos` in this run are dictionaries of immutable values. -/
def Prog.FlatRun (w : Prog) : List Op → Prop
  | [] => True
  | op :: ops => w.FlatFeats op ∧
    match w.exec op with
    | .error _ => w.FlatRun ops
    | .ok w' => w'.FlatRun ops

/-- A state a program can be in, having passed dictionaries of immutable values to `Pos`. -/
def Prog.Reached (w : Prog) : Prop := ∃ ops, Prog.initial.FlatRun ops ∧ w = Prog.initial.run ops

/-- Asking the `e`-th extras for their contents succeeds and gives something that shows `f`. -/
def Prog.Shows (w : Prog) (e : Nat) (f : List Str → Option Found) : Prop :=
  ∃ w' u, w.exec (.asDict e) = .ok w' ∧ w'.known = w.known ++ [u] ∧ ∀ p, view w'.heap u p = f p

/-- Asking the `i`-th part of speech for its features succeeds and gives something that shows `f`. -/
def Prog.ShowsFeats (w : Prog) (i : Nat) (f : List Str → Option Found) : Prop :=
  ∃ w' u, w.exec (.feats i) = .ok w' ∧ w'.known = w.known ++ [u] ∧ ∀ p, view w'.heap u p = f p

/-- What a dictionary showing `f` shows after it was updated with one showing `g`. -/
def updatedView (f g : List Str → Option Found) : List Str → Option Found
  | [] =>
    match f [], g [] with
    | some (.keys ks), some (.keys us) => some (.keys (ks ++ us.filter (fun k => k ∉ ks)))
    | _, _ => none
  | k :: p => if g [k] = none then f (k :: p) else g (k :: p)

end Verif
