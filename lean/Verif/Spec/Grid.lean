import Verif.Model.Grid

/-! # Specification vocabulary for grid search -/

namespace Verif

/-- The value is a dictionary. -/
def Json.IsObj : Json → Prop
  | .atom _ => False
  | .obj _ => True

/-- Keys occur once in every dictionary of the value. -/
inductive Json.WF : Json → Prop
  | atom (s : Str) : Json.WF (.atom s)
  | obj {l : List (Str × Json)} : (l.map Prod.fst).Nodup → (∀ e ∈ l, Json.WF e.2) → Json.WF (.obj l)

/-- The value is nested at most `n` levels deep. -/
def Fits : Nat → Json → Prop
  | _, .atom _ => True
  | 0, .obj _ => False
  | n + 1, .obj l => ∀ e ∈ l, Fits n e.2

/-- `c` is `a` overridden by `b`: it has the keys of `a` (in the same order), which include those of `b`;
keys that `b` does not have keep their values; where both have a dictionary, the first is overridden by the
second; otherwise the value of `b` replaces that of `a`. -/
inductive Overrides : List (Str × Json) → List (Str × Json) → List (Str × Json) → Prop
  | mk {a b c : List (Str × Json)} :
      c.map Prod.fst = a.map Prod.fst →
      (∀ k, k ∈ b.map Prod.fst → k ∈ a.map Prod.fst) →
      (∀ k, k ∉ b.map Prod.fst → assocGet k c = assocGet k a) →
      (∀ k v w, assocGet k a = some v → assocGet k b = some w → ¬ (v.IsObj ∧ w.IsObj) → assocGet k c = some w) →
      (∀ k x y, assocGet k a = some (.obj x) → assocGet k b = some (.obj y) → ∃ z, assocGet k c = some (.obj z)) →
      (∀ k x y z, assocGet k a = some (.obj x) → assocGet k b = some (.obj y) → assocGet k c = some (.obj z) →
        Overrides x y z) →
      Overrides a b c

/-- `b` names a key that `a` does not have, at the top or in a dictionary that both have. -/
inductive Missing : List (Str × Json) → List (Str × Json) → Prop
  | key {a b : List (Str × Json)} {k : Str} : k ∈ b.map Prod.fst → k ∉ a.map Prod.fst → Missing a b
  | sub {a b x y : List (Str × Json)} {k : Str} : assocGet k a = some (.obj x) → assocGet k b = some (.obj y) →
      Missing x y → Missing a b

/-- Wherever `b` has a dictionary as value of a key, `a` has one, too. -/
inductive DictsMeet : List (Str × Json) → List (Str × Json) → Prop
  | mk {a b : List (Str × Json)} :
      (∀ k v y, assocGet k a = some v → assocGet k b = some (.obj y) → v.IsObj) →
      (∀ k x y, assocGet k a = some (.obj x) → assocGet k b = some (.obj y) → DictsMeet x y) → DictsMeet a b

/-- `c` is `a` overridden by the dictionaries of a list, one after the other. -/
inductive OverridesAll : List (Str × Json) → List (List (Str × Json)) → List (Str × Json) → Prop
  | nil (a : List (Str × Json)) : OverridesAll a [] a
  | cons {a b c d : List (Str × Json)} {bs : List (List (Str × Json))} :
      Overrides a b c → OverridesAll c bs d → OverridesAll a (b :: bs) d

/-- Overriding one after the other meets a key that is missing. -/
inductive MissingAll : List (Str × Json) → List (List (Str × Json)) → Prop
  | here {a b : List (Str × Json)} {bs : List (List (Str × Json))} : Missing a b → MissingAll a (b :: bs)
  | later {a b c : List (Str × Json)} {bs : List (List (Str × Json))} :
      Overrides a b c → MissingAll c bs → MissingAll a (b :: bs)

/-- Overriding one after the other never puts a dictionary in place of another value. -/
inductive DictsMeetAll : List (Str × Json) → List (List (Str × Json)) → Prop
  | nil (a : List (Str × Json)) : DictsMeetAll a []
  | cons {a b : List (Str × Json)} {bs : List (List (Str × Json))} : DictsMeet a b →
      (∀ c, Overrides a b c → DictsMeetAll c bs) → DictsMeetAll a (b :: bs)

/-- Wherever both dictionaries have a key, either both values are dictionaries (of the same shape in this
sense) or none is. -/
inductive SameShape : List (Str × Json) → List (Str × Json) → Prop
  | mk {a b : List (Str × Json)} :
      (∀ k v w, assocGet k a = some v → assocGet k b = some w → (v.IsObj ↔ w.IsObj)) →
      (∀ k x y, assocGet k a = some (.obj x) → assocGet k b = some (.obj y) → SameShape x y) → SameShape a b

/-- The number written with the digits `is` in the mixed radix `ns`, the last digit being the lowest. -/
def mixedRadix : List Nat → List Nat → Nat
  | i :: is, _ :: ns => i * ns.prod + mixedRadix is ns
  | _, _ => 0

/-- Two dictionaries loaded from JSON are merged with `__merge_dicts`; the two afterwards. -/
def loadAndMerge (depth : Nat) (a b : List (Str × Json)) : Res (Json × Json) :=
  match (Json.obj a).alloc [] with
  | (va, h) =>
    match (Json.obj b).alloc h with
    | (vb, h) =>
      match mergeOne depth va h vb with
      | .error e => .error e
      | .ok h =>
        match readBack depth h va, readBack depth h vb with
        | .ok ja, .ok jb => .ok (ja, jb)
        | .error e, _ => .error e
        | _, .error e => .error e

/-- The setting that the first entry of the dictionary leads to: the keys on the way. -/
inductive FirstSetting : List (Str × Json) → List Str → Prop
  | leaf (k s : Str) (l : List (Str × Json)) : FirstSetting ((k, .atom s) :: l) [k]
  | sub {x : List (Str × Json)} {p : List Str} (k : Str) (l : List (Str × Json)) : FirstSetting x p →
      FirstSetting ((k, .obj x) :: l) (k :: p)

/-- The first entry of the dictionary, of the dictionary that is its value, and so on, ends in an empty
dictionary. -/
inductive NoSetting : List (Str × Json) → Prop
  | nil : NoSetting []
  | sub {x : List (Str × Json)} (k : Str) (l : List (Str × Json)) : NoSetting x → NoSetting ((k, .obj x) :: l)

/-- Both dictionaries lead to the same first setting, or both to none. -/
def SameSetting (a b : List (Str × Json)) : Prop :=
  (∃ p, FirstSetting a p ∧ FirstSetting b p) ∨ (NoSetting a ∧ NoSetting b)

/-- The dictionary gives a value (that is not a dictionary) to the setting with this path. -/
inductive Sets : List (Str × Json) → List Str → Prop
  | leaf {l : List (Str × Json)} {k s : Str} : assocGet k l = some (.atom s) → Sets l [k]
  | sub {l x : List (Str × Json)} {k : Str} {p : List Str} : assocGet k l = some (.obj x) → Sets x p → Sets l (k :: p)

end Verif
