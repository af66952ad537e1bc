import Verif.Model.WrapperState
import Verif.Spec.Wrappers

/-!
# Specification vocabulary for the objects of the wrappers
-/

namespace Verif

/-- Whether a processor that this was done with has a session: what happened last among entering and exiting
is entering. -/
def sessionOpen (ops : List TdOp) : Bool :=
  match ops.reverse.find? (fun o => match o with | .process _ => false | _ => true) with
  | some (.enter _) => true
  | _ => false

/-- The dictionaries and tensors that can be reached from the outputs of a network by a sequence of keys. -/
inductive Reaches : TfOut → List Str → TfOut → Prop
  | here (o : TfOut) : Reaches o [] o
  | step {entries : List (Str × TfOut)} {key : Str} {path : List Str} {o r : TfOut}
      (h : entries.lookup key = some o) (hr : Reaches o path r) : Reaches (.dict entries) (key :: path) r

/-- The field `name` is asked for with the path `path`: by the caller, or else by a flag that is set. -/
def Requested (flags : List (Bool × Str × List Str)) (extraFields : Option (Dict Str (List Str))) (name : Str)
    (path : List Str) : Prop :=
  (extraFields.getD Dict.empty).get? name = some path ∨
  ((extraFields.getD Dict.empty).get? name = none ∧ (true, name, path) ∈ flags)

/-- A feature string as UDPipe writes it: `a=b|c=d` with different names, in the order of the characters. -/
def CanonFeats (s : Str) : Prop :=
  s = [] ∨ ∃ items : List (Str × Str), items ≠ [] ∧ (∀ e ∈ items, FeatOk e) ∧ (items.map Prod.fst).Nodup ∧
    (items.map (fun e => e.1 ++ '=' :: e.2)).Pairwise (· ≤ ·) ∧
    s = joinWith '|' (items.map (fun e => e.1 ++ '=' :: e.2))

/-- What a tagger does with the words of a sentence: one word per word, with the same form; no head and no
relation is set; features are written properly. -/
def OnlyTags (ws ws' : List UdWord) : Prop :=
  List.Forall₂ (fun w w' => w'.form = w.form ∧ w'.head = -1 ∧ w'.deprel = [] ∧ CanonFeats w'.feats) ws ws'

end Verif
