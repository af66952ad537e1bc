import Verif.Spec.Tagger
import Verif.Spec.Features

/-! # Vocabulary for what a network is trained on -/

namespace Verif

/-- The value has `n` rows. -/
def HasRows (n : Nat) (v : Feat) : Prop := ∃ rows, v = .list rows ∧ rows.length = n

/-- Row `i` of the value `v` for several sentences is the only row of the value `v'` for one sentence, with padding. -/
structure RowExtends (v : Feat) (i : Nat) (v' : Feat) : Prop where
  one : HasRows 1 v'
  keeps : ∀ p x, v'.at (0 :: p) = some x → x.isList = false → v.at (i :: p) = some x
  padding : ∀ p y, v.at (i :: p) = some y → y.isList = false → v'.at (0 :: p) = none → y = .int PADDING

/-- The first `n` words of row `i`, as a value for one sentence. -/
def rowWords (i n : Nat) : Feat → Option Feat
  | .list rows =>
    match rows[i]? with
    | some (.list ws) => some (.list [.list (ws.take n)])
    | _ => none
  | _ => none

/-- The first `n` words of row `i` of the labels `L` for several sentences are the labels `P` for one sentence. -/
def RowLabels (L : Features) (i n : Nat) (P : Features) : Prop :=
  ∀ k, Option.Rel (fun v v' => rowWords i n v = some v') (L.get? k) (P.get? k)

/-- Row `i` of the features `f` for several sentences are the features `f'` for one sentence, with padding. -/
def RowFeatures (f : Features) (i : Nat) (f' : Features) : Prop :=
  ∀ k, Option.Rel (fun v v' => RowExtends v i v') (f.get? k) (f'.get? k)

/-- Row `i` of training step `b` is sentence `s` of `d`: the sentences of all documents one after the other, `n` per step. -/
def TrainingRow (n : Nat) (docs : List Document) (b i : Nat) (d : Document) (s : Sentence) : Prop :=
  i < n ∧ (docs.flatMap (fun d => d.sentences.map (fun s => (d, s))))[b * n + i]? = some (d, s)

end Verif
