import Verif.Spec.Features
import Verif.Model.Providers

/-! # Vocabulary for what is fed to the network -/

namespace Verif

/-- Every scalar in the value is an index below `n`. -/
def IdsFit (n : Int) (v : Feat) : Prop :=
  ∀ p x, v.at p = some x → x.isList = false → ∃ i, x = .int i ∧ 0 ≤ i ∧ i < n

/-- The value has a vector of `n` flags for every token of every sentence, `PADDING` for tokens added
by padding. -/
def MaskFit (n : Int) (v : Feat) : Prop :=
  ∀ (s w : Nat) x, v.at [s, w] = some x →
    ∃ l, x = .list l ∧ (l.length : Int) = n ∧ ∀ y ∈ l, (∃ b, y = .bool b) ∨ y = .int PADDING

/-- The value has, for every token of every sentence, exactly one label per part, each below the number
of labels of the part. -/
def LabelsFit (parts : List (Str × Nat)) (v : Feat) : Prop :=
  ∀ (s w : Nat) x, v.at [s, w] = some x →
    ∃ ids : List Int, x = .list (ids.map Feat.int) ∧
      List.Forall₂ (fun (i : Int) (p : Str × Nat) => 0 ≤ i ∧ i < p.2) ids parts

/-- Sparsification only replaces values by `OOV`. -/
def OnlySparsifies (sp : Sparsify) : Prop :=
  ∀ o k f f', sp o k f = .ok f' → f.SameShape (fun x y => y = x ∨ y = .int OOV) f'

/-- The provider computes the feature `k`, and its value `v` agrees with the shape announced for it. -/
def FeatureFits (S : Dict Str Shape) (batch : Obj) (k : Str) (v : Feat) : Provider → Prop
  | .sentLength f => k = f ∧ v = .list (batch.items.map (fun s => .int s.items.length))
  | .wordEmb f init _ _ => k = f ∧ ∃ n width, S.get? init = some (.dims [some n, width]) ∧ IdsFit n v
  | .subwordEmb f init _ _ => k = f ∧ ∃ n width, S.get? init = some (.dims [some n, width]) ∧ IdsFit n v
  | .trainable f _ _ => k = f ∧ ∃ n, S.get? f = some (.dims [some n]) ∧ IdsFit n v
  | .subwords f _ _ => k = f ∧ ∃ n, S.get? f = some (.dims [some n]) ∧ IdsFit n v
  | .lemmaRules f _ _ => k = f ∧ ∃ n, S.get? f = some (.dims [some n]) ∧ MaskFit n v
  | _ => False

/-- The handle of an object. -/
def Obj.handle : Obj → Nat
  | .mk id _ => id

/-- The lemma of every token of the batch occurs in the training data. -/
def KnownLemmas (tok : Nat → TextToken) (dataset : List Document) (batch : Obj) : Prop :=
  ∀ s ∈ batch.items, ∀ t ∈ s.items, ∃ t' ∈ datasetTokens dataset,
    t'.2.lemma' = (tok t.handle).2.lemma'

/-- The provider computes the label `k`, and its value `v` agrees with the shape announced for it. -/
def LabelFits (tok : Nat → TextToken) (dataset : List Document) (S : Dict Str Shape) (batch : Obj)
    (k : Str) (v : Feat) : Provider → Prop
  | .posDict l _ => k = l ∧ ∃ parts, S.get? l = some (.parts parts) ∧ LabelsFit parts v
  | .lemmaRules _ l _ => k = l ∧ ∃ n, S.get? l = some (.parts [("LEMMA".toList, n)]) ∧
      LabelsFit [("LEMMA".toList, n)] v
  | .lemmaDict l => k = l ∧ ∃ n, S.get? l = some (.parts [("LEMMA".toList, n)]) ∧
      (2 ≤ n ∨ KnownLemmas tok dataset batch → LabelsFit [("LEMMA".toList, n)] v)
  | .lemmaChars l _ _ _ => k = l ∧ ∃ n, S.get? l = some (.dims [some n]) ∧ IdsFit n v
  | _ => False

/-- The names of the features of the providers. -/
def featureNames (ps : List Provider) : List Str :=
  ps.filterMap (fun p => p.featureSpec.map LeafSpec.name)

/-- The names of the labels of the providers. -/
def labelNames (ps : List Provider) : List Str :=
  ps.filterMap (fun p => p.labelSpec.map LeafSpec.name)

/-- The name under which the shape of a feature or label is announced: the variable of a pretrained
embedding, otherwise the feature or label itself; nothing for the length of the sentence. -/
def LeafSpec.announces : LeafSpec → Option Str
  | .sentLength _ => none
  | .wordEmb _ init _ _ => some init
  | .subwordEmb _ init _ _ => some init
  | .trainable f _ _ => some f
  | .subwords f _ _ => some f
  | .applicable f _ => some f
  | .posDict l _ => some l
  | .lemmaDict l => some l
  | .suffix l _ => some l
  | .lemmaChars l _ _ _ => some l

/-- The name of the variable and the lines of the file of a pretrained embedding. -/
def LeafSpec.pretrained : LeafSpec → Option (Str × List Str)
  | .wordEmb _ init lines _ => some (init, lines)
  | .subwordEmb _ init lines _ => some (init, lines)
  | _ => none

/-- The leaf builders of the providers: those of the features, then those of the labels. -/
def leafSpecs (ps : List Provider) : List LeafSpec :=
  ps.filterMap Provider.featureSpec ++ ps.filterMap Provider.labelSpec

/-- Every builder of the providers sees all the documents, in an order of its own. -/
def Seen.Orders (seen : Seen) (ps : List Provider) (dataset : List Document) : Prop :=
  ∀ s ∈ leafSpecs ps, (seen s).Perm dataset

/-- A dictionary with exactly the entries of all the given ones. -/
def IsUnion {V : Type} (D : Dict Str V) (ds : List (Dict Str V)) : Prop :=
  ∀ k v, D.get? k = some v ↔ ∃ d ∈ ds, d.get? k = some v

end Verif
