import Verif.Model.Extractors
import Verif.Model.Network

/-!
# Model of what the builders of features/extractors.py build, features/provider.py, and the
initializers of features/builder.py

Objects of a batch are handles; `tok` gives the token (with its text) behind the handle of a token.
Files of embeddings are given by their lines; a file that cannot be opened is not modelled.  `float`
is Python's conversion, `F` its result.  The cache of `CachedSuffixRulesBuilder` is Model/RulesCache.lean;
here the rules are computed again of what the builder is said to have seen.
-/

namespace Verif

/-- A shape an initializer announces: a list of sizes (an embedding of unknown width has `None`) or an
ordered dictionary of the numbers of labels. -/
inductive Shape where
  | dims (l : List (Option Int))
  | parts (l : List (Str × Nat))
  deriving DecidableEq

/-- The rows `initial_values` gives for one variable. -/
abbrev InitRows (F : Type) := List (Option Int × List F)

/-- What `build` returns (without the interpreter): the extractor and the initializer, of which
`shapes()` and `initial_values()` can be called. -/
structure BuiltX (F : Type) where
  extract : Extractor
  shapes : Res (Dict Str Shape)
  initial : Res (Dict Str (InitRows F))

/-! ### Leaf builders -/

/-- The builders of extractors.py with their settings. -/
inductive LeafSpec where
  | sentLength (name : Str)
  | wordEmb (name init : Str) (lines : List Str) (lowercase : Bool)
  | trainable (name : Str) (threshold : Int) (lowercase : Bool)
  | subwordEmb (name init : Str) (lines : List Str) (segment : Str → List Str)
  | subwords (name : Str) (threshold : Int) (segment : Str → List Str)
  | posDict (name : Str) (splitting : Splitting)
  | lemmaDict (name : Str)
  | suffix (name : Str) (threshold : Int)
  | applicable (name : Str) (threshold : Int)
  | lemmaChars (name : Str) (threshold : Int) (maxLen : Nat) (segment : Str → List Str)

namespace LeafSpec

/-- The name of the feature or label. -/
def name : LeafSpec → Str
  | sentLength n => n
  | wordEmb n _ _ _ => n
  | trainable n _ _ => n
  | subwordEmb n _ _ _ => n
  | subwords n _ _ => n
  | posDict n _ => n
  | lemmaDict n => n
  | suffix n _ => n
  | applicable n _ => n
  | lemmaChars n _ _ _ => n

/-- `type(builder)`, numbered. -/
def ty : LeafSpec → Nat
  | sentLength _ => 0
  | wordEmb _ _ _ _ => 1
  | trainable _ _ _ => 2
  | subwordEmb _ _ _ _ => 3
  | subwords _ _ _ => 4
  | posDict _ _ => 5
  | lemmaDict _ => 6
  | suffix _ _ => 7
  | applicable _ _ => 8
  | lemmaChars _ _ _ _ => 9

end LeafSpec

/-- A list of ids as a feature value. -/
def idsFeat (ids : List Int) : Feat := .list (ids.map Feat.int)

/-- An extractor with one feature, computed from the token behind the handle. -/
def tokenX (tok : Nat → TextToken) (name : Str) (get : TextToken → Res Feat) : Extractor := fun o =>
  match o with
  | .mk id _ =>
    match get (tok id) with
    | .error e => .error e
    | .ok v => .ok (Dict.ofList [(name, v)])

/-- builder.py:342-354 `ConstantFeatureInitializer`. -/
def constInit {F : Type} (x : Extractor) (name : Str) (s : Shape) : BuiltX F :=
  ⟨x, .ok (Dict.ofList [(name, s)]), .ok Dict.empty⟩

/-- extractors.py:102-115 `EmbeddingInitializer`; `base` ids are reserved. -/
def embInit {F : Type} (zero : F) (base : Int) (st : EmbState F) (x : Extractor) (init : Str) :
    BuiltX F :=
  ⟨x, .ok (Dict.ofList [(init, .dims
      [some (((embeddingIds base st.vecs).entries.length : Int) + base), st.size])]),
    match initialValues zero (embeddingIds base st.vecs) st with
    | .error e => .error e
    | .ok rows => .ok (Dict.ofList [(init, rows)])⟩

section
variable {F : Type} (lower : Str → Str) (float : Str → Res F) (zero : F) (tok : Nat → TextToken)

/-- extractors.py: the `build` methods (26-28, 59-65, 124-132, 147-157, 178-188, 351-361, 402-408,
465-469, 507-512, 537-549) with the extractors they create (35-36, 97-99, 198-202, 370-373, 416-417,
477-479, 521-526, 559-567). -/
def LeafSpec.build (dataset : List Document) : LeafSpec → Res (BuiltX F)
  | .sentLength n =>
    .ok ⟨fun o => .ok (Dict.ofList [(n, .int o.items.length)]), .ok Dict.empty, .ok Dict.empty⟩
  | .wordEmb n init lines lc =>
    match readEmbeddings float lines with
    | .error e => .error e
    | .ok st => .ok (embInit zero 2 st
        (tokenX tok n (fun t => .ok (.int (wordId lower (embeddingIds 2 st.vecs) lc t.1)))) init)
  | .trainable n threshold lc =>
    .ok (constInit (tokenX tok n (fun t => .ok (.int
        (wordId lower (trainableVocabulary threshold dataset) lc t.1)))) n
      (.dims [some (((trainableVocabulary threshold dataset).entries.length : Int) + 2)]))
  | .subwordEmb n init lines segment =>
    match readEmbeddings float lines with
    | .error e => .error e
    | .ok st => .ok (embInit zero 4 st
        (tokenX tok n (fun t => .ok (idsFeat (subwordIds segment (embeddingIds 4 st.vecs) t.1)))) init)
  | .subwords n threshold segment =>
    .ok (constInit (tokenX tok n (fun t => .ok (idsFeat
        (subwordIds segment (subwordVocabulary segment threshold dataset) t.1)))) n
      (.dims [some (((subwordVocabulary segment threshold dataset).entries.length : Int) + 4)]))
  | .posDict n splitting =>
    match buildPosTable splitting (posLabels dataset) with
    | .error e => .error e
    | .ok table =>
      match countParts (counter Token.optPosEq (posLabels dataset)) table.splitter with
      | .error e => .error e
      | .ok counts => .ok (constInit (tokenX tok n (fun t => (table.encode t.2.pos).map idsFeat)) n
          (.parts (counts.keys.zip (table.id2parts.map List.length))))
  | .lemmaDict n =>
    match buildLemmaTable ((datasetTokens dataset).map (fun t => t.2.lemma')) with
    | .error e => .error e
    | .ok table => .ok (constInit (tokenX tok n (fun t => .ok (idsFeat (encodeLemma table t.2.lemma'))))
        n (.parts [("LEMMA".toList, table.length)]))
  | .suffix n threshold =>
    match buildRules lower threshold dataset with
    | .error e => .error e
    | .ok table => .ok (constInit (tokenX tok n (fun t => (encodeRule lower table t).map idsFeat)) n
        (.parts [("LEMMA".toList, table.length)]))
  | .applicable n threshold =>
    match buildRules lower threshold dataset with
    | .error e => .error e
    | .ok table => .ok (constInit (tokenX tok n (fun t => (applicableRules lower table t.1).map
        (fun l => .list (l.map Feat.bool)))) n (.dims [some (table.length : Int)]))
  | .lemmaChars n threshold maxLen segment =>
    match lemmaVocabulary segment threshold dataset with
    | .error e => .error e
    | .ok voc => .ok (constInit (tokenX tok n (fun t => (encodeChars segment voc maxLen t.2.lemma').map
        idsFeat)) n (.dims [some ((voc.entries.length : Int) + 4)]))

/-! ### Building -/

/-- Sparsification of the value of a feature of an object.  The random numbers differ from call to
call; every token is asked once for every feature, so `sp` may depend on both. -/
abbrev Sparsify := Obj → Str → Feat → Res Feat

/-- builder.py:174-183 `SparseFeatureExtractor`. -/
def sparseAt (sp : Sparsify) (x : Extractor) : Extractor := fun o =>
  match x o with
  | .error e => .error e
  | .ok d =>
    match mapM' (fun p => match sp o p.1 p.2 with
        | .error e => .error e
        | .ok v => .ok (p.1, v)) d.entries with
    | .error e => .error e
    | .ok l => .ok (Dict.ofList l)

/-- builder.py:246-254 `CompositeInitializer`: both dictionaries are merged when they are asked for. -/
def mergeInit {V : Type} (ds : List (Res (Dict Str V))) : Res (Dict Str V) :=
  match mapM' id ds with
  | .error e => .error e
  | .ok l => mergeDicts l

/-- builder.py:206-210 `CompositeFeatureExtractorBuilder.build` after building the parts. -/
def compBuilt : List (BuiltX F) → Res (BuiltX F)
  | [] => .error .value
  | [x] => .ok x
  | xs => .ok ⟨compX (xs.map BuiltX.extract), mergeInit (xs.map BuiltX.shapes),
      mergeInit (xs.map BuiltX.initial)⟩

mutual
/-- builder.py: the `build` methods (119-121, 163-165, 206-210, 280-282, 373-374); `lf` builds the leaf
with this identity. -/
def Builder.build (lf : Nat → Res (BuiltX F)) (sp : Sparsify) : Builder → Res (BuiltX F)
  | .padding b =>
    match b.build lf sp with
    | .error e => .error e
    | .ok x => .ok { x with extract := padX x.extract }
  | .sparse b =>
    match b.build lf sp with
    | .error e => .error e
    | .ok x => .ok { x with extract := sparseAt sp x.extract }
  | .iter b =>
    match b.build lf sp with
    | .error e => .error e
    | .ok x => .ok { x with extract := iterX x.extract }
  | .comp l =>
    match Builder.buildL lf sp l with
    | .error e => .error e
    | .ok xs => compBuilt xs
  | .empty => .ok ⟨fun _ => .ok Dict.empty, .ok Dict.empty, .ok Dict.empty⟩
  | .leaf _ id => lf id
def Builder.buildL (lf : Nat → Res (BuiltX F)) (sp : Sparsify) : List Builder → Res (List (BuiltX F))
  | [] => .ok []
  | b :: bs =>
    match b.build lf sp with
    | .error e => .error e
    | .ok x =>
      match Builder.buildL lf sp bs with
      | .error e => .error e
      | .ok xs => .ok (x :: xs)
end

/-! ### Providers -/

/-- builder.py:412-421 `wrap_sentence_level`. -/
def wrapSentence (b : Builder) : Builder := .padding (.iter b)

/-- builder.py:424-433 `wrap_word_level`. -/
def wrapWord (sparsify : Bool) (b : Builder) : Builder :=
  if sparsify then wrapSentence (.iter (.sparse b)) else wrapSentence (.iter b)

/-- provider.py:50-179: the providers with their settings. -/
inductive Provider where
  | sentLength (feature : Str)
  | wordEmb (feature init : Str) (lines : List Str) (lowercase : Bool)
  | trainable (feature : Str) (threshold : Int) (lowercase : Bool)
  | subwordEmb (feature init : Str) (lines : List Str) (segment : Str → List Str)
  | subwords (feature : Str) (threshold : Int) (segment : Str → List Str)
  | lemmaDict (label : Str)
  | posDict (label : Str) (splitting : Splitting)
  | lemmaRules (feature label : Str) (threshold : Int)
  | lemmaChars (label : Str) (threshold : Int) (maxLen : Nat) (segment : Str → List Str)

namespace Provider

/-- The builder behind `feature_extractor_builder()`. -/
def featureSpec : Provider → Option LeafSpec
  | sentLength f => some (.sentLength f)
  | wordEmb f i l lc => some (.wordEmb f i l lc)
  | trainable f t lc => some (.trainable f t lc)
  | subwordEmb f i l s => some (.subwordEmb f i l s)
  | subwords f t s => some (.subwords f t s)
  | lemmaRules f _ t => some (.applicable f t)
  | _ => none

/-- The builder behind `labels_extractor_builder()`. -/
def labelSpec : Provider → Option LeafSpec
  | lemmaDict l => some (.lemmaDict l)
  | posDict l s => some (.posDict l s)
  | lemmaRules _ l t => some (.suffix l t)
  | lemmaChars l t m s => some (.lemmaChars l t m s)
  | _ => none

/-- provider.py: `feature_extractor_builder` of the providers (41-42, 58-59, 74-77, 89-92, 106-109,
120-121, 168-169); the leaf gets the identity `id`. -/
def feature (id : Nat) : Provider → Builder
  | sentLength f => wrapSentence (.leaf (LeafSpec.sentLength f).ty id)
  | wordEmb f i l lc => wrapWord true (.leaf (LeafSpec.wordEmb f i l lc).ty id)
  | trainable f t lc => wrapWord true (.leaf (LeafSpec.trainable f t lc).ty id)
  | subwordEmb f i l s => wrapWord true (.leaf (LeafSpec.subwordEmb f i l s).ty id)
  | subwords f t s => wrapWord true (.leaf (LeafSpec.subwords f t s).ty id)
  | lemmaRules f _ t => wrapWord false (.leaf (LeafSpec.applicable f t).ty id)
  | _ => .empty

/-- provider.py: `labels_extractor_builder` of the providers (44-45, 135-136, 148-149, 165-166,
177-179). -/
def label (id : Nat) : Provider → Builder
  | lemmaDict l => wrapWord false (.leaf (LeafSpec.lemmaDict l).ty id)
  | posDict l s => wrapWord false (.leaf (LeafSpec.posDict l s).ty id)
  | lemmaRules _ l t => wrapWord false (.leaf (LeafSpec.suffix l t).ty id)
  | lemmaChars l t m s => wrapWord false (.leaf (LeafSpec.lemmaChars l t m s).ty id)
  | _ => .empty

end Provider

/-- What `FeatureExtractorBuilderProvider.build` returns (without the interpreter). -/
structure Assembled (F : Type) where
  features : Extractor
  labels : Extractor
  shapes : Res (Dict Str Shape)
  initial : Res (Dict Str (InitRows F))

/-- What the builders got when they iterated over the data set (extractors.py:59-65, 124-132, 178-188, 352, 403, 443,
542): each of them iterates anew, and a `ShuffledDataset` gives another order every time (dataset.py:30-45).
Simplification: builders that are made in the same way get the same; features or labels of two such builders are
`Duplicate keys` anyway (builder.py:257-263). -/
abbrev Seen := LeafSpec → List Document

/-- The leaf builders a function of the providers names, built: identity `i` belongs to provider
`i`.  Other identities do not occur; they are a `KeyError` here. -/
def buildSpec (seen : Seen) (spec : Provider → Option LeafSpec) (ps : List Provider)
    (id : Nat) : Res (BuiltX F) :=
  match ps[id]?.bind spec with
  | none => .error .key
  | some s => s.build lower float zero tok (seen s)

/-- provider.py:8-31 `FeatureExtractorBuilderProvider`: merging and building. -/
def assemble (sp : Sparsify) (seen : Seen) (ps : List Provider) : Res (Assembled F) :=
  match mergedProviders (fun p => Provider.feature p.2 p.1) (fun p => Provider.label p.2 p.1) false
      ps.zipIdx with
  | .error e => .error e
  | .ok (f, l) =>
    match f.build (buildSpec lower float zero tok seen Provider.featureSpec ps) sp with
    | .error e => .error e
    | .ok x =>
      match l.build (buildSpec lower float zero tok seen Provider.labelSpec ps) sp with
      | .error e => .error e
      | .ok y => .ok ⟨x.extract, y.extract, mergeInit [x.shapes, y.shapes],
          mergeInit [x.initial, y.initial]⟩

end

end Verif
