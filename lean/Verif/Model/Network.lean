import Verif.Model.Training
import Verif.Model.Features

/-!
# Model of neural/network.py, neural/initializers.py, neural/model.py and
neural/tagger/network_provider.py

The layers of the networks are not modelled, only what the surrounding code does with graphs, names and
dictionaries.  A tensor or operation of TensorFlow is identified by its graph and its name; graphs are
numbered.
-/

namespace Verif

/-- `tf.Tensor`. -/
structure Tensor where
  graph : Nat
  name : Str
  deriving DecidableEq

/-- `tf.Operation`. -/
structure Operation where
  graph : Nat
  name : Str
  deriving DecidableEq

/-- `tf.Graph`: its number and the names of its tensors and operations. -/
structure TfGraph where
  id : Nat
  tensors : List Str
  ops : List Str

/-- `Graph.get_tensor_by_name`. -/
def TfGraph.tensorByName (g : TfGraph) (n : Str) : Res Tensor :=
  if n ∈ g.tensors then .ok ⟨g.id, n⟩ else .error .key

/-- `Graph.get_operation_by_name`. -/
def TfGraph.opByName (g : TfGraph) (n : Str) : Res Operation :=
  if n ∈ g.ops then .ok ⟨g.id, n⟩ else .error .key

/-! ### Initializers -/

/-- initializers.py: `GlobalInitializer` (17-34) and `MatrixInitializer` (37-66). -/
inductive Init where
  | global (op : Operation)
  | matrix (param : Str) (indices values update : Tensor)
  deriving DecidableEq

/-- initializers.py:19-24 `GlobalInitializerMapping`, 39-52 `MatrixInitializerMapping`. -/
inductive InitMapping where
  | global (op : Str)
  | matrix (param indices values update : Str)
  deriving DecidableEq

/-- initializers.py:33-34, 64-66 `mapping`. -/
def Init.mapping : Init → InitMapping
  | .global op => .global op.name
  | .matrix p i v u => .matrix p i.name v.name u.name

/-- initializers.py:23-24, 46-51 `attach`. -/
def InitMapping.attach (g : TfGraph) : InitMapping → Res Init
  | .global op =>
    match g.opByName op with
    | .error e => .error e
    | .ok o => .ok (.global o)
  | .matrix p i v u =>
    match g.tensorByName i with
    | .error e => .error e
    | .ok ti =>
      match g.tensorByName v with
      | .error e => .error e
      | .ok tv =>
        match g.tensorByName u with
        | .error e => .error e
        | .ok tu => .ok (.matrix p ti tv tu)

/-! ### Networks -/

/-- network.py:21-29 `NeuralNetwork`. -/
structure NN where
  inputs : Dict Str Tensor
  outputs : Dict Str Tensor
  gold : Dict Str Tensor
  optimizer : Operation
  loss : Tensor
  initializers : List Init
  deriving DecidableEq

/-- network.py:50-57 `NeuralNetworkMapping`. -/
structure NNMapping where
  inputs : Dict Str Str
  outputs : Dict Str Str
  gold : Dict Str Str
  optimizer : Str
  loss : Str
  initializers : List InitMapping
  deriving DecidableEq

/-- network.py:201-202 `_tensor2name`. -/
def tensor2name (d : Dict Str Tensor) : Dict Str Str :=
  Dict.ofList (d.entries.map (fun p => (p.1, p.2.name)))

/-- network.py:205-206, one entry. -/
def nameEntry (g : TfGraph) (p : Str × Str) : Res (Str × Tensor) :=
  match g.tensorByName p.2 with
  | .error e => .error e
  | .ok t => .ok (p.1, t)

/-- network.py:205-206 `_name2tensor`. -/
def name2tensor (g : TfGraph) (d : Dict Str Str) : Res (Dict Str Tensor) :=
  match mapM' (nameEntry g) d.entries with
  | .error e => .error e
  | .ok l => .ok (Dict.ofList l)

/-- network.py:46-47, 51-57 `mapping`. -/
def NN.mapping (nn : NN) : NNMapping :=
  { inputs := tensor2name nn.inputs
    outputs := tensor2name nn.outputs
    gold := tensor2name nn.gold
    optimizer := nn.optimizer.name
    loss := nn.loss.name
    initializers := nn.initializers.map Init.mapping }

/-- network.py:59-67 `attach`. -/
def NNMapping.attach (m : NNMapping) (g : TfGraph) : Res NN :=
  match name2tensor g m.inputs with
  | .error e => .error e
  | .ok i =>
    match name2tensor g m.outputs with
    | .error e => .error e
    | .ok o =>
      match name2tensor g m.gold with
      | .error e => .error e
      | .ok gold =>
        match g.opByName m.optimizer with
        | .error e => .error e
        | .ok opt =>
          match g.tensorByName m.loss with
          | .error e => .error e
          | .ok loss =>
            match mapM' (InitMapping.attach g) m.initializers with
            | .error e => .error e
            | .ok inits => .ok ⟨i, o, gold, opt, loss, inits⟩

/-- network.py:196-197, one key. -/
def fillEntry {V : Type} (keys : Dict Str Tensor) (result : Dict Tensor V) (p : Str × V) :
    Res (Dict Tensor V) :=
  match keys.getItem p.1 with
  | .error e => .error e
  | .ok t => .ok (result.set t p.2)

/-- network.py:194-198 `_fill_dict`. -/
def fillDict {V : Type} (keys : Dict Str Tensor) (values : Dict Str V) : Res (Dict Tensor V) :=
  forM' (fillEntry keys) Dict.empty values.entries

/-- network.py:40-44 `get_feed_dict`. -/
def NN.feedDict {V : Type} (nn : NN) (input : Dict Str V) (gold : Option (Dict Str V)) :
    Res (Dict Tensor V) :=
  match fillDict nn.inputs input with
  | .error e => .error e
  | .ok d =>
    match gold with
    | none => .ok d
    | some gv =>
      match fillDict nn.gold gv with
      | .error e => .error e
      | .ok d' => .ok (d.update d')

/-! ### Sessions, saving and loading -/

/-- A session: a graph together with the parameters.  `eval feed n` is the value of the tensor named `n`
if the tensors named by `feed` have the given values. -/
structure Session (V : Type) where
  graph : TfGraph
  eval : (Str → Option V) → Str → Res V

/-- Feeding or fetching a tensor of another graph is an error. -/
def Session.knows {V : Type} (s : Session V) (t : Tensor) : Bool :=
  decide (t.graph = s.graph.id ∧ t.name ∈ s.graph.tensors)

/-- The value of one fetched tensor. -/
def Session.fetch {V : Type} (s : Session V) (feed : Dict Tensor V) (p : Str × Tensor) : Res (Str × V) :=
  if s.knows p.2 then
    match s.eval (fun n => feed.get? ⟨s.graph.id, n⟩) p.2.name with
    | .error e => .error e
    | .ok v => .ok (p.1, v)
  else .error .value

/-- `Session.run` with a dictionary of tensors. -/
def Session.run {V : Type} (s : Session V) (outputs : Dict Str Tensor) (feed : Dict Tensor V) :
    Res (Dict Str V) :=
  if feed.keys.all s.knows then
    match mapM' (s.fetch feed) outputs.entries with
    | .error e => .error e
    | .ok l => .ok (Dict.ofList l)
  else .error .type

/-- model.py:8-15 `Model`. -/
structure NNModel (V : Type) where
  network : NN
  session : Session V

/-- model.py:33-41 `predict`. -/
def NNModel.predict {V : Type} (m : NNModel V) (features : Dict Str V) : Res (Dict Str V) :=
  match m.network.feedDict features none with
  | .error e => .error e
  | .ok feed => m.session.run m.network.outputs feed

/-- The files of a saved model: the graph with its parameters, and the mapping.  Reading either may
fail. -/
structure ModelFiles (V : Type) where
  tensors : List Str
  ops : List Str
  eval : (Str → Option V) → Str → Res V
  restore : Res Unit
  mapping : Res NNMapping

/-- model.py:46-59 `save`: `tf.train.Saver` and `pickle` are assumed to write what they are given. -/
def NNModel.save {V : Type} (m : NNModel V) : ModelFiles V :=
  { tensors := m.session.graph.tensors
    ops := m.session.graph.ops
    eval := m.session.eval
    restore := .ok ()
    mapping := .ok m.network.mapping }

/-- Opening and closing of sessions. -/
inductive SessEvent where
  | opened | closed
  deriving DecidableEq

/-- model.py:61-75 `load`; `fresh` is the number of the new graph. -/
def loadModel {V : Type} (fresh : Nat) (f : ModelFiles V) : List SessEvent × Res (NNModel V) :=
  match f.restore with
  | .error e => ([.opened, .closed], .error e)
  | .ok _ =>
    match f.mapping with
    | .error e => ([.opened, .closed], .error e)
    | .ok m =>
      match m.attach ⟨fresh, f.tensors, f.ops⟩ with
      | .error e => ([.opened, .closed], .error e)
      | .ok nn => ([.opened], .ok ⟨nn, ⟨⟨fresh, f.tensors, f.ops⟩, f.eval⟩⟩)

/-- neural_tagger.py:42-47 `NeuralTagger.load`: the extractor is read first. -/
def loadTagger {V X : Type} (fresh : Nat) (extractor : Res X) (f : ModelFiles V) :
    List SessEvent × Res (X × NNModel V) :=
  match extractor with
  | .error e => ([], .error e)
  | .ok x =>
    match loadModel fresh f with
    | (ev, .error e) => (ev, .error e)
    | (ev, .ok m) => (ev, .ok (x, m))

/-- neural_tagger.py:68-71 `LazyNeuralTagger.tag`, for a caller that takes `n` documents and then drops
the generator: the events, the documents and the exception.  `tagDoc` tags one document. -/
def lazyTag {V X : Type} (fresh : Nat) (extractor : Res X) (f : ModelFiles V)
    (tagDoc : X → NNModel V → Document → Res Document) (n : Nat) (docs : List Document) :
    List SessEvent × List Document × Option Err :=
  match loadTagger fresh extractor f with
  | (ev, .error e) => (ev, [], some e)
  | (ev, .ok (x, m)) =>
    match loopUntil (fun (out : List Document) d =>
        match tagDoc x m d with
        | .error e => .error (out, e)
        | .ok d' => .ok (out ++ [d'])) [] (docs.take n) with
    | (out, err) => (ev ++ [.closed], out, err)

/-! ### Building networks -/

/-- utils.py:22-31: a convolution layer. -/
structure Kernel where
  size : Nat
  count : Nat
  dilation : Nat
  deriving DecidableEq

/-- Variables of the graph.  TensorFlow names them by strings; the names the code makes are kept apart by
their shape: embedding matrices and named layers (utils.py:13-19), convolution kernels (25-27
`'{}_{}_s{}_c{}_d{}'`), recurrent layers (130, `'bidirectional_rnn_{}-{}'`), and layers in the variable
scope `str(i)` (task_builders.py:34).  Layers without name get a name of their own and are left out. -/
inductive VarName where
  | layer (name : Str)
  | kernel (scope : Str) (i : Nat) (k : Kernel)
  | rnn (scope : Str) (i : Nat)
  | scoped (i : Nat) (name : Str)
  deriving DecidableEq

/-- Building layers: the variables of the graph so far, and exceptions. -/
abbrev Build := StateT (List VarName) (Except Err)

/-- Raising an exception. -/
def Build.fail {α : Type} (e : Err) : Build α := fun _ => .error e

/-- Raising an exception unless the condition holds. -/
def Build.require (p : Prop) [Decidable p] (e : Err) : Build Unit :=
  fun vars => if p then .ok ((), vars) else .error e

/-- `tf.get_variable` (outside of reuse): the variable must be new, else `ValueError`. -/
def newVar (v : VarName) : Build Unit :=
  fun vars => if v ∈ vars then .error .value else .ok ((), vars ++ [v])

/-- utils.py:13-19 `embedding_layer`: `3 / shape[1]` fails for empty vectors. -/
def embeddingLayer (name : Str) (size : Nat) : Build Unit := do
  Build.require (size ≠ 0) .zeroDivision
  newVar (.layer name)

/-- utils.py:22-31 `apply_conv_layer`: from the `i`-th layer on.  The size of the result is
`convSize`. -/
def convLayers (scope : Str) : Nat → List Kernel → Build Unit
  | _, [] => pure ()
  | i, k :: ks => do
    newVar (.kernel scope i k)
    convLayers scope (i + 1) ks

def convSize (input : Nat) (ks : List Kernel) : Nat :=
  match ks.getLast? with
  | none => input
  | some k => k.count

/-- utils.py:125-137 `bilstm_layer`: from the `i`-th of the layers on. -/
def rnnLayers (scope : Str) : Nat → Nat → Build Unit
  | _, 0 => pure ()
  | i, n + 1 => do
    newVar (.rnn scope i)
    rnnLayers scope (i + 1) n

/-- utils.py:80-85 `_subword_aggregators` with their configurations. -/
inductive Aggregator where
  | rnn (cell layers : Nat)
  | cnn (kernels : List Kernel)
  | average
  | selfAttention
  | other

/-- The size of the vectors an aggregator makes of vectors of the given size. -/
def Aggregator.size (embed : Nat) : Aggregator → Nat
  | .rnn cell layers => if layers = 0 then embed else 2 * cell
  | .cnn ks => convSize embed ks
  | .average => embed
  | .selfAttention => embed
  | .other => 0

/-- utils.py:34-77, 109: errors for an unknown aggregator (`KeyError`) and for a convolution without
layers (57, `IndexError`). -/
def Aggregator.build (feature : Str) : Aggregator → Build Unit
  | .rnn _ layers => rnnLayers feature 0 layers
  | .cnn ks => do
    convLayers (feature ++ "_cnn".toList) 0 ks
    Build.require (ks ≠ []) .index
  | .average => pure ()
  | .selfAttention => pure ()
  | .other => Build.fail .key

/-- utils.py:88-122: the configuration of a subword feature; `size` is the size of the embeddings,
`pretrained` whether there is an `embedding_path`. -/
structure SubwordCfg where
  size : Nat
  pretrained : Bool
  agg : Aggregator
  highway : Bool

/-- utils.py:111-114: the highway layer of a subword feature. -/
def highwayLayer (feature : Str) (highway : Bool) : Build Unit :=
  if highway then newVar (.layer (feature ++ "_dense_highway".toList)) else pure ()

/-- utils.py:98-116 `features_builder`: the size of the vectors. -/
def SubwordCfg.build (feature : Str) (c : SubwordCfg) : Build Nat := do
  embeddingLayer feature c.size
  c.agg.build feature
  highwayLayer feature c.highway
  return c.agg.size c.size

/-- shared_builders.py:21-40: pretrained word embeddings; `dense` is `we_dense_size`. -/
structure WordCfg where
  size : Nat
  dense : Option Nat

/-- shared_builders.py:27-40 `we_features_builder`. -/
def WordCfg.build (c : WordCfg) : Build Nat := do
  embeddingLayer "word_embeddings".toList c.size
  match c.dense with
  | none => return c.size
  | some n =>
    newVar (.layer "we_dense_layer".toList)
    return n

/-- shared_builders.py:16-78: which features are configured; for `word_trained_embedding` the size. -/
structure SharedCfg where
  word : Option WordCfg
  trained : Option Nat
  chars : Option SubwordCfg
  bpe : Option SubwordCfg
  morfessor : Option SubwordCfg

/-- shared_builders.py:17-74: the keys of the input placeholders. -/
def SharedCfg.inputs (c : SharedCfg) : List Str :=
  ["sentences_lengths".toList] ++ (if c.word.isSome then ["words".toList] else []) ++
  (if c.trained.isSome then ["trained_words".toList] else []) ++
  (if c.chars.isSome then ["characters".toList] else []) ++
  (if c.bpe.isSome then ["bpe_subwords".toList] else []) ++
  (if c.morfessor.isSome then ["morfessor_subwords".toList] else [])

/-- shared_builders.py:18-74: the features of the providers (utils.py:90-93 for subwords). -/
def SharedCfg.features (c : SharedCfg) : List Str :=
  ["sentences_lengths".toList] ++ (if c.word.isSome then ["words".toList] else []) ++
  (if c.trained.isSome then ["trained_words".toList] else []) ++
  (if c.chars.isSome then ["characters".toList] else []) ++
  (if c.bpe.isSome then ["bpe_subwords".toList] else []) ++
  (if c.morfessor.isSome then ["morfessor_subwords".toList] else [])

/-- utils.py:105-107: the name of the matrix of a pretrained subword feature. -/
def SubwordCfg.inits (feature : Str) : Option SubwordCfg → List Str
  | none => []
  | some c => if c.pretrained then [feature] else []

/-- shared_builders.py:33, utils.py:107: the names of pretrained matrices. -/
def SharedCfg.inits (c : SharedCfg) : List Str :=
  (if c.word.isSome then ["word_embeddings".toList] else []) ++
  SubwordCfg.inits "characters".toList c.chars ++ SubwordCfg.inits "bpe_subwords".toList c.bpe ++
  SubwordCfg.inits "morfessor_subwords".toList c.morfessor

/-- A feature of the shared part, if it is configured: name and size. -/
def optFeature {κ : Type} (name : Str) (build : κ → Build Nat) : Option κ → Build (List (Str × Nat))
  | none => return []
  | some c => do
    let n ← build c
    return [(name, n)]

/-- shared_builders.py:49-54 `te_features_builder`. -/
def buildTrained (size : Nat) : Build Nat := do
  embeddingLayer "trained_words".toList size
  return size

/-- shared_builders.py:88-110 `WECharCNNSharedNetworkBuilder.build`: the results with their sizes; the
mask and the norm are no vectors.  `tf.concat` of nothing raises `ValueError`. -/
def SharedCfg.build (c : SharedCfg) : Build (List (Str × Option Nat) × Nat) := do
  let w ← optFeature "word_embedding".toList WordCfg.build c.word
  let t ← optFeature "trained_embedding".toList buildTrained c.trained
  let x ← optFeature "characters".toList (SubwordCfg.build "characters".toList) c.chars
  let b ← optFeature "bpe_subwords".toList (SubwordCfg.build "bpe_subwords".toList) c.bpe
  let m ← optFeature "morfessor_subwords".toList (SubwordCfg.build "morfessor_subwords".toList) c.morfessor
  Build.require (w ++ t ++ x ++ b ++ m ≠ []) .value
  return ((w ++ t ++ x ++ b ++ m).map (fun p => (p.1, some p.2)) ++
    [("word_features".toList, some ((w ++ t ++ x ++ b ++ m).map Prod.snd).sum),
     ("sentence_mask".toList, none), ("sentence_norm".toList, none)],
    ((w ++ t ++ x ++ b ++ m).map Prod.snd).sum)

/-- network_provider.py:6-12 `_shared_builders` with their configurations. -/
inductive SharedKind where
  | words
  | bilstm (cell : Nat) (layers : Int) (skip : Option Str)
  | bilstmCnn (cell : Nat) (layers : Int) (skip : Option Str) (kernels : List Kernel)
  | dilatedCnn (kernels : Option (List Kernel)) (skip : Option Str)

/-- shared_builders.py:130-148, 166-184: the skip connection of a layer `name` of size `n` and the word
features of size `total`. -/
def skipConnection (name : Str) (n total : Nat) : Option Str → Build (List (Str × Option Nat))
  | none => return []
  | some s =>
    if s = "sum".toList then do
      Build.require (n = total) .value
      return [(name ++ "_and_word_features".toList, some n)]
    else if s = "concat".toList then
      return [(name ++ "_and_word_features".toList, some (n + total))]
    else Build.fail .value

/-- shared_builders.py:120-148 `CharCNNBiLSTMSharedNetworkBuilder.build`, after the word features. -/
def bilstmPart (cell : Nat) (layers : Int) (skip : Option Str) (total : Nat) :
    Build (List (Str × Option Nat)) := do
  Build.require (0 < layers) .value
  rnnLayers [] 0 layers.toNat
  let s ← skipConnection "bilstm".toList (2 * cell) total skip
  return ("bilstm".toList, some (2 * cell)) :: s

/-- shared_builders.py:88-205: the `build` methods of the shared builders. -/
def SharedKind.build (k : SharedKind) (c : SharedCfg) : Build (List (Str × Option Nat)) := do
  let r ← c.build
  match k with
  | .words => return r.1
  | .bilstm cell layers skip =>
    let l ← bilstmPart cell layers skip r.2
    return r.1 ++ l
  | .bilstmCnn cell layers skip ks =>
    let l ← bilstmPart cell layers skip r.2
    convLayers "cnn_kernel".toList 0 ks
    Build.require (ks ≠ []) .index
    return r.1 ++ l ++ [("bilstm_cnn".toList, some (convSize 0 ks))]
  | .dilatedCnn none _ => Build.fail .value
  | .dilatedCnn (some ks) skip =>
    convLayers "dilated_cnn".toList 0 ks
    Build.require (ks ≠ []) .index
    let s ← skipConnection "dilated_cnn".toList (convSize 0 ks) r.2 skip
    return r.1 ++ ("dilated_cnn".toList, some (convSize 0 ks)) :: s

/-- network_provider.py:14-21: the registered tasks. -/
inductive Task where
  | posDense | lemmaDense | lemmaSuffix | lemmaCombo | lemmaBinary
  deriving DecidableEq

/-- network_provider.py:14-21 `_task_builders`. -/
def taskNames : List (Str × Task) :=
  [("pos_dense".toList, .posDense), ("lemma_dense".toList, .lemmaDense),
   ("lemma_suffix".toList, .lemmaSuffix), ("lemma_combo".toList, .lemmaCombo),
   ("lemma_binary".toList, .lemmaBinary)]

/-- network_provider.py:26: looking up a task. -/
def getTask (n : Str) : Res Task :=
  match assocGet n taskNames with
  | none => .error .key
  | some t => .ok t

/-- task_builders.py: the inputs of a task besides the shared ones (network.py:89-90, task_builders.py:102-105,
144-147, 231-234). -/
def Task.inputs : Task → List Str
  | .posDense => []
  | .lemmaDense => []
  | .lemmaSuffix => ["applicable_rules".toList]
  | .lemmaCombo => ["input_subwords".toList]
  | .lemmaBinary => ["applicable_rules".toList]

/-- task_builders.py:20-23, 129-132, 223-226: the key of the gold placeholder; also the key of the
output (44-51, 153-159, 240-242). -/
def Task.label : Task → Str
  | .posDense => "pos_labels".toList
  | .lemmaDense => "lemma_labels".toList
  | .lemmaSuffix => "lemma_rule_labels".toList
  | .lemmaCombo => "output_subwords".toList
  | .lemmaBinary => "lemma_rule_labels".toList

/-- task_builders.py:82-83, 90-91, 99-100, 134-142, 228-229 and provider.py: the features of the
providers of a task. -/
def Task.features : Task → List Str
  | .posDense => []
  | .lemmaDense => []
  | .lemmaSuffix => ["applicable_rules".toList]
  | .lemmaCombo => ["input_subwords".toList]
  | .lemmaBinary => ["applicable_rules".toList]

/-- The labels of the providers of a task. -/
def Task.labels : Task → List Str
  | .posDense => ["pos_labels".toList]
  | .lemmaDense => ["lemma_labels".toList]
  | .lemmaSuffix => ["lemma_rule_labels".toList]
  | .lemmaCombo => ["output_subwords".toList]
  | .lemmaBinary => ["lemma_rule_labels".toList]

/-- The configuration of a task (task_builders.py:13-18, 116-127, 217-221): the layer it reads, the keys
of `loss_weights` if there are any, the parts of the label (the keys of its shape); for the character task
the sizes and layers. -/
structure TaskCfg where
  task : Task
  sharedName : Str
  weights : Option (List Str)
  slots : List Str
  embed : Nat
  dense : Nat
  kernels : List Kernel
  pretrained : Bool
  highway : Bool

/-- task_builders.py:126 `config.get("loss_weights")["LEMMA"]`: the only thing that may fail when tasks
are constructed. -/
def TaskCfg.construct (t : TaskCfg) : Build Unit :=
  match t.task, t.weights with
  | .lemmaCombo, none => Build.fail .type
  | .lemmaCombo, some ws => Build.require ("LEMMA".toList ∈ ws) .key
  | _, _ => pure ()

/-- `shared[shared_name]` and a dense layer on it: `KeyError` for an unknown name, `ValueError` if it is no
vector. -/
def readShared (shared : List (Str × Option Nat)) (name : Str) : Build Unit :=
  match assocGet name shared with
  | none => Build.fail .key
  | some none => Build.fail .value
  | some (some _) => pure ()

/-- task_builders.py:33-42, 63-67: the layers of one part of the label after the other, from the `i`-th
on.  The shapes of the rules (107-112) are not modelled. -/
def denseSlots (shared : List (Str × Option Nat)) (t : TaskCfg) : Nat → List Str → Build Unit
  | _, [] => pure ()
  | i, _ :: slots => do
    readShared shared t.sharedName
    newVar (.scoped i ("dense_".toList ++ t.task.label))
    newVar (.scoped i ("logits_".toList ++ t.task.label))
    denseSlots shared t (i + 1) slots

/-- task_builders.py:53-61 `_sum_losses`: without weights `tf.stack` gets a dictionary and raises `KeyError`
when it looks for its element 0; a part that has no weight needs a default one. -/
def sumLosses (slots : List Str) : Option (List Str) → Build Unit
  | none => Build.fail .key
  | some ws => Build.require (∀ s ∈ slots, s ∈ ws ∨ "default".toList ∈ ws) .key

/-- task_builders.py:28-51 `DenseTaskNetworkBuilder.build`.  Stacking no outputs raises `IndexError`. -/
def denseTask (shared : List (Str × Option Nat)) (t : TaskCfg) : Build Unit := do
  denseSlots shared t 0 t.slots
  sumLosses t.slots t.weights
  Build.require (t.slots ≠ []) .index

/-- task_builders.py:149-213 `LemmaCOMBOTaskNetworkBuilder.build`: in the highway layer the
vectors of the characters and of the convolution are multiplied. -/
def comboTask (shared : List (Str × Option Nat)) (t : TaskCfg) : Build Unit := do
  Build.require ((assocGet t.sharedName shared).isSome) .key
  embeddingLayer "input_subwords_e".toList t.embed
  readShared shared t.sharedName
  newVar (.layer "dense_cnn".toList)
  convLayers "cnn_kernel".toList 0 t.kernels
  Build.require (t.highway = true → convSize (t.embed + t.dense) t.kernels = t.embed ∨
    convSize (t.embed + t.dense) t.kernels = 1 ∨ t.embed = 1) .value
  newVar (.layer "output_subwords".toList)

/-- task_builders.py:236-270 `LemmaSuffixBinaryTaskNetworkBuilder.build`; there is at least one rule. -/
def binaryTask (shared : List (Str × Option Nat)) (t : TaskCfg) : Build Unit := do
  readShared shared t.sharedName
  newVar (.layer ("dense_".toList ++ t.task.label))

/-- The `build` method of a task, and network.py:161 `task_initializers.extend(...)`: the binary task
inherits `initializers` from network.py:98-99, which returns `None`, so `TypeError` is raised. -/
def TaskCfg.build (shared : List (Str × Option Nat)) (t : TaskCfg) : Build Unit :=
  match t.task with
  | .lemmaCombo => comboTask shared t
  | .lemmaBinary => do
    binaryTask shared t
    Build.fail .type
  | _ => denseTask shared t

/-- network.py:15-19 `_optimizers`. -/
def optimizers : List Str := ["GD".toList, "Adam".toList, "RMSProp".toList]

/-- A configuration of a network; `optimizer` is its `type`, if there is one. -/
structure NetCfg where
  kind : SharedKind
  features : SharedCfg
  tasks : List TaskCfg
  optimizer : Option Str

/-- network.py:177-181: an unknown `type` raises `ValueError`, a missing one `KeyError`. -/
def getOptimizer : Option Str → Build Unit
  | none => Build.fail .key
  | some o => Build.require (o ∈ optimizers) .value

/-- All tasks, one after the other. -/
def Build.each {κ : Type} (f : κ → Build Unit) : List κ → Build Unit
  | [] => pure ()
  | t :: ts => do
    f t
    Build.each f ts

/-- network_provider.py:24-27 and network.py:128-181: everything that may fail.  Sizes of 0 (apart from
those of embeddings) and missing entries of the configuration are not modelled. -/
def NetCfg.layers (c : NetCfg) : Build Unit := do
  Build.each TaskCfg.construct c.tasks
  let shared ← c.kind.build c.features
  Build.each (TaskCfg.build shared) c.tasks
  Build.require (c.tasks ≠ []) .value
  getOptimizer c.optimizer

/-- The inputs of a configured task. -/
def TaskCfg.inputs (t : TaskCfg) : List Str := t.task.inputs

def TaskCfg.label (t : TaskCfg) : Str := t.task.label

/-- task_builders.py:25-26, 162-163, 202-204: the names of pretrained matrices of a task. -/
def TaskCfg.inits (t : TaskCfg) : List Str :=
  if t.task = .lemmaCombo ∧ t.pretrained = true then ["input_subwords".toList] else []

/-- A graph under construction: TensorFlow makes the names of tensors unique, here they are numbered.
`used` are the placeholders that layers read. -/
structure NetSt where
  next : Nat
  inputs : Dict Str Tensor
  outputs : Dict Str Tensor
  gold : Dict Str Tensor
  inits : List Init
  used : List Tensor

/-- `tf.placeholder` for each of the keys. -/
def placeholders (gid : Nat) : Nat → List Str → List (Str × Tensor)
  | _, [] => []
  | n, k :: ks => (k, ⟨gid, natStr n⟩) :: placeholders gid (n + 1) ks

/-- utils.py:158-162 `matrix_initializer` for each of the names: three tensors. -/
def matrixInits (gid n : Nat) (names : List Str) : List Init :=
  names.zipIdx.map (fun p => .matrix p.1 ⟨gid, natStr (n + 3 * p.2)⟩ ⟨gid, natStr (n + 3 * p.2 + 1)⟩
    ⟨gid, natStr (n + 3 * p.2 + 2)⟩)

/-- network.py:149-161: one task.  The layers read `task_inputs`, into which the shared inputs were
merged, and `task_gold`. -/
def taskStep (gid : Nat) (shared : Dict Str Tensor) (st : NetSt) (t : TaskCfg) : NetSt :=
  { next := st.next + t.inputs.length + 2 + 3 * t.inits.length
    inputs := st.inputs.updateList (placeholders gid st.next t.inputs)
    outputs := st.outputs.set t.label ⟨gid, natStr (st.next + t.inputs.length + 1)⟩
    gold := st.gold.set t.label ⟨gid, natStr (st.next + t.inputs.length)⟩
    inits := st.inits ++ matrixInits gid (st.next + t.inputs.length + 2) t.inits
    used := st.used ++
      (((Dict.ofList (placeholders gid st.next t.inputs)).update shared).entries.map Prod.snd) ++
      [⟨gid, natStr (st.next + t.inputs.length)⟩] }

def kDropout : Str := "dropout_probability".toList
def kLr : Str := "learning_rate".toList

/-- network.py:128-147: the graph before the tasks. -/
def sharedPart (gid : Nat) (c : SharedCfg) : NetSt :=
  { next := 2 + c.inputs.length + 3 * c.inits.length
    inputs := Dict.ofList (placeholders gid 2 c.inputs)
    outputs := Dict.empty
    gold := Dict.ofList (placeholders gid 0 [kDropout, kLr])
    inits := matrixInits gid (2 + c.inputs.length) c.inits
    used := (placeholders gid 0 ([kDropout, kLr] ++ c.inputs)).map Prod.snd }

/-- network.py:128-175: the inputs, outputs, labels and initializers, when nothing fails. -/
def wire (gid : Nat) (c : NetCfg) : NetSt :=
  c.tasks.foldl (taskStep gid (sharedPart gid c.features).inputs) (sharedPart gid c.features)

/-- network_provider.py:24-27, network.py:128-181 `MultitaskNetworkBuilder.build`: the network, its graph
and the placeholders that are read. -/
def buildNetwork (gid : Nat) (c : NetCfg) : Res (NN × TfGraph × List Tensor) :=
  match c.layers [] with
  | .error e => .error e
  | .ok _ => .ok
    (⟨(wire gid c).inputs, (wire gid c).outputs, (wire gid c).gold, ⟨gid, "optimizer_op".toList⟩,
        ⟨gid, natStr (wire gid c).next⟩, .global ⟨gid, "init".toList⟩ :: (wire gid c).inits⟩,
      ⟨gid, (List.range ((wire gid c).next + 1)).map natStr, ["optimizer_op".toList, "init".toList]⟩,
      (wire gid c).used)

/-- network.py:122-126 `feature_providers`: the list of the shared builder (shared_builders.py:80-81
returns it itself) is extended in place.  The result, which is also the new list of the shared
builder. -/
def featureProviders {π : Type} (shared : List π) (tasks : List (List π)) : List π :=
  shared ++ tasks.flatten

/-- The results of calling `feature_providers` `n` times. -/
def featureProvidersCalls {π : Type} (tasks : List (List π)) : Nat → List π → List (List π)
  | 0, _ => []
  | n + 1, shared => featureProviders shared tasks ::
      featureProvidersCalls tasks n (featureProviders shared tasks)

/-- provider.py:15-17: the builders that are merged, for features and for labels; a one-shot iterable is
empty when it is iterated the second time. -/
def providerBuilders {π : Type} (feature label : π → Builder) (oneShot : Bool) (providers : List π) :
    List Builder × List Builder :=
  (providers.map feature, (if oneShot then [] else providers).map label)

/-- provider.py:15-17 `FeatureExtractorBuilderProvider`: both merged builders. -/
def mergedProviders {π : Type} (feature label : π → Builder) (oneShot : Bool) (providers : List π) :
    Res (Builder × Builder) :=
  match mergeBuilders (providerBuilders feature label oneShot providers).1 with
  | .error e => .error e
  | .ok f =>
    match mergeBuilders (providerBuilders feature label oneShot providers).2 with
    | .error e => .error e
    | .ok l => .ok (f, l)

end Verif
