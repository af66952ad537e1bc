import Verif.Model.Network

/-!
# Specification vocabulary for networks
-/

namespace Verif

/-- The tensor of the graph `g` with the name of `t`. -/
def TfGraph.twin (g : TfGraph) (t : Tensor) : Tensor := ⟨g.id, t.name⟩

/-- The operation of the graph `g` with the name of `o`. -/
def TfGraph.twinOp (g : TfGraph) (o : Operation) : Operation := ⟨g.id, o.name⟩

/-- The tensors and operations of an initializer have their names in the graph. -/
def Init.NamedIn (g : TfGraph) : Init → Prop
  | .global op => op.name ∈ g.ops
  | .matrix _ i v u => i.name ∈ g.tensors ∧ v.name ∈ g.tensors ∧ u.name ∈ g.tensors

/-- All tensors and operations of a network have their names in the graph. -/
structure NN.NamedIn (g : TfGraph) (nn : NN) : Prop where
  inputs : ∀ k t, nn.inputs.get? k = some t → t.name ∈ g.tensors
  outputs : ∀ k t, nn.outputs.get? k = some t → t.name ∈ g.tensors
  gold : ∀ k t, nn.gold.get? k = some t → t.name ∈ g.tensors
  optimizer : nn.optimizer.name ∈ g.ops
  loss : nn.loss.name ∈ g.tensors
  initializers : ∀ i ∈ nn.initializers, i.NamedIn g

/-- The initializer with the same names in the graph `g`. -/
def TfGraph.twinInit (g : TfGraph) : Init → Init
  | .global op => .global (g.twinOp op)
  | .matrix p i v u => .matrix p (g.twin i) (g.twin v) (g.twin u)

/-- `nn'` is the network of the same names in the graph `g`. -/
structure Reattached (g : TfGraph) (nn nn' : NN) : Prop where
  inputs : ∀ k, nn'.inputs.get? k = (nn.inputs.get? k).map g.twin
  outputs : ∀ k, nn'.outputs.get? k = (nn.outputs.get? k).map g.twin
  gold : ∀ k, nn'.gold.get? k = (nn.gold.get? k).map g.twin
  optimizer : nn'.optimizer = g.twinOp nn.optimizer
  loss : nn'.loss = g.twin nn.loss
  initializers : nn'.initializers = nn.initializers.map g.twinInit

/-- The initializer belongs to the graph with the number `n`. -/
def Init.Of (n : Nat) : Init → Prop
  | .global op => op.graph = n
  | .matrix _ i v u => i.graph = n ∧ v.graph = n ∧ u.graph = n

/-- All parts of a network belong to the graph with the number `n`. -/
structure NN.Of (n : Nat) (nn : NN) : Prop where
  inputs : ∀ k t, nn.inputs.get? k = some t → t.graph = n
  outputs : ∀ k t, nn.outputs.get? k = some t → t.graph = n
  gold : ∀ k t, nn.gold.get? k = some t → t.graph = n
  optimizer : nn.optimizer.graph = n
  loss : nn.loss.graph = n
  initializers : ∀ i ∈ nn.initializers, i.Of n

/-- Different keys stand for different tensors. -/
def OneToOne (d : Dict Str Tensor) : Prop :=
  ∀ k k' t, d.get? k = some t → d.get? k' = some t → k = k'

/-- Every opened session was closed: the events are pairs of opening and closing. -/
def allClosed : List SessEvent → Bool
  | [] => true
  | .opened :: .closed :: l => allClosed l
  | _ => false

/-- All features the providers of a configuration extract, and all labels. -/
def extractedFeatures (c : NetCfg) : List Str :=
  c.features.features ++ c.tasks.flatMap (fun t => t.task.features)

def extractedLabels (c : NetCfg) : List Str := c.tasks.flatMap (fun t => t.task.labels)

/-! ### Which configurations can be built -/

/-- The size of the vectors after the layers of a convolution: every layer makes vectors with one number per filter. -/
def afterLayers (input : Nat) (ks : List Kernel) : Nat := ks.foldl (fun _ k => k.count) input

/-- The size of the word vectors: both directions of recurrent layers, the filters of the last convolution, and the size of
the embeddings where nothing is computed but averages. -/
def SubwordCfg.vectors (c : SubwordCfg) : Nat :=
  match c.agg with
  | .rnn _ 0 => c.size
  | .rnn cell (_ + 1) => cell + cell
  | .cnn ks => afterLayers c.size ks
  | .average | .selfAttention => c.size
  | .other => 0

/-- Subword embeddings have a positive size, the aggregator is known, a convolution has layers. -/
def SubwordCfg.Ok (c : SubwordCfg) : Prop :=
  c.size ≠ 0 ∧ match c.agg with
    | .cnn ks => ks ≠ []
    | .other => False
    | _ => True

def optSize {κ : Type} (f : κ → Nat) : Option κ → List Nat
  | none => []
  | some c => [f c]

/-- The sizes of the vectors of the configured features. -/
def SharedCfg.sizes (c : SharedCfg) : List Nat :=
  optSize (fun w => w.dense.getD w.size) c.word ++ optSize id c.trained ++ optSize SubwordCfg.vectors c.chars ++
  optSize SubwordCfg.vectors c.bpe ++ optSize SubwordCfg.vectors c.morfessor

/-- At least one feature is configured, and all are fine. -/
structure SharedCfg.Ok (c : SharedCfg) : Prop where
  nonempty : c.word.isSome ∨ c.trained.isSome ∨ c.chars.isSome ∨ c.bpe.isSome ∨ c.morfessor.isSome
  word : ∀ w, c.word = some w → w.size ≠ 0
  trained : ∀ n, c.trained = some n → n ≠ 0
  chars : ∀ s, c.chars = some s → s.Ok
  bpe : ∀ s, c.bpe = some s → s.Ok
  morfessor : ∀ s, c.morfessor = some s → s.Ok

/-- The skip connection is known, and sums have equal sizes. -/
def SkipOk (n total : Nat) (skip : Option Str) : Prop :=
  ∀ s, skip = some s → s = "concat".toList ∨ s = "sum".toList ∧ n = total

/-- The shared layers have at least one layer, and their skip connections are fine. -/
def SharedKind.Ok (c : SharedCfg) : SharedKind → Prop
  | .words => True
  | .bilstm cell layers skip => 0 < layers ∧ SkipOk (2 * cell) c.sizes.sum skip
  | .bilstmCnn cell layers skip ks => 0 < layers ∧ SkipOk (2 * cell) c.sizes.sum skip ∧ ks ≠ []
  | .dilatedCnn none _ => False
  | .dilatedCnn (some ks) skip => ks ≠ [] ∧ SkipOk (afterLayers 0 ks) c.sizes.sum skip

/-- The layers a task may read: the configured features, all of them together, and what the kind of the
shared part adds. -/
def NetCfg.readable (c : NetCfg) : List Str :=
  (if c.features.word.isSome then ["word_embedding".toList] else []) ++
  (if c.features.trained.isSome then ["trained_embedding".toList] else []) ++
  (if c.features.chars.isSome then ["characters".toList] else []) ++
  (if c.features.bpe.isSome then ["bpe_subwords".toList] else []) ++
  (if c.features.morfessor.isSome then ["morfessor_subwords".toList] else []) ++
  ["word_features".toList] ++
  match c.kind with
  | .words => []
  | .bilstm _ _ skip => "bilstm".toList ::
      (if skip.isSome then ["bilstm_and_word_features".toList] else [])
  | .bilstmCnn _ _ skip _ => "bilstm".toList ::
      (if skip.isSome then ["bilstm_and_word_features".toList] else []) ++ ["bilstm_cnn".toList]
  | .dilatedCnn _ skip => "dilated_cnn".toList ::
      (if skip.isSome then ["dilated_cnn_and_word_features".toList] else [])

/-- The convolution of the shared part that is named like that of the character task. -/
def SharedKind.cnnKernels : SharedKind → List Kernel
  | .bilstmCnn _ _ _ ks => ks
  | _ => []

/-- A task can be built: it is not the binary one; it reads a layer there is; a dense task has parts, and a
weight for each; the character task has a weight, embeddings of positive size, a highway layer only if the
sizes fit, and no kernel that is equal to the one of the same number in the shared part. -/
def TaskCfg.Ok (c : NetCfg) (t : TaskCfg) : Prop :=
  t.sharedName ∈ c.readable ∧
  match t.task with
  | .lemmaBinary => False
  | .lemmaCombo => (∃ ws, t.weights = some ws ∧ "LEMMA".toList ∈ ws) ∧ t.embed ≠ 0 ∧
      (t.highway = true → afterLayers (t.embed + t.dense) t.kernels = t.embed ∨
        afterLayers (t.embed + t.dense) t.kernels = 1 ∨ t.embed = 1) ∧
      ∀ (i : Nat) k, t.kernels[i]? = some k → c.kind.cnnKernels[i]? ≠ some k
  | _ => t.slots ≠ [] ∧ ∃ ws, t.weights = some ws ∧ ∀ s ∈ t.slots, s ∈ ws ∨ "default".toList ∈ ws

/-- A configuration can be built: features, shared part, tasks and optimizer are fine, there is a task, and
no two tasks have the same label. -/
structure NetCfg.Ok (c : NetCfg) : Prop where
  features : c.features.Ok
  kind : c.kind.Ok c.features
  tasks : ∀ t ∈ c.tasks, t.Ok c
  nonempty : c.tasks ≠ []
  labels : (c.tasks.map (fun t => t.task.label)).Nodup
  optimizer : ∃ o ∈ optimizers, c.optimizer = some o

end Verif
