import Verif.Spec.Hyper

/-!
# The documented form of the hyperparameters, and what it means

`HyperDoc` is what README.md:42-230 describes, `HyperDoc.toJson` how it is written, `HyperDoc.train` what is to be
trained.
-/

namespace Verif

/-! ### The form -/

inductive SegmenterDoc where
  | char
  | bpe (language : Str) (vocabSize : Nat)
  | morfessor (path : Str)

inductive AggregatorDoc where
  | average
  | cnn (kernels : List Kernel)
  | rnn (cellSize layers : Nat)
  | selfAttention

/-- Random vectors, or those of a file; `min_frequency` and `embed_size` are written there too in the examples. -/
inductive VectorsDoc where
  | random (size minFrequency : Nat) (trainable : Bool)
  | pretrained (path : Str) (trainable : Bool) (minFrequency size : Option Nat)

structure SubwordDoc where
  segmenter : SegmenterDoc
  vectors : VectorsDoc
  aggregator : AggregatorDoc
  highway : Option Bool

structure WordDoc where
  path : Str
  lowercase : Bool
  trainable : Bool
  denseSize : Option Nat

structure TrainedDoc where
  size : Nat
  minFrequency : Nat
  lowercase : Bool
  trainable : Bool

structure FeaturesDoc where
  word : Option WordDoc
  trained : Option TrainedDoc
  chars : Option SubwordDoc
  bpe : Option SubwordDoc
  morfessor : Option SubwordDoc

inductive SkipDoc where
  | concat | sum

inductive ArchitectureDoc where
  | words
  | bilstm (cellSize : Nat) (layers : Option Nat) (skip : Option SkipDoc)
  | bilstmCnn (cellSize : Nat) (layers : Option Nat) (skip : Option SkipDoc) (kernels : List Kernel)
  | dilatedCnn (kernels : List Kernel) (skip : Option SkipDoc)

structure SharedDoc where
  architecture : ArchitectureDoc
  sparse : Option Rat
  features : FeaturesDoc

/-- Where a dense task reads, its size and its weights. -/
structure DenseDoc where
  sharedName : Str
  size : Nat
  weights : List (Str × Rat)

inductive TaskDoc where
  | pos (dense : DenseDoc) (splitting : Splitting)
  | lemmaDense (dense : DenseDoc)
  | lemmaSuffix (dense : DenseDoc) (threshold : Rat)
  | lemmaCombo (dense : DenseDoc) (kernels : List Kernel) (segmenter : SegmenterDoc) (embedSize minFrequency : Nat)
      (highway : Option Bool) (outSegmenter : SegmenterDoc) (outMinFrequency maxLength : Nat)

inductive OptimizerDoc where
  | gd | adam | rmsProp

structure HyperDoc where
  epochs : Nat
  dropout : Rat
  batchSize : Nat
  optimizer : OptimizerDoc
  initialLr : Rat
  decay : Rat
  factor : Rat
  shared : SharedDoc
  tasks : List (Str × TaskDoc)

/-! ### How it is written -/

def jkey (k : String) (v : JV) : Str × JV := (k.toList, v)

def jopt {α : Type} (k : String) (f : α → JV) : Option α → List (Str × JV)
  | none => []
  | some v => [jkey k (f v)]

def jnat (n : Nat) : JV := .num n

def jtext (s : String) : JV := .str s.toList

def Kernel.toJson (k : Kernel) : JV :=
  .obj [jkey "size" (jnat k.size), jkey "count" (jnat k.count), jkey "dilation" (jnat k.dilation)]

def kernelsJson (l : List Kernel) : JV := .arr (l.map Kernel.toJson)

def SegmenterDoc.entries : SegmenterDoc → List (Str × JV)
  | .char => [jkey "segmenter" (jtext "char")]
  | .bpe l v => [jkey "segmenter" (jtext "bpe"),
      jkey "segmenter_config" (.obj [jkey "language" (.str l), jkey "vocab_size" (jnat v)])]
  | .morfessor p => [jkey "segmenter" (jtext "morfessor"), jkey "segmenter_config" (.obj [jkey "path" (.str p)])]

def AggregatorDoc.entries : AggregatorDoc → List (Str × JV)
  | .average => [jkey "aggregator" (jtext "average")]
  | .cnn ks => [jkey "aggregator" (jtext "cnn"), jkey "aggregator_config" (.obj [jkey "cnn_kernels" (kernelsJson ks)])]
  | .rnn c n => [jkey "aggregator" (jtext "rnn"),
      jkey "aggregator_config" (.obj [jkey "lstm_cell_size" (jnat c), jkey "bilstm_layer_count" (jnat n)])]
  | .selfAttention => [jkey "aggregator" (jtext "self-attention")]

def VectorsDoc.entries : VectorsDoc → List (Str × JV)
  | .random n m t => [jkey "embed_size" (jnat n), jkey "min_frequency" (jnat m), jkey "trainable" (.bool t)]
  | .pretrained p t m n =>
    [jkey "embedding_path" (.str p), jkey "trainable" (.bool t)] ++ jopt "min_frequency" jnat m ++ jopt "embed_size" jnat n

def SubwordDoc.toJson (d : SubwordDoc) : JV :=
  .obj (d.segmenter.entries ++ d.vectors.entries ++ d.aggregator.entries ++ jopt "highway_layer" .bool d.highway)

def WordDoc.toJson (d : WordDoc) : JV :=
  .obj (jopt "we_dense_size" jnat d.denseSize ++
    [jkey "path" (.str d.path), jkey "trainable" (.bool d.trainable), jkey "lowercase" (.bool d.lowercase)])

def TrainedDoc.toJson (d : TrainedDoc) : JV :=
  .obj [jkey "trainable" (.bool d.trainable), jkey "size" (jnat d.size), jkey "min_frequency" (jnat d.minFrequency),
    jkey "lowercase" (.bool d.lowercase)]

def FeaturesDoc.toJson (d : FeaturesDoc) : JV :=
  .obj (jopt "word_embedding" WordDoc.toJson d.word ++ jopt "word_characters" SubwordDoc.toJson d.chars ++
    jopt "bpe_subwords" SubwordDoc.toJson d.bpe ++ jopt "morfessor_subwords" SubwordDoc.toJson d.morfessor ++
    jopt "word_trained_embedding" TrainedDoc.toJson d.trained)

def SkipDoc.toJson : SkipDoc → JV
  | .concat => jtext "concat"
  | .sum => jtext "sum"

def ArchitectureDoc.name : ArchitectureDoc → JV
  | .words => jtext "WE_charCNN"
  | .bilstm _ _ _ => jtext "BiLSTM"
  | .bilstmCnn _ _ _ _ => jtext "BiLSTM_CNN"
  | .dilatedCnn _ _ => jtext "Dilated_CNN"

def ArchitectureDoc.entries : ArchitectureDoc → List (Str × JV)
  | .words => []
  | .bilstm c n s => [jkey "lstm_cell_size" (jnat c)] ++ jopt "bilstm_layer_count" jnat n ++
      jopt "skip_connection" SkipDoc.toJson s
  | .bilstmCnn c n s ks => [jkey "lstm_cell_size" (jnat c)] ++ jopt "bilstm_layer_count" jnat n ++
      jopt "skip_connection" SkipDoc.toJson s ++ [jkey "cnn_kernels" (kernelsJson ks)]
  | .dilatedCnn ks s => [jkey "cnn_kernels" (kernelsJson ks)] ++ jopt "skip_connection" SkipDoc.toJson s

def SharedDoc.toJson (d : SharedDoc) : JV :=
  .obj [jkey "builder" d.architecture.name,
    jkey "config" (.obj (d.architecture.entries ++ jopt "sparse_input_prob" .num d.sparse)),
    jkey "features_config" d.features.toJson]

def weightsJson (l : List (Str × Rat)) : JV := .obj (l.map (fun p => (p.1, .num p.2)))

def DenseDoc.entries (d : DenseDoc) : List (Str × JV) :=
  [jkey "shared_name" (.str d.sharedName), jkey "dense_size" (jnat d.size), jkey "loss_weights" (weightsJson d.weights)]

def splittingText : Splitting → JV
  | .joint => jtext "pos_joint"
  | .xf => jtext "pos_XF"
  | .uxf => jtext "pos_UXF"
  | .gran => jtext "pos_gran"

def TaskDoc.toJson : TaskDoc → JV
  | .pos d s => .obj [jkey "builder" (jtext "pos_dense"), jkey "config" (.obj (d.entries ++ [jkey "splitting" (splittingText s)]))]
  | .lemmaDense d => .obj [jkey "builder" (jtext "lemma_dense"), jkey "config" (.obj d.entries)]
  | .lemmaSuffix d t => .obj [jkey "builder" (jtext "lemma_suffix"), jkey "config" (.obj d.entries),
      jkey "features_config" (.obj [jkey "lemma_suffix_transformation" (.obj [jkey "rules_threshold" (.num t)])])]
  | .lemmaCombo d ks s e m h s' m' n => .obj [jkey "builder" (jtext "lemma_combo"),
      jkey "config" (.obj [jkey "shared_name" (.str d.sharedName), jkey "cnn_bilstm_dense_size" (jnat d.size),
        jkey "cnn_kernels" (kernelsJson ks), jkey "loss_weights" (weightsJson d.weights)]),
      jkey "features_config" (.obj
        [jkey "input_subwords" (.obj (s.entries ++ [jkey "embed_size" (jnat e), jkey "min_frequency" (jnat m)] ++
          jopt "highway_layer" .bool h)),
         jkey "output_subwords" (.obj (s'.entries ++
          [jkey "min_frequency" (jnat m'), jkey "max_word_length" (jnat n)]))])]

def OptimizerDoc.toJson : OptimizerDoc → JV
  | .gd => jtext "GD"
  | .adam => jtext "Adam"
  | .rmsProp => jtext "RMSProp"

def HyperDoc.toJson (d : HyperDoc) : JV :=
  .obj [jkey "epochs" (jnat d.epochs), jkey "dropout" (.num d.dropout), jkey "batch_size" (jnat d.batchSize),
    jkey "tasks" (.arr (d.tasks.map (fun t => .str t.1))),
    jkey "nn_config" (.obj ([
      jkey "general" (.obj [jkey "optimizer" (.obj [jkey "type" d.optimizer.toJson,
        jkey "lr_decrease_factor" (.num d.factor), jkey "initial_lr" (.num d.initialLr),
        jkey "lr_decay" (.num d.decay)])]),
      jkey "shared_part" d.shared.toJson] ++ d.tasks.map (fun t => (t.1, t.2.toJson))))]

/-! ### What it means -/

/-- Reading what is there. -/
def readOpt {α β : Type} (f : α → Res β) : Option α → Res (Option β)
  | none => .ok none
  | some a => (f a).map some

def SegmenterDoc.segmenter (w : Outside) : SegmenterDoc → Res (Str → List Str)
  | .char => .ok charSegment
  | .bpe l v => w.bpe (.str l) (jnat v)
  | .morfessor p => w.morfessor (.str p)

def SubwordDoc.provider (w : Outside) (name : Str) (d : SubwordDoc) : Res Provider := do
  let s ← d.segmenter.segmenter w
  match d.vectors with
  | .random _ m _ => return .subwords name m s
  | .pretrained p _ _ _ => return .subwordEmb name name (← w.file p) s

def WordDoc.provider (w : Outside) (d : WordDoc) : Res Provider := do
  return .wordEmb "words".toList "word_embeddings".toList (← w.file d.path) d.lowercase

def TrainedDoc.provider (d : TrainedDoc) : Res Provider :=
  .ok (.trainable "trained_words".toList d.minFrequency d.lowercase)

/-- The features: the length of the sentence and those that are configured. -/
def FeaturesDoc.providers (w : Outside) (d : FeaturesDoc) : Res (List Provider) := do
  let a ← readOpt (WordDoc.provider w) d.word
  let b ← readOpt TrainedDoc.provider d.trained
  let x ← readOpt (SubwordDoc.provider w "characters".toList) d.chars
  let y ← readOpt (SubwordDoc.provider w "bpe_subwords".toList) d.bpe
  let z ← readOpt (SubwordDoc.provider w "morfessor_subwords".toList) d.morfessor
  return [Provider.sentLength "sentences_lengths".toList] ++ a.toList ++ b.toList ++ x.toList ++ y.toList ++ z.toList

def TaskDoc.providers (w : Outside) : TaskDoc → Res (List Provider)
  | .pos _ s => .ok [.posDict "pos_labels".toList s]
  | .lemmaDense _ => .ok [.lemmaDict "lemma_labels".toList]
  | .lemmaSuffix _ t => .ok [.lemmaRules "applicable_rules".toList "lemma_rule_labels".toList t.floor]
  | .lemmaCombo _ _ s _ m _ s' m' n => do
    let o ← s'.segmenter w
    let i ← s.segmenter w
    return [.lemmaChars "output_subwords".toList m' n o, .subwords "input_subwords".toList m i]

def HyperDoc.providers (w : Outside) (d : HyperDoc) : Res (List Provider) := do
  let a ← d.shared.features.providers w
  let b ← mapM' (fun t : Str × TaskDoc => t.2.providers w) d.tasks
  return a ++ b.flatten

def AggregatorDoc.aggregator : AggregatorDoc → Aggregator
  | .average => .average
  | .cnn ks => .cnn ks
  | .rnn c n => .rnn c n
  | .selfAttention => .selfAttention

/-- The size of random vectors is the configured one, that of others the one of the file. -/
def SubwordDoc.net (shapes : Dict Str Shape) (name : Str) (d : SubwordDoc) : Res (Trained SubwordCfg) :=
  match d.vectors with
  | .random n _ t => .ok (⟨n, false, d.aggregator.aggregator, d.highway.getD false⟩, t)
  | .pretrained _ t _ _ => do
    return (⟨← shapeWidth shapes name, true, d.aggregator.aggregator, d.highway.getD false⟩, t)

def WordDoc.net (shapes : Dict Str Shape) (d : WordDoc) : Res (Trained WordCfg) := do
  return (⟨← shapeWidth shapes "word_embeddings".toList, d.denseSize⟩, d.trainable)

def TrainedDoc.net (d : TrainedDoc) : Res (Trained Nat) := .ok (d.size, d.trainable)

def FeaturesDoc.net (shapes : Dict Str Shape) (d : FeaturesDoc) : Res SharedRead := do
  let a ← readOpt (WordDoc.net shapes) d.word
  let b ← readOpt TrainedDoc.net d.trained
  let x ← readOpt (SubwordDoc.net shapes "characters".toList) d.chars
  let y ← readOpt (SubwordDoc.net shapes "bpe_subwords".toList) d.bpe
  let z ← readOpt (SubwordDoc.net shapes "morfessor_subwords".toList) d.morfessor
  return ⟨⟨a.map Prod.fst, b.map Prod.fst, x.map Prod.fst, y.map Prod.fst, z.map Prod.fst⟩,
    trainedEntry "word_embeddings".toList a ++ trainedEntry "trained_words".toList b ++
    trainedEntry "characters".toList x ++ trainedEntry "bpe_subwords".toList y ++
    trainedEntry "morfessor_subwords".toList z⟩

def SkipDoc.text : SkipDoc → Str
  | .concat => "concat".toList
  | .sum => "sum".toList

/-- One layer and no skip connection if nothing else is said. -/
def ArchitectureDoc.kind : ArchitectureDoc → SharedKind
  | .words => .words
  | .bilstm c n s => .bilstm c (n.getD 1 : Nat) (s.map SkipDoc.text)
  | .bilstmCnn c n s ks => .bilstmCnn c (n.getD 1 : Nat) (s.map SkipDoc.text) ks
  | .dilatedCnn ks s => .dilatedCnn (some ks) (s.map SkipDoc.text)

/-- A dense task has a classifier for each part of its label. -/
def DenseDoc.net (shapes : Dict Str Shape) (task : Task) (d : DenseDoc) : Res TaskRead := do
  return ⟨⟨task, d.sharedName, some (d.weights.map Prod.fst), ← shapeParts shapes task.label, 0, d.size, [], false, false⟩,
    some d.weights⟩

def TaskDoc.net (shapes : Dict Str Shape) : TaskDoc → Res TaskRead
  | .pos d _ => d.net shapes .posDense
  | .lemmaDense d => d.net shapes .lemmaDense
  | .lemmaSuffix d _ => d.net shapes .lemmaSuffix
  | .lemmaCombo d ks _ e _ h _ _ _ => .ok
    ⟨⟨.lemmaCombo, d.sharedName, some (d.weights.map Prod.fst), [], e, d.size, ks, false, h.getD false⟩, some d.weights⟩

def OptimizerDoc.text : OptimizerDoc → Str
  | .gd => "GD".toList
  | .adam => "Adam".toList
  | .rmsProp => "RMSProp".toList

def HyperDoc.net (shapes : Dict Str Shape) (d : HyperDoc) : Res NetRead := do
  let f ← d.shared.features.net shapes
  let ts ← mapM' (fun t : Str × TaskDoc => t.2.net shapes) d.tasks
  return ⟨⟨d.shared.architecture.kind, f.cfg, ts.map TaskRead.cfg, some d.optimizer.text⟩, f.trained,
    ts.map TaskRead.weights⟩

/-- The training: the features are made of the training data, the network of their shapes, and the loop runs with the
configured numbers.  Nothing is replaced by unknown words if nothing else is said. -/
def HyperDoc.train {F μ σ : Type} (w : Outside) (m : Machine F μ σ) (dir : List Str)
    (dev : Option (Nat → List Str × μ → Res ScoreTable)) (d : HyperDoc) : Res (TrainSt μ × Option Err) := do
  let ps ← d.providers w
  let asm ← assemble m.lower m.float m.zero m.tok (m.sparsify (d.shared.sparse.getD 0)) m.seen ps
  let shapes ← asm.shapes
  let net ← d.net shapes
  let _ ← buildNetwork m.graph net.cfg
  let p ← m.learn net asm
  return trainLoop (p.2 d.dropout) ⟨d.initialLr, d.decay, d.factor, d.epochs, d.batchSize⟩ dir m.sents dev p.1

/-! ### Conditions -/

/-- Random vectors are to be trained. -/
def SubwordDoc.Trains (d : SubwordDoc) : Prop := ∀ n m, d.vectors ≠ .random n m false

/-- The tasks have different names, not those of the other sections; the lemmas of the transducer have a weight; random
subword vectors are to be trained. -/
structure HyperDoc.Fine (d : HyperDoc) : Prop where
  names : (d.tasks.map Prod.fst).Nodup
  other : ∀ t ∈ d.tasks, t.1 ≠ "general".toList ∧ t.1 ≠ "shared_part".toList
  weight : ∀ t ∈ d.tasks, ∀ x ks s e m h s' m' n, t.2 = .lemmaCombo x ks s e m h s' m' n →
    "LEMMA".toList ∈ x.weights.map Prod.fst
  chars : ∀ c, d.shared.features.chars = some c → c.Trains
  bpe : ∀ c, d.shared.features.bpe = some c → c.Trains
  morfessor : ∀ c, d.shared.features.morfessor = some c → c.Trains

end Verif
