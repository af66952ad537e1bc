import Verif.Model.Providers

/-!
# Model of how the hyperparameters are read

`--hyperparams` is a JSON file (evaluation.py:349-351); its entries are passed to `NeuralTaggerTrainer.train` as keyword
arguments (evaluation.py:126-129), which makes feature extractors, a network and the settings of the training loop of
them.  Here the values are read from the JSON value, so that every entry may be missing or have a wrong type.

Simplifications: the entries of one stage (constructors, features, network) are all read before the stage does its
work, so if there are several mistakes, another of them may be reported.  A number that TensorFlow rejects is a
`TypeError` or `ValueError`.  `BPEmb` and Morfessor models and files of embeddings are given by functions.
-/

namespace Verif

/-- A JSON value as `json.load` returns it.  A key occurs once in a dictionary. -/
inductive JV where
  | null
  | bool (b : Bool)
  | num (q : Rat)
  | str (s : Str)
  | arr (l : List JV)
  | obj (l : List (Str × JV))

namespace JV

/-- `j[k]`. -/
def get (k : Str) : JV → Res JV
  | obj l => match assocGet k l with
    | some v => .ok v
    | none => .error .key
  | _ => .error .type

/-- `j.get(k, d)`. -/
def getD (j : JV) (k : Str) (d : JV) : Res JV :=
  match j with
  | obj l => .ok ((assocGet k l).getD d)
  | _ => .error .attribute

/-- The value is this string. -/
def isStr (k : Str) : JV → Bool
  | str s => s == k
  | _ => false

/-- `k in j`. -/
def has (k : Str) : JV → Res Bool
  | obj l => .ok (assocGet k l).isSome
  | arr l => .ok (l.any (isStr k))
  | str s => .ok (decide (k <:+: s))
  | _ => .error .type

/-- `bool(j)`. -/
def truthy : JV → Bool
  | null => false
  | bool b => b
  | num q => decide (q ≠ 0)
  | str s => !s.isEmpty
  | arr l => !l.isEmpty
  | obj l => !l.isEmpty

/-- A number; `True` and `False` are 1 and 0. -/
def number : JV → Res Rat
  | num q => .ok q
  | bool b => .ok (if b then 1 else 0)
  | _ => .error .type

/-- A number that is used as an `int`. -/
def int : JV → Res Int
  | num q => if q.den = 1 then .ok q.num else .error .type
  | _ => .error .type

/-- A number that is used as a size. -/
def size : JV → Res Nat
  | num q => if q.den = 1 then (if q.num < 0 then .error .value else .ok q.num.toNat) else .error .type
  | _ => .error .type

/-- `count >= j` for numbers `count` is `count >= atLeast j`. -/
def atLeast (j : JV) : Res Int :=
  match j.number with
  | .error e => .error e
  | .ok q => .ok q.ceil

/-- `count > j` for numbers `count` is `count > above j`. -/
def above (j : JV) : Res Int :=
  match j.number with
  | .error e => .error e
  | .ok q => .ok q.floor

/-- A path. -/
def string : JV → Res Str
  | str s => .ok s
  | _ => .error .type

/-- A key of a dictionary with string keys: lists and dictionaries are not hashable. -/
def key : JV → Res Str
  | str s => .ok s
  | arr _ => .error .type
  | obj _ => .error .type
  | _ => .error .key

/-- A list. -/
def list : JV → Res (List JV)
  | arr l => .ok l
  | _ => .error .type

/-- `for x in j`. -/
def iter : JV → Res (List JV)
  | arr l => .ok l
  | str s => .ok (s.map (fun c => str [c]))
  | obj l => .ok (l.map (fun p => str p.1))
  | _ => .error .type

end JV

/-- What is outside of the program: files of embeddings, and the segmenters of BPEmb and Morfessor (extractors.py:222-223,
237-239). -/
structure Outside where
  file : Str → Res (List Str)
  bpe : JV → JV → Res (Str → List Str)
  morfessor : JV → Res (Str → List Str)

/-! ### Where the entries are -/

/-- neural_tagger.py:95. -/
def hyperNN (j : JV) : Res JV := j.get "nn_config".toList

/-- neural_tagger.py:97. -/
def hyperShared (j : JV) : Res JV := do (← hyperNN j).get "shared_part".toList

/-- network_provider.py:25. -/
def hyperSharedFeatures (j : JV) : Res JV := do (← hyperShared j).getD "features_config".toList (.obj [])

/-- neural_tagger.py:97, network.py:120. -/
def hyperOptimizer (j : JV) : Res JV := do (← (← hyperNN j).get "general".toList).get "optimizer".toList

/-- neural_tagger.py:96, one task. -/
def hyperTask (nn t : JV) : Res JV := do nn.get (← t.key)

/-- neural_tagger.py:96: the entries of the tasks. -/
def hyperTasks (j : JV) : Res (List JV) := do
  let nn ← hyperNN j
  mapM' (hyperTask nn) (← (← j.get "tasks".toList).iter)

/-- An optional part of the features. -/
def optPart {β : Type} (fc : JV) (k : Str) (f : JV → Res β) : Res (Option β) := do
  if ← fc.has k then return some (← f (← fc.get k)) else return none

/-! ### Constructors -/

/-- The shared builders of network_provider.py:6-12. -/
inductive SharedName where
  | words | bilstm | bilstmCnn | dilatedCnn
  deriving DecidableEq

/-- network_provider.py:6-12 `_shared_builders`. -/
def sharedNames : List (Str × SharedName) :=
  [("WE_charCNN".toList, .words), ("BiLSTM".toList, .bilstm), ("BiLSTM_CNN".toList, .bilstmCnn),
   ("Dilated_CNN".toList, .dilatedCnn)]

/-- `_shared_builders[...]`, `_task_builders[...]`, `_subword_aggregators[...]`. -/
def lookupName {β : Type} (l : List (Str × β)) (j : JV) : Res β := do
  match assocGet (← j.key) l with
  | some b => return b
  | none => .error .key

/-- provider.py:71-72. -/
def checkWord (c : JV) : Res Unit := do
  let _ ← c.get "path".toList
  let _ ← c.get "lowercase".toList

/-- provider.py:86-87. -/
def checkTrained (c : JV) : Res Unit := do
  let _ ← c.get "min_frequency".toList
  let _ ← c.get "lowercase".toList

/-- utils.py:90. -/
def checkSubword (c : JV) : Res Unit := do
  let _ ← c.has "embedding_path".toList

/-- shared_builders.py:11-78 `WECharCNNSharedNetworkBuilder.__init__`. -/
def checkFeatures (fc : JV) : Res Unit := do
  let _ ← optPart fc "word_embedding".toList checkWord
  let _ ← optPart fc "word_trained_embedding".toList checkTrained
  let _ ← optPart fc "word_characters".toList checkSubword
  let _ ← optPart fc "bpe_subwords".toList checkSubword
  let _ ← optPart fc "morfessor_subwords".toList checkSubword

/-- shared_builders.py:113-118, 152-155, 187-190: the constructors after the one of the features. -/
def checkSharedConfig (c : JV) : SharedName → Res Unit
  | .words => pure ()
  | .bilstm => do
    let _ ← c.get "lstm_cell_size".toList
    let _ ← c.getD "skip_connection".toList .null
    let _ ← c.getD "bilstm_layer_count".toList (.num 1)
  | .bilstmCnn => do
    let _ ← c.get "lstm_cell_size".toList
    let _ ← c.getD "skip_connection".toList .null
    let _ ← c.getD "bilstm_layer_count".toList (.num 1)
    let _ ← c.get "cnn_kernels".toList
  | .dilatedCnn => do
    let _ ← c.getD "skip_connection".toList .null
    let _ ← c.getD "cnn_kernels".toList .null

/-- network_provider.py:25. -/
def checkShared (s : JV) : Res Unit := do
  let name ← lookupName sharedNames (← s.get "builder".toList)
  let c ← s.get "config".toList
  let fc ← s.getD "features_config".toList (.obj [])
  checkFeatures fc
  checkSharedConfig c name

/-- task_builders.py:13-18 `DenseTaskNetworkBuilder.__init__`. -/
def checkDense (c : JV) : Res Unit := do
  let _ ← c.get "shared_name".toList
  let _ ← c.get "dense_size".toList
  let _ ← c.getD "loss_weights".toList .null

/-- task_builders.py:77-80, 86-88, 94-97, 116-127, 217-221: the constructors of the tasks. -/
def checkTaskConfig (c fc : JV) : Task → Res Unit
  | .posDense => do
    checkDense c
    let _ ← c.get "splitting".toList
  | .lemmaDense => checkDense c
  | .lemmaSuffix => do
    checkDense c
    let _ ← fc.get "lemma_suffix_transformation".toList
  | .lemmaCombo => do
    let _ ← c.get "shared_name".toList
    let _ ← (← fc.get "input_subwords".toList).get "embed_size".toList
    let _ ← c.get "cnn_bilstm_dense_size".toList
    let _ ← c.get "cnn_kernels".toList
    let _ ← (← fc.get "output_subwords".toList).get "max_word_length".toList
    let _ ← (← c.getD "loss_weights".toList .null).get "LEMMA".toList
  | .lemmaBinary => do
    let _ ← c.get "shared_name".toList
    let _ ← c.get "dense_size".toList
    let _ ← fc.get "lemma_suffix_transformation".toList

/-- network_provider.py:26. -/
def checkTask (t : JV) : Res Unit := do
  let task ← lookupName taskNames (← t.get "builder".toList)
  let c ← t.get "config".toList
  let fc ← t.getD "features_config".toList (.obj [])
  checkTaskConfig c fc task

/-- All of them, one after the other. -/
def checkEach : List JV → Res Unit
  | [] => pure ()
  | t :: ts => do
    checkTask t
    checkEach ts

/-- neural_tagger.py:95-98, network_provider.py:24-27: the constructors, and the rate of sparsification. -/
def hyperConstruct (j : JV) : Res Rat := do
  let tasks ← hyperTasks j
  let s ← hyperShared j
  checkShared s
  checkEach tasks
  let _ ← hyperOptimizer j
  (← (← s.get "config".toList).getD "sparse_input_prob".toList (.num 0)).number

/-! ### Features -/

/-- extractors.py:245-249 `_segmenters`, and 147-151, 178-182, 537-541: the segmenter of a configuration.  The constructors
take the entries of `segmenter_config` as keyword arguments (213, 222, 237). -/
def segmenterOf (w : Outside) (c : JV) : Res (Str → List Str) := do
  let s ← c.get "segmenter".toList
  let sc ← c.getD "segmenter_config".toList (.obj [])
  match s, sc with
  | .arr _, _ => .error .type
  | .obj _, _ => .error .type
  | .str n, .obj args =>
    if n = "char".toList then return charSegment
    else if n = "bpe".toList then
      match assocGet "language".toList args, assocGet "vocab_size".toList args with
      | some l, some v => w.bpe l v
      | _, _ => .error .type
    else if n = "morfessor".toList then
      match args with
      | [(k, p)] => if k = "path".toList then w.morfessor p else .error .type
      | _ => .error .type
    else .error .value
  | .str n, _ =>
    if n = "char".toList ∨ n = "bpe".toList ∨ n = "morfessor".toList then .error .type else .error .value
  | _, _ => .error .value

/-- utils.py:90-93 and task_builders.py:134-142: the provider of a subword feature (extractors.py:140-145, 172-176). -/
def subwordProvider (w : Outside) (name : Str) (c : JV) : Res Provider := do
  if ← c.has "embedding_path".toList then
    let path ← (← c.get "embedding_path".toList).string
    let seg ← segmenterOf w c
    let lines ← w.file path
    return .subwordEmb name name lines seg
  else
    let th ← (← c.get "min_frequency".toList).atLeast
    let seg ← segmenterOf w c
    return .subwords name th seg

/-- shared_builders.py:24, provider.py:67-77. -/
def wordProvider (w : Outside) (c : JV) : Res Provider := do
  let path ← (← c.get "path".toList).string
  let lc ← c.get "lowercase".toList
  let lines ← w.file path
  return .wordEmb "words".toList "word_embeddings".toList lines lc.truthy

/-- shared_builders.py:46, provider.py:84-92. -/
def trainedProvider (c : JV) : Res Provider := do
  let th ← (← c.get "min_frequency".toList).atLeast
  let lc ← c.get "lowercase".toList
  return .trainable "trained_words".toList th lc.truthy

/-- shared_builders.py:18-74: the providers of the shared part. -/
def sharedProviders (w : Outside) (fc : JV) : Res (List Provider) := do
  let a ← optPart fc "word_embedding".toList (wordProvider w)
  let b ← optPart fc "word_trained_embedding".toList trainedProvider
  let x ← optPart fc "word_characters".toList (subwordProvider w "characters".toList)
  let y ← optPart fc "bpe_subwords".toList (subwordProvider w "bpe_subwords".toList)
  let z ← optPart fc "morfessor_subwords".toList (subwordProvider w "morfessor_subwords".toList)
  return [Provider.sentLength "sentences_lengths".toList] ++ a.toList ++ b.toList ++ x.toList ++ y.toList ++ z.toList

/-- extractors.py:329-334 `_splitters`. -/
def splittings : List (Str × Splitting) :=
  [("pos_joint".toList, .joint), ("pos_XF".toList, .xf), ("pos_UXF".toList, .uxf), ("pos_gran".toList, .gran)]

/-- extractors.py:346-348. -/
def splittingOf : JV → Res Splitting
  | .str s => match assocGet s splittings with
    | some x => .ok x
    | none => .error .value
  | .arr _ => .error .type
  | .obj _ => .error .type
  | _ => .error .value

/-- provider.py:159-163: the threshold of the rules. -/
def rulesProvider (fc : JV) : Res (List Provider) := do
  let rc ← fc.get "lemma_suffix_transformation".toList
  let th ← (← rc.get "rules_threshold".toList).above
  return [.lemmaRules "applicable_rules".toList "lemma_rule_labels".toList th]

/-- provider.py:172-179, extractors.py:530-535. -/
def lemmaCharsProvider (w : Outside) (c : JV) : Res Provider := do
  let th ← (← c.get "min_frequency".toList).atLeast
  let n ← (← c.get "max_word_length".toList).size
  let seg ← segmenterOf w c
  return .lemmaChars "output_subwords".toList th n seg

/-- task_builders.py:82-83, 90-91, 99-100, 134-142, 228-229: the providers of a task. -/
def taskProvidersOf (w : Outside) (c fc : JV) : Task → Res (List Provider)
  | .posDense => do
    let s ← splittingOf (← c.get "splitting".toList)
    return [.posDict "pos_labels".toList s]
  | .lemmaDense => return [.lemmaDict "lemma_labels".toList]
  | .lemmaSuffix => rulesProvider fc
  | .lemmaCombo => do
    let a ← lemmaCharsProvider w (← fc.get "output_subwords".toList)
    let b ← subwordProvider w "input_subwords".toList (← fc.get "input_subwords".toList)
    return [a, b]
  | .lemmaBinary => rulesProvider fc

/-- The providers of the entry of a task. -/
def taskProviders (w : Outside) (t : JV) : Res (List Provider) := do
  let task ← lookupName taskNames (← t.get "builder".toList)
  let c ← t.get "config".toList
  let fc ← t.getD "features_config".toList (.obj [])
  taskProvidersOf w c fc task

/-- network.py:122-126, neural_tagger.py:100: the providers. -/
def hyperProviders (w : Outside) (j : JV) : Res (List Provider) := do
  let fc ← hyperSharedFeatures j
  let a ← sharedProviders w fc
  let b ← mapM' (taskProviders w) (← hyperTasks j)
  return featureProviders a b

/-! ### The network -/

/-- `shapes[name][1]` and utils.py:14: the number of rows and the size of pretrained vectors; it is `None` if there is no
vector in the file. -/
def shapeWidth (shapes : Dict Str Shape) (name : Str) : Res Nat := do
  match ← shapes.getItem name with
  | .dims [_, some n] => return n.toNat
  | .dims [_, none] => .error .type
  | .dims _ => .error .index
  | .parts _ => .error .key

/-- The parts of a label. -/
def shapeParts (shapes : Dict Str Shape) (name : Str) : Res (List Str) := do
  match ← shapes.getItem name with
  | .dims _ => .error .type
  | .parts l => return l.map Prod.fst

/-- utils.py:25-28: an entry of `cnn_kernels`. -/
def kernelOf (j : JV) : Res Kernel := do
  let s ← (← j.get "size".toList).size
  let c ← (← j.get "count".toList).size
  let d ← (← j.get "dilation".toList).size
  return ⟨s, c, d⟩

/-- utils.py:24. -/
def kernelsOf (j : JV) : Res (List Kernel) := do mapM' kernelOf (← j.list)

/-- The aggregators of utils.py:80-85. -/
inductive AggName where
  | rnn | cnn | average | selfAttention
  deriving DecidableEq

/-- utils.py:80-85 `_subword_aggregators`. -/
def aggNames : List (Str × AggName) :=
  [("rnn".toList, .rnn), ("cnn".toList, .cnn), ("average".toList, .average), ("self-attention".toList, .selfAttention)]

/-- utils.py:41, 54, 109: the aggregator and its configuration. -/
def aggregatorOf (c : JV) : Res Aggregator := do
  let name ← lookupName aggNames (← c.get "aggregator".toList)
  let ac ← c.getD "aggregator_config".toList (.obj [])
  match name with
  | .rnn =>
    let cell ← (← ac.get "lstm_cell_size".toList).size
    let layers ← (← ac.get "bilstm_layer_count".toList).int
    return .rnn cell layers.toNat
  | .cnn =>
    let ks ← kernelsOf (← ac.get "cnn_kernels".toList)
    return .cnn ks
  | .average => return .average
  | .selfAttention => return .selfAttention

/-- A part of the features as the network needs it, and whether its vectors are trained. -/
abbrev Trained (α : Type) := α × Bool

/-- utils.py:98-116: the configuration of a subword feature. -/
def subwordCfgOf (shapes : Dict Str Shape) (name : Str) (c : JV) : Res (Trained SubwordCfg) := do
  let pre ← c.has "embedding_path".toList
  let hw ← c.getD "highway_layer".toList (.bool false)
  if pre then
    let n ← shapeWidth shapes name
    let t ← c.get "trainable".toList
    let agg ← aggregatorOf c
    return (⟨n, true, agg, hw.truthy⟩, t.truthy)
  else
    let n ← (← c.get "embed_size".toList).size
    let agg ← aggregatorOf c
    return (⟨n, false, agg, hw.truthy⟩, true)

/-- shared_builders.py:27-40. -/
def wordCfgOf (shapes : Dict Str Shape) (c : JV) : Res (Trained WordCfg) := do
  let n ← shapeWidth shapes "word_embeddings".toList
  let t ← c.get "trainable".toList
  if ← c.has "we_dense_size".toList then
    let d ← (← c.get "we_dense_size".toList).size
    return (⟨n, some d⟩, t.truthy)
  else return (⟨n, none⟩, t.truthy)

/-- shared_builders.py:49-54. -/
def trainedCfgOf (c : JV) : Res (Trained Nat) := do
  let n ← (← c.get "size".toList).size
  let t ← c.get "trainable".toList
  return (n, t.truthy)

/-- The features of the shared part and which of their vectors are trained. -/
structure SharedRead where
  cfg : SharedCfg
  trained : List (Str × Bool)

/-- The name of a part that is there. -/
def trainedEntry {α : Type} (name : Str) : Option (Trained α) → List (Str × Bool)
  | none => []
  | some p => [(name, p.2)]

/-- shared_builders.py:88-97. -/
def sharedCfgOf (shapes : Dict Str Shape) (fc : JV) : Res SharedRead := do
  let a ← optPart fc "word_embedding".toList (wordCfgOf shapes)
  let b ← optPart fc "word_trained_embedding".toList trainedCfgOf
  let x ← optPart fc "word_characters".toList (subwordCfgOf shapes "characters".toList)
  let y ← optPart fc "bpe_subwords".toList (subwordCfgOf shapes "bpe_subwords".toList)
  let z ← optPart fc "morfessor_subwords".toList (subwordCfgOf shapes "morfessor_subwords".toList)
  return ⟨⟨a.map Prod.fst, b.map Prod.fst, x.map Prod.fst, y.map Prod.fst, z.map Prod.fst⟩,
    trainedEntry "word_embeddings".toList a ++ trainedEntry "trained_words".toList b ++
    trainedEntry "characters".toList x ++ trainedEntry "bpe_subwords".toList y ++
    trainedEntry "morfessor_subwords".toList z⟩

/-- `skip_connection`: everything that is no string is an invalid type (shared_builders.py:147). -/
def skipOf : JV → Option Str
  | .null => none
  | .str s => some s
  | _ => some []

/-- shared_builders.py:113-118, 152-160, 187-190. -/
def sharedKindOf (c : JV) : SharedName → Res SharedKind
  | .words => return .words
  | .bilstm => do
    let cell ← (← c.get "lstm_cell_size".toList).size
    let layers ← (← c.getD "bilstm_layer_count".toList (.num 1)).int
    let skip ← c.getD "skip_connection".toList .null
    return .bilstm cell layers (skipOf skip)
  | .bilstmCnn => do
    let cell ← (← c.get "lstm_cell_size".toList).size
    let layers ← (← c.getD "bilstm_layer_count".toList (.num 1)).int
    let skip ← c.getD "skip_connection".toList .null
    let ks ← kernelsOf (← c.get "cnn_kernels".toList)
    return .bilstmCnn cell layers (skipOf skip) ks
  | .dilatedCnn => do
    let skip ← c.getD "skip_connection".toList .null
    match ← c.getD "cnn_kernels".toList .null with
    | .null => return .dilatedCnn none (skipOf skip)
    | ks => return .dilatedCnn (some (← kernelsOf ks)) (skipOf skip)

/-- An entry of `loss_weights`. -/
def weightOf (p : Str × JV) : Res (Str × Rat) := do return (p.1, ← p.2.number)

/-- task_builders.py:17, 54-60: the weights, if there are any.  Simplification: all of them have to be numbers, also those
that are not used. -/
def weightsOf (c : JV) : Res (Option (List (Str × Rat))) := do
  match ← c.getD "loss_weights".toList .null with
  | .null => return none
  | .obj l => return some (← mapM' weightOf l)
  | _ => .error .type

/-- A task and its weights. -/
structure TaskRead where
  cfg : TaskCfg
  weights : Option (List (Str × Rat))

/-- task_builders.py:28-67: a dense task. -/
def denseRead (shapes : Dict Str Shape) (c : JV) (task : Task) : Res TaskRead := do
  let name ← (← c.get "shared_name".toList).key
  let d ← (← c.get "dense_size".toList).size
  let ws ← weightsOf c
  let slots ← shapeParts shapes task.label
  return ⟨⟨task, name, ws.map (·.map Prod.fst), slots, 0, d, [], false, false⟩, ws⟩

/-- task_builders.py:116-213: the task of characters. -/
def comboRead (c fc : JV) : Res TaskRead := do
  let name ← (← c.get "shared_name".toList).key
  let ic ← fc.get "input_subwords".toList
  let e ← (← ic.get "embed_size".toList).size
  let d ← (← c.get "cnn_bilstm_dense_size".toList).size
  let ks ← kernelsOf (← c.get "cnn_kernels".toList)
  let ws ← weightsOf c
  let pre ← ic.has "embedding_path".toList
  let hw ← ic.getD "highway_layer".toList (.bool false)
  return ⟨⟨.lemmaCombo, name, ws.map (·.map Prod.fst), [], e, d, ks, pre, hw.truthy⟩, ws⟩

/-- task_builders.py:217-270: the binary task. -/
def binaryRead (c : JV) : Res TaskRead := do
  let name ← (← c.get "shared_name".toList).key
  let d ← (← c.get "dense_size".toList).size
  return ⟨⟨.lemmaBinary, name, none, ["LEMMA".toList], 0, d, [], false, false⟩, none⟩

/-- The configuration of a task. -/
def taskReadOf (shapes : Dict Str Shape) (c fc : JV) : Task → Res TaskRead
  | .lemmaCombo => comboRead c fc
  | .lemmaBinary => binaryRead c
  | .posDense => denseRead shapes c .posDense
  | .lemmaDense => denseRead shapes c .lemmaDense
  | .lemmaSuffix => denseRead shapes c .lemmaSuffix

/-- The configuration of the entry of a task. -/
def taskRead (shapes : Dict Str Shape) (t : JV) : Res TaskRead := do
  let task ← lookupName taskNames (← t.get "builder".toList)
  let c ← t.get "config".toList
  let fc ← t.getD "features_config".toList (.obj [])
  taskReadOf shapes c fc task

/-- network.py:177-181: the type of the optimizer. -/
def optimizerName (o : JV) : Res (Option Str) := do
  if ← o.has "type".toList then
    match ← o.get "type".toList with
    | .str s => return some s
    | _ => return some []
  else return none

/-- What the network is made of. -/
structure NetRead where
  cfg : NetCfg
  trained : List (Str × Bool)
  weights : List (Option (List (Str × Rat)))

/-- network.py:128-175: everything that is read for the network. -/
def hyperNet (shapes : Dict Str Shape) (j : JV) : Res NetRead := do
  let s ← hyperShared j
  let name ← lookupName sharedNames (← s.get "builder".toList)
  let kind ← sharedKindOf (← s.get "config".toList) name
  let f ← sharedCfgOf shapes (← hyperSharedFeatures j)
  let ts ← mapM' (taskRead shapes) (← hyperTasks j)
  let o ← optimizerName (← hyperOptimizer j)
  return ⟨⟨kind, f.cfg, ts.map TaskRead.cfg, o⟩, f.trained, ts.map TaskRead.weights⟩

/-! ### Training -/

/-- The entries the training loop reads, when it gets to them. -/
structure TrainKeys where
  decay : Res Rat
  dropout : Res Rat
  batchSize : Res Int
  factor : Res Rat

/-- neural_tagger.py:108, 115, 117-118, 129. -/
def hyperKeys (j : JV) : TrainKeys where
  decay := do (← (← hyperOptimizer j).get "lr_decay".toList).number
  dropout := do (← j.get "dropout".toList).number
  batchSize := do (← j.get "batch_size".toList).atLeast
  factor := do (← (← hyperOptimizer j).get "lr_decrease_factor".toList).number

/-- neural_tagger.py:110. -/
def hyperInitialLr (j : JV) : Res Rat := do (← (← hyperOptimizer j).get "initial_lr".toList).number

/-- neural_tagger.py:112. -/
def hyperEpochs (j : JV) : Res Int := do (← j.get "epochs".toList).int

/-- neural_tagger.py:128-129: the factor is read only if there is no progress. -/
def dropLrKey (factor : Res Rat) (lr : Rat) (prev : List Rat) (acc : Rat) : Res Rat :=
  match stagnates prev acc with
  | .error e => .error e
  | .ok false => .ok lr
  | .ok true =>
    match factor with
    | .error e => .error e
    | .ok f => if f = 0 then .error .zeroDivision else .ok (lr / f)

/-- neural_tagger.py:112-136: one epoch, as `trainStep` of Model/Training.lean.  `train dropout` trains on one batch. -/
def trainStepKeys {μ σ : Type} (train : Rat → μ → List σ → Rat → Res (μ × Rat)) (keys : TrainKeys)
    (dir : List Str) (sents : Nat → List σ) (dev : Option (Nat → List Str × μ → Res ScoreTable))
    (st : TrainSt μ) (epoch : Nat) : Except (TrainSt μ × Err) (TrainSt μ) :=
  match keys.decay with
  | .error e => .error (st, e)
  | .ok decay =>
    match getLr epoch st.lr decay with
    | .error e => .error (st, e)
    | .ok lr =>
      match keys.dropout with
      | .error e => .error (st, e)
      | .ok dropout =>
        match keys.batchSize with
        | .error e => .error (st, e)
        | .ok batchSize =>
          match trainEpoch (train dropout) batchSize (sents epoch) lr st.model with
          | .error e => .error (st, e)
          | .ok (m, _) =>
            match dev with
            | none => .ok { st.saved m lr (dir ++ [epochName epoch]) with
                taggers := st.taggers ++ [(dir ++ [epochName epoch], m)] }
            | some test =>
              match test epoch (dir ++ [epochName epoch], m) with
              | .error e => .error (st.saved m lr (dir ++ [epochName epoch]), e)
              | .ok scores =>
                match dropLrKey keys.factor lr st.prev (devAcc scores) with
                | .error e => .error (st.saved m lr (dir ++ [epochName epoch]), e)
                | .ok lr' => .ok
                    { st.saved m lr (dir ++ [epochName epoch]) with
                      lr := lr'
                      prev := (st.prev ++ [devAcc scores]).tail
                      items := st.items ++ [(scores, (dir ++ [epochName epoch], m))]
                      taggers := st.taggers ++ [(dir ++ [epochName epoch], m)] }

/-- neural_tagger.py:110-138: the loop. -/
def trainLoopKeys {μ σ : Type} (train : Rat → μ → List σ → Rat → Res (μ × Rat)) (keys : TrainKeys)
    (initialLr : Rat) (epochs : Int) (dir : List Str) (sents : Nat → List σ)
    (dev : Option (Nat → List Str × μ → Res ScoreTable)) (init : μ) : TrainSt μ × Option Err :=
  loopUntil (trainStepKeys train keys dir sents dev)
    { model := init, lr := initialLr, prev := List.replicate 5 0 } (List.range epochs.toNat)

/-- evaluation.py:126-129: the arguments of `train` that are passed besides the hyperparameters (and `self`).  A
hyperparameter of the same name is a `TypeError`. -/
def reservedArgs : List Str :=
  ["self".toList, "documents".toList, "dev_tester".toList, "seed".toList, "model_dir".toList,
   "model_name_format".toList]

/-- evaluation.py:129 `**params`. -/
def passParams : JV → Res Unit
  | .obj l => if ∃ k ∈ reservedArgs, (assocGet k l).isSome then .error .type else .ok ()
  | _ => .error .type

/-- What TensorFlow does, and what the features are extracted from.  `learn` makes of the network and of the assembled
features the initial parameters, and the training on one batch for a dropout; `sparsify` belongs to a rate of
sparsification.  The seed is fixed. -/
structure Machine (F μ σ : Type) where
  lower : Str → Str
  float : Str → Res F
  zero : F
  tok : Nat → TextToken
  sparsify : Rat → Sparsify
  seen : Seen
  graph : Nat
  learn : NetRead → Assembled F → Res (μ × (Rat → μ → List σ → Rat → Res (μ × Rat)))
  sents : Nat → List σ

/-- neural_tagger.py:93-105: everything before the training. -/
def hyperPrepare {F μ σ : Type} (w : Outside) (m : Machine F μ σ) (j : JV) :
    Res (μ × (Rat → μ → List σ → Rat → Res (μ × Rat))) := do
  passParams j
  let rate ← hyperConstruct j
  let ps ← hyperProviders w j
  let asm ← assemble m.lower m.float m.zero m.tok (m.sparsify rate) m.seen ps
  let shapes ← asm.shapes
  let net ← hyperNet shapes j
  let _ ← buildNetwork m.graph net.cfg
  m.learn net asm

/-- neural_tagger.py:92-138 `NeuralTaggerTrainer.train`, called as in evaluation.py:126-129.  An exception before the
first epoch is the outcome; otherwise the state of the loop and the exception that ended it. -/
def hyperTrain {F μ σ : Type} (w : Outside) (m : Machine F μ σ) (dir : List Str)
    (dev : Option (Nat → List Str × μ → Res ScoreTable)) (j : JV) : Res (TrainSt μ × Option Err) := do
  let p ← hyperPrepare w m j
  let lr ← hyperInitialLr j
  let n ← hyperEpochs j
  return trainLoopKeys p.2 (hyperKeys j) lr n dir m.sents dev p.1

end Verif
