import Verif.Spec.HyperRequired

/-!
# The types of the entries of the hyperparameters
-/

namespace Verif

/-- What an entry has to be. -/
inductive EntryType where
  | size | whole | positive | number | text | kernels
  | name (names : List String)
  | optName (names : List String)

/-- A whole number that is not negative; `true` and `false` are numbers in Python, too. -/
def IsSize (v : JV) : Prop := (∃ n : Nat, v = .num n) ∨ ∃ b, v = .bool b

/-- The value is of this type.  A kernel has three sizes.  An empty string or an empty dictionary of kernels is iterated
over like an empty list. -/
def EntryType.Has : EntryType → JV → Prop
  | size, v => IsSize v
  | whole, v => (∃ z : Int, v = .num z) ∨ ∃ b, v = .bool b
  | positive, v => (∃ z : Int, 0 < z ∧ v = .num z) ∨ v = .bool true
  | number, v => (∃ q : Rat, v = .num q) ∨ ∃ b, v = .bool b
  | text, v => ∃ s, v = .str s
  | kernels, v => (∃ l, v = .arr l ∧ ∀ x ∈ l, ∀ k ∈ ["size", "count", "dilation"],
      ∃ y, x.find [k.toList] = some y ∧ IsSize y) ∨ v = .str [] ∨ v = .obj []
  | name l, v => ∃ s ∈ l, v = .str s.toList
  | optName l, v => v = .null ∨ ∃ s ∈ l, v = .str s.toList

/-- Entries with their types. -/
abbrev Typed := List (List Str × EntryType)

/-- These keys. -/
def typedKeys (l : List (String × EntryType)) : Typed := l.map (fun e => ([e.1.toList], e.2))

/-- These entries in the section `k`. -/
def typedUnder (k : Str) (l : Typed) : Typed := l.map (fun e => (k :: e.1, e.2))

/-- The entries in the section `k`, if it is there. -/
def typedSection (j : JV) (k : Str) (f : JV → Typed) : Typed :=
  match j.find [k] with
  | some c => typedUnder k (f c)
  | none => []

/-- The entry of a table. -/
def typedPick (s : Str) (table : List (String × Typed)) : Typed :=
  ((table.find? (fun p => p.1.toList = s)).map Prod.snd).getD []

def segmenterType : EntryType := .name ["char", "bpe", "morfessor"]
def skipType : EntryType := .optName ["sum", "concat"]
def splittingType : EntryType := .name ["pos_joint", "pos_XF", "pos_UXF", "pos_gran"]
def aggregatorType : EntryType := .name ["rnn", "cnn", "average", "self-attention"]
def sharedType : EntryType := .name ["WE_charCNN", "BiLSTM", "BiLSTM_CNN", "Dilated_CNN"]
def taskType : EntryType := .name ["pos_dense", "lemma_dense", "lemma_suffix", "lemma_combo", "lemma_binary"]
def optimizerType : EntryType := .name ["GD", "Adam", "RMSProp"]

/-- Where the subwords come from. -/
def segmentTypes (c : JV) : Typed :=
  typedKeys [("segmenter", segmenterType)] ++
  (if (c.find ["embedding_path".toList]).isSome then typedKeys [("embedding_path", .text)]
   else typedKeys [("min_frequency", .number)])

/-- A subword feature. -/
def subwordTypes (c : JV) : Typed :=
  segmentTypes c ++ typedKeys [("aggregator", aggregatorType)] ++
  (if (c.find ["embedding_path".toList]).isSome then [] else typedKeys [("embed_size", .size)]) ++
  typedPick (textAt c "aggregator")
    [("rnn", typedUnder "aggregator_config".toList
        (typedKeys [("lstm_cell_size", .size), ("bilstm_layer_count", .whole)])),
     ("cnn", typedUnder "aggregator_config".toList (typedKeys [("cnn_kernels", .kernels)]))]

/-- `features_config` of the shared part. -/
def featuresTypes (fc : JV) : Typed :=
  typedUnder "word_embedding".toList (typedKeys [("path", .text), ("we_dense_size", .size)]) ++
  typedUnder "word_trained_embedding".toList (typedKeys [("min_frequency", .number), ("size", .size)]) ++
  typedSection fc "word_characters".toList subwordTypes ++
  typedSection fc "bpe_subwords".toList subwordTypes ++
  typedSection fc "morfessor_subwords".toList subwordTypes

/-- `shared_part`. -/
def sharedTypes (s : JV) : Typed :=
  typedKeys [("builder", sharedType)] ++
  typedUnder "config".toList (typedKeys [("sparse_input_prob", .number)]) ++
  typedUnder "config".toList (typedPick (textAt s "builder")
    [("BiLSTM", typedKeys [("lstm_cell_size", .size), ("bilstm_layer_count", .positive), ("skip_connection", skipType)]),
     ("BiLSTM_CNN", typedKeys [("lstm_cell_size", .size), ("bilstm_layer_count", .positive),
        ("skip_connection", skipType), ("cnn_kernels", .kernels)]),
     ("Dilated_CNN", typedKeys [("cnn_kernels", .kernels), ("skip_connection", skipType)])]) ++
  typedSection s "features_config".toList featuresTypes

/-- A task. -/
def taskTypes (t : JV) : Typed :=
  typedKeys [("builder", taskType)] ++
  typedUnder "config".toList (typedKeys [("shared_name", .text)]) ++
  typedUnder "config".toList (typedPick (textAt t "builder")
    [("pos_dense", typedKeys [("dense_size", .size), ("splitting", splittingType)]),
     ("lemma_dense", typedKeys [("dense_size", .size)]),
     ("lemma_suffix", typedKeys [("dense_size", .size)]),
     ("lemma_combo", typedKeys [("cnn_bilstm_dense_size", .size), ("cnn_kernels", .kernels)] ++
        typedUnder "loss_weights".toList (typedKeys [("LEMMA", .number)]))]) ++
  typedPick (textAt t "builder")
    [("lemma_suffix", typedUnder "features_config".toList
        (typedUnder "lemma_suffix_transformation".toList (typedKeys [("rules_threshold", .number)]))),
     ("lemma_combo", typedSection t "features_config".toList (fun fc =>
        typedUnder "output_subwords".toList
          (typedKeys [("min_frequency", .number), ("max_word_length", .size), ("segmenter", segmenterType)]) ++
        typedSection fc "input_subwords".toList (fun c => segmentTypes c ++ typedKeys [("embed_size", .size)])))]

/-- `nn_config`. -/
def nnTypes (tasks : List Str) (nn : JV) : Typed :=
  typedUnder "general".toList (typedUnder "optimizer".toList (typedKeys [("type", optimizerType), ("initial_lr", .number)])) ++
  typedSection nn "shared_part".toList sharedTypes ++
  tasks.flatMap (fun t => typedSection nn t taskTypes)

/-- The entries that are read before the training. -/
def earlyTypes (j : JV) : Typed :=
  typedKeys [("epochs", .whole)] ++ typedSection j "nn_config".toList (nnTypes (taskNamesIn j))

/-- The entries that are read in the first epoch. -/
def lateTypes : Typed :=
  typedKeys [("dropout", .number), ("batch_size", .number)] ++
  typedUnder "nn_config".toList (typedUnder "general".toList
    (typedUnder "optimizer".toList (typedKeys [("lr_decay", .number)])))

end Verif
