import Verif.Spec.Hyper

/-!
# The entries of the hyperparameters that cannot be left out
-/

namespace Verif

/-- What one gets to by following the keys. -/
def JV.find : JV → List Str → Option JV
  | j, [] => some j
  | .obj l, k :: ks => (assocGet k l).bind (fun x => x.find ks)
  | _, _ :: _ => none

/-- These keys. -/
def keyPaths (l : List String) : List (List Str) := l.map (fun k => [k.toList])

/-- These paths in the section `k`. -/
def underKey (k : Str) (l : List (List Str)) : List (List Str) := l.map (fun p => k :: p)

/-- What is needed in the section `k`, if it is there. -/
def inSection (j : JV) (k : Str) (needs : JV → List (List Str)) : List (List Str) :=
  match j.find [k] with
  | some c => underKey k (needs c)
  | none => []

/-- The string at the key `k`. -/
def textAt (j : JV) (k : String) : Str :=
  match j.find [k.toList] with
  | some (.str s) => s
  | _ => []

/-- The entry of a table. -/
def pickName (s : Str) (table : List (String × List (List Str))) : List (List Str) :=
  ((table.find? (fun p => p.1.toList = s)).map Prod.snd).getD []

/-- A subword feature. -/
def subwordNeeds (c : JV) : List (List Str) :=
  keyPaths ["segmenter", "aggregator"] ++
  (if (c.find ["embedding_path".toList]).isSome then keyPaths ["trainable"] else keyPaths ["min_frequency", "embed_size"]) ++
  pickName (textAt c "aggregator")
    [("rnn", underKey "aggregator_config".toList (keyPaths ["lstm_cell_size", "bilstm_layer_count"])),
     ("cnn", underKey "aggregator_config".toList (keyPaths ["cnn_kernels"]))]

/-- `features_config` of the shared part. -/
def featuresNeeds (fc : JV) : List (List Str) :=
  inSection fc "word_embedding".toList (fun _ => keyPaths ["path", "lowercase", "trainable"]) ++
  inSection fc "word_trained_embedding".toList (fun _ => keyPaths ["min_frequency", "lowercase", "size", "trainable"]) ++
  inSection fc "word_characters".toList subwordNeeds ++
  inSection fc "bpe_subwords".toList subwordNeeds ++
  inSection fc "morfessor_subwords".toList subwordNeeds

/-- `shared_part`. -/
def sharedNeeds (s : JV) : List (List Str) :=
  keyPaths ["builder", "config"] ++
  underKey "config".toList (pickName (textAt s "builder")
    [("BiLSTM", keyPaths ["lstm_cell_size"]),
     ("BiLSTM_CNN", keyPaths ["lstm_cell_size", "cnn_kernels"]),
     ("Dilated_CNN", keyPaths ["cnn_kernels"])]) ++
  inSection s "features_config".toList featuresNeeds

/-- The subwords of the character-level lemmatizer. -/
def inputNeeds (c : JV) : List (List Str) :=
  keyPaths ["segmenter", "embed_size"] ++
  (if (c.find ["embedding_path".toList]).isSome then [] else keyPaths ["min_frequency"])

/-- A task. -/
def taskNeeds (t : JV) : List (List Str) :=
  keyPaths ["builder", "config"] ++
  underKey "config".toList (pickName (textAt t "builder")
    [("pos_dense", keyPaths ["shared_name", "dense_size", "loss_weights", "splitting"]),
     ("lemma_dense", keyPaths ["shared_name", "dense_size", "loss_weights"]),
     ("lemma_suffix", keyPaths ["shared_name", "dense_size", "loss_weights"]),
     ("lemma_combo", keyPaths ["shared_name", "cnn_bilstm_dense_size", "cnn_kernels"] ++
        underKey "loss_weights".toList (keyPaths ["LEMMA"]))]) ++
  pickName (textAt t "builder")
    [("lemma_suffix", underKey "features_config".toList
        (underKey "lemma_suffix_transformation".toList (keyPaths ["rules_threshold"]))),
     ("lemma_combo", underKey "features_config".toList
        (keyPaths ["input_subwords"] ++
         underKey "output_subwords".toList (keyPaths ["min_frequency", "max_word_length", "segmenter"]))
        ++ inSection t "features_config".toList (fun fc => inSection fc "input_subwords".toList inputNeeds))]

/-- `nn_config`. -/
def nnNeeds (tasks : List Str) (nn : JV) : List (List Str) :=
  underKey "general".toList (underKey "optimizer".toList (keyPaths ["type", "initial_lr", "lr_decay"])) ++
  keyPaths ["shared_part"] ++ inSection nn "shared_part".toList sharedNeeds ++
  tasks.flatMap (fun t => [t] :: inSection nn t taskNeeds)

/-- Everything that cannot be left out. -/
def requiredPaths (j : JV) : List (List Str) :=
  keyPaths ["tasks", "nn_config", "epochs", "dropout", "batch_size"] ++
  inSection j "nn_config".toList (nnNeeds (taskNamesIn j))

end Verif
