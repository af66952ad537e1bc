import Verif.Spec.HyperRequired

/-!
# The entries of the hyperparameters that are missed before any file is opened
-/

namespace Verif

/-- `features_config` of the shared part. -/
def featuresAtOnce (fc : JV) : List (List Str) :=
  inSection fc "word_embedding".toList (fun _ => keyPaths ["path", "lowercase"]) ++
  inSection fc "word_trained_embedding".toList (fun _ => keyPaths ["min_frequency", "lowercase"])

/-- `shared_part`. -/
def sharedAtOnce (s : JV) : List (List Str) :=
  keyPaths ["builder", "config"] ++
  underKey "config".toList (pickName (textAt s "builder")
    [("BiLSTM", keyPaths ["lstm_cell_size"]),
     ("BiLSTM_CNN", keyPaths ["lstm_cell_size", "cnn_kernels"])]) ++
  inSection s "features_config".toList featuresAtOnce

/-- A task. -/
def taskAtOnce (t : JV) : List (List Str) :=
  keyPaths ["builder", "config"] ++
  underKey "config".toList (pickName (textAt t "builder")
    [("pos_dense", keyPaths ["shared_name", "dense_size", "splitting"]),
     ("lemma_dense", keyPaths ["shared_name", "dense_size"]),
     ("lemma_suffix", keyPaths ["shared_name", "dense_size"]),
     ("lemma_combo", keyPaths ["shared_name", "cnn_bilstm_dense_size", "cnn_kernels"] ++
        underKey "loss_weights".toList (keyPaths ["LEMMA"]))]) ++
  pickName (textAt t "builder")
    [("lemma_suffix", underKey "features_config".toList (keyPaths ["lemma_suffix_transformation"])),
     ("lemma_combo", underKey "features_config".toList
        (underKey "input_subwords".toList (keyPaths ["embed_size"]) ++
         underKey "output_subwords".toList (keyPaths ["max_word_length"])))]

/-- `nn_config`. -/
def nnAtOnce (tasks : List Str) (nn : JV) : List (List Str) :=
  underKey "general".toList (keyPaths ["optimizer"]) ++
  keyPaths ["shared_part"] ++ inSection nn "shared_part".toList sharedAtOnce ++
  tasks.flatMap (fun t => [t] :: inSection nn t taskAtOnce)

/-- Everything that is missed at once. -/
def pathsAtOnce (j : JV) : List (List Str) :=
  keyPaths ["tasks", "nn_config"] ++ inSection j "nn_config".toList (nnAtOnce (taskNamesIn j))

end Verif
