import Verif.Model.Hyper

/-!
# What of the hyperparameters is looked at
-/

namespace Verif

/-- The part of a JSON value that matters: all of it, or some entries of a dictionary. -/
inductive Schema where
  | all
  | keys (known : Str → Prop) (sub : Str → Schema)

/-- Both values agree in the part that matters. -/
def SameFor : Schema → JV → JV → Prop
  | .all, a, b => a = b
  | .keys known sub, a, b => a = b ∨ ∃ l l', a = .obj l ∧ b = .obj l' ∧ ∀ k, known k →
      (assocGet k l = none ∧ assocGet k l' = none) ∨
      ∃ x y, assocGet k l = some x ∧ assocGet k l' = some y ∧ SameFor (sub k) x y

/-- A dictionary with these entries. -/
def Schema.of (l : List (Str × Schema)) : Schema :=
  .keys (fun k => k ∈ l.map Prod.fst) (fun k => (assocGet k l).getD .all)

/-- Entries that matter completely. -/
def Schema.plain (l : List String) : Schema := .of (l.map (fun k => (k.toList, .all)))

/-- `optimizer`. -/
def optimizerSchema : Schema := .plain ["type", "initial_lr", "lr_decay", "lr_decrease_factor"]

/-- A subword feature. -/
def subwordSchema : Schema :=
  .plain ["embedding_path", "segmenter", "segmenter_config", "min_frequency", "embed_size", "trainable", "aggregator",
    "aggregator_config", "highway_layer"]

/-- `shared_part`. -/
def sharedSchema : Schema := .of
  [("builder".toList, .all),
   ("config".toList, .plain
      ["lstm_cell_size", "bilstm_layer_count", "skip_connection", "cnn_kernels", "sparse_input_prob"]),
   ("features_config".toList, .of
      [("word_embedding".toList, .plain ["path", "lowercase", "trainable", "we_dense_size"]),
       ("word_trained_embedding".toList, .plain ["min_frequency", "lowercase", "size", "trainable"]),
       ("word_characters".toList, subwordSchema),
       ("bpe_subwords".toList, subwordSchema),
       ("morfessor_subwords".toList, subwordSchema)])]

/-- A task. -/
def taskSchema : Schema := .of
  [("builder".toList, .all),
   ("config".toList, .plain
      ["shared_name", "dense_size", "loss_weights", "splitting", "cnn_bilstm_dense_size", "cnn_kernels"]),
   ("features_config".toList, .of
      [("lemma_suffix_transformation".toList, .plain ["rules_threshold"]),
       ("input_subwords".toList, subwordSchema),
       ("output_subwords".toList, .plain ["min_frequency", "max_word_length", "segmenter", "segmenter_config"])])]

/-- `nn_config`, for tasks with these names (if a task has the name of another section, all of it matters). -/
def nnSchema (tasks : List Str) : Schema :=
  .keys (fun k => k = "general".toList ∨ k = "shared_part".toList ∨ k ∈ tasks) (fun k =>
    if k = "general".toList then (if k ∈ tasks then .all else .of [("optimizer".toList, optimizerSchema)])
    else if k = "shared_part".toList then (if k ∈ tasks then .all else sharedSchema)
    else taskSchema)

/-- All hyperparameters: the documented ones, and the names of arguments that are passed anyway. -/
def hyperSchema (tasks : List Str) : Schema := .of
  ([("nn_config".toList, nnSchema tasks), ("tasks".toList, .all), ("epochs".toList, .all), ("dropout".toList, .all),
    ("batch_size".toList, .all)] ++
   ["self", "documents", "dev_tester", "seed", "model_dir", "model_name_format"].map (fun k => (k.toList, .all)))

/-- The strings one gets when one iterates over a value. -/
def JV.words : JV → List Str
  | .arr l => l.filterMap (fun
    | .str s => some s
    | _ => none)
  | .str s => s.map (fun c => [c])
  | .obj l => l.map Prod.fst
  | _ => []

/-- The names in `tasks`. -/
def taskNamesIn : JV → List Str
  | .obj l => match assocGet "tasks".toList l with
    | some t => t.words
    | none => []
  | _ => []

/-- The hyperparameters agree in everything that matters. -/
def SameHyper (j j' : JV) : Prop := SameFor (hyperSchema (taskNamesIn j)) j j'

/-- The part that matters contains the entry `k` of the dictionary one gets to by following the keys. -/
def Schema.knows : Schema → List Str → Str → Prop
  | .all, _, _ => True
  | .keys known _, [], k => known k
  | .keys known sub, p :: ps, k => known p ∧ (sub p).knows ps k

/-- Setting the entry `k` of the dictionary one gets to by following the keys; nothing happens if there is none. -/
def JV.setAt : JV → List Str → Str → JV → JV
  | .obj l, [], k, v => .obj (assocSet k v l)
  | .obj l, p :: ps, k, v => match assocGet p l with
    | some x => .obj (assocSet p (x.setAt ps k v) l)
    | none => .obj l
  | j, _, _, _ => j

end Verif
