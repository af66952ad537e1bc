import Verif.Proofs.Hyper
import Verif.Props.Interpreters

/-!
# C130: entries of the hyperparameters that the program does not know
-/

namespace Verif

variable {F μ σ : Type}

/-- C130: hyperparameters that agree in the entries that matter give the same training: the same exception, or the same
scores, models and learning rates. -/
theorem C130_known (w : Outside) (m : Machine F μ σ) (dir : List Str)
    (dev : Option (Nat → List Str × μ → Res ScoreTable)) {j j' : JV} (h : SameHyper j j') :
    hyperTrain w m dir dev j = hyperTrain w m dir dev j' := by
  have hp : hyperPrepare w m j = hyperPrepare w m j' := by
    unfold hyperPrepare
    rw [pass_same h, construct_same h, providers_same h]
    simp only [net_same h]
  unfold hyperTrain hyperEpochs
  rw [hp, initialLr_same h, keys_same h, top_get h "epochs".toList (by rfl)]

theorem setAt_same (v : JV) : ∀ (path : List Str) (s : Schema) (j : JV) (k : Str), ¬ s.knows path k →
    SameFor s j (j.setAt path k v)
  | [], .all, _, _, h => absurd trivial h
  | _ :: _, .all, _, _, h => absurd trivial h
  | [], .keys known sub, j, k, h => by
    cases j with
    | obj l =>
      refine .inr ⟨l, assocSet k v l, rfl, rfl, fun k' hk' => ?_⟩
      have hne : k' ≠ k := fun e => h (by rw [← e]; exact hk')
      rw [assocGet_set, if_neg hne]
      cases hx : assocGet k' l with
      | none => exact .inl ⟨rfl, rfl⟩
      | some x => exact .inr ⟨x, x, rfl, rfl, SameFor.refl _ _⟩
    | _ => exact .inl rfl
  | p :: ps, .keys known sub, j, k, h => by
    cases j with
    | obj l =>
      unfold JV.setAt
      cases hp : assocGet p l with
      | none => exact .inl rfl
      | some y =>
        refine .inr ⟨l, _, rfl, rfl, fun k' hk' => ?_⟩
        rw [assocGet_set]
        by_cases he : k' = p
        · subst he
          rw [if_pos rfl]
          exact .inr ⟨y, _, hp, rfl, setAt_same v ps (sub k') y k (fun hc => h ⟨hk', hc⟩)⟩
        · rw [if_neg he]
          cases hx : assocGet k' l with
          | none => exact .inl ⟨rfl, rfl⟩
          | some x => exact .inr ⟨x, x, rfl, rfl, SameFor.refl _ _⟩
    | _ => exact .inl rfl

/-- C130: adding or changing an entry that is not known, at any depth, changes nothing and is not reported. -/
theorem C130_unknown (w : Outside) (m : Machine F μ σ) (dir : List Str)
    (dev : Option (Nat → List Str × μ → Res ScoreTable)) (j : JV) (path : List Str) (k : Str) (v : JV)
    (h : ¬ (hyperSchema (taskNamesIn j)).knows path k) :
    hyperTrain w m dir dev (j.setAt path k v) = hyperTrain w m dir dev j :=
  (C130_known w m dir dev (setAt_same v path _ j k h)).symm

/-- C130 (refuted): the section `Morfessor_subwords` is documented, but the program ignores it (it reads
`morfessor_subwords`). -/
theorem C130_morfessor_refuted (w : Outside) (m : Machine F μ σ) (dir : List Str)
    (dev : Option (Nat → List Str × μ → Res ScoreTable)) (j : JV) (v : JV) (h : "shared_part".toList ∉ taskNamesIn j) :
    hyperTrain w m dir dev
      (j.setAt ["nn_config".toList, "shared_part".toList, "features_config".toList] "Morfessor_subwords".toList v) =
    hyperTrain w m dir dev j := by
  refine C130_unknown w m dir dev j _ _ v ?_
  rintro ⟨_, _, hk⟩
  simp only [if_neg h] at hk
  rw [if_neg (by decide), if_pos trivial] at hk
  obtain ⟨_, hk⟩ := hk
  have hk' : "Morfessor_subwords".toList ∈ ["word_embedding".toList, "word_trained_embedding".toList,
    "word_characters".toList, "bpe_subwords".toList, "morfessor_subwords".toList] := hk
  exact absurd hk' (by decide)

/-- C130: the names of the other arguments are not ignored: hyperparameters with such an entry are rejected. -/
theorem C130_reserved (w : Outside) (m : Machine F μ σ) (dir : List Str)
    (dev : Option (Nat → List Str × μ → Res ScoreTable)) (l : List (Str × JV)) (k : Str)
    (hk : k ∈ ["self".toList, "documents".toList, "dev_tester".toList, "seed".toList, "model_dir".toList,
      "model_name_format".toList]) (h : k ∈ l.map Prod.fst) :
    hyperTrain w m dir dev (.obj l) = .error .type := by
  have : passParams (.obj l) = .error .type := by
    unfold passParams
    refine if_pos ⟨k, hk, ?_⟩
    cases hx : assocGet k l with
    | none => exact absurd h (assocGet_none.mp hx)
    | some v => rfl
  unfold hyperTrain hyperPrepare
  rw [this]
  rfl

/-! ### Examples -/

namespace Demo

/-- Keys are written as strings. -/
def jobj (l : List (String × JV)) : JV := .obj (l.map (fun p => (p.1.toList, p.2)))
def jstr (s : String) : JV := .str s.toList

/-- Hyperparameters in the style of `resources/hyperparams.json`, with the given entries of `optimizer`. -/
def hyperWith (opt : List (String × JV)) : JV := jobj
  [("epochs", .num 2), ("dropout", .num (1/2)), ("batch_size", .num 8), ("tasks", .arr [jstr "pos", jstr "lemma"]),
   ("nn_config", jobj
     [("general", jobj [("optimizer", jobj opt)]),
      ("shared_part", jobj
        [("builder", jstr "BiLSTM"),
         ("config", jobj [("lstm_cell_size", .num 20), ("skip_connection", jstr "concat")]),
         ("features_config", jobj
           [("word_characters", jobj
             [("segmenter", jstr "char"), ("embed_size", .num 5), ("min_frequency", .num 1), ("trainable", .bool true),
              ("aggregator", jstr "cnn"),
              ("aggregator_config", jobj
                [("cnn_kernels", .arr [jobj [("size", .num 3), ("count", .num 5), ("dilation", .num 1)]])])]),
            ("word_trained_embedding", jobj
             [("trainable", .bool true), ("size", .num 5), ("min_frequency", .num 1), ("lowercase", .bool true)])])]),
      ("pos", jobj
        [("builder", jstr "pos_dense"),
         ("config", jobj
           [("shared_name", jstr "bilstm_and_word_features"), ("splitting", jstr "pos_UXF"), ("dense_size", .num 30),
            ("loss_weights", jobj [("default", .num (1/5))])])]),
      ("lemma", jobj
        [("builder", jstr "lemma_dense"),
         ("config", jobj
           [("shared_name", jstr "bilstm_and_word_features"), ("dense_size", .num 30),
            ("loss_weights", jobj [("LEMMA", .num 1)])])])])]

/-- The optimizer of the sample. -/
def hyperSample : JV := hyperWith
  [("type", jstr "Adam"), ("lr_decrease_factor", .num 2), ("initial_lr", .num (1/500)), ("lr_decay", .num 0)]

/-- There are no files of embeddings. -/
def noFiles : Outside := ⟨fun _ => .error .value, fun _ _ => .error .value, fun _ => .error .value⟩

/-- The parameters are the number of batches that have been seen. -/
def hyperMachine : Machine Int Nat Nat where
  lower := id
  float := float
  zero := 0
  tok := goldTok
  sparsify := fun _ => keepAll
  seen := fun _ => [goldDoc]
  graph := 0
  learn := fun _ _ => .ok (0, fun _ m _ _ => .ok (m + 1, 0))
  sents := fun _ => [0, 1]

/-- The models and the learning rates. -/
def trainedModels (r : Res (TrainSt Nat × Option Err)) : Res (List Nat × List Rat × Option Err) :=
  r.map (fun r => (r.1.taggers.map Prod.snd, r.1.lrs, r.2))

end Demo

/-- The training succeeds; a misspelled entry of the optimizer is ignored. -/
example : Demo.trainedModels (hyperTrain Demo.noFiles Demo.hyperMachine [] none Demo.hyperSample) =
    .ok ([1, 2], [1/500, 1/500], none) := by
  decide +kernel
example : ¬ (hyperSchema (taskNamesIn Demo.hyperSample)).knows
    ["nn_config".toList, "general".toList, "optimizer".toList] "lr_decay_rate".toList := by
  rintro ⟨_, _, _, h⟩
  have h' : "lr_decay_rate".toList ∈ ["type".toList, "initial_lr".toList, "lr_decay".toList,
    "lr_decrease_factor".toList] := h
  exact absurd h' (by decide)
example : "shared_part".toList ∉ taskNamesIn Demo.hyperSample := by decide
/-- A wrong value of a known entry is not ignored. -/
example : Demo.trainedModels (hyperTrain Demo.noFiles Demo.hyperMachine [] none
    (Demo.hyperSample.setAt ["nn_config".toList, "shared_part".toList, "config".toList] "lstm_cell_size".toList
      .null)) = .error .type := by
  decide +kernel

end Verif
