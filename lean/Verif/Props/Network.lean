import Verif.Proofs.NetBuild2
import Verif.Props.Features

/-!
# Networks: C65, C91–C95
-/

namespace Verif

/-! ### C65 -/

/-- C65: attaching the names of a network to a graph succeeds exactly if the graph has all of the names,
and then gives the network of the same names in that graph; otherwise `KeyError` is raised. -/
theorem C65_attach (nn : NN) (g : TfGraph) :
    (nn.NamedIn g → ∃ nn', nn.mapping.attach g = .ok nn' ∧ Reattached g nn nn') ∧
    (¬ nn.NamedIn g → nn.mapping.attach g = .error .key) := by
  rcases NN.attach_mapping g nn with ⟨h1, nn', h2, h3, _⟩ | ⟨h1, h2⟩
  · exact ⟨fun _ => ⟨nn', h2, h3⟩, fun h => absurd h1 h⟩
  · exact ⟨fun h => absurd h h1, fun _ => h2⟩

/-- C65: attaching to the graph the network was built in gives the same tensors and operations. -/
theorem C65_attach_same (nn nn' : NN) (g : TfGraph) (hof : nn.Of g.id)
    (h : nn.mapping.attach g = .ok nn') :
    (∀ k, nn'.inputs.get? k = nn.inputs.get? k) ∧ (∀ k, nn'.outputs.get? k = nn.outputs.get? k) ∧
    (∀ k, nn'.gold.get? k = nn.gold.get? k) ∧ nn'.optimizer = nn.optimizer ∧ nn'.loss = nn.loss ∧
    nn'.initializers = nn.initializers := by
  have ht : ∀ t : Tensor, t.graph = g.id → g.twin t = t := by
    intro t ht
    cases t
    simp only at ht
    subst ht
    rfl
  have hto : ∀ o : Operation, o.graph = g.id → g.twinOp o = o := by
    intro o ho
    cases o
    simp only at ho
    subst ho
    rfl
  rcases NN.attach_mapping g nn with ⟨_, nn'', h2, h3, _⟩ | ⟨_, h2⟩
  · rw [h2] at h
    injection h with h
    subst h
    have hm : ∀ d : Dict Str Tensor, (∀ k t, d.get? k = some t → t.graph = g.id) →
        ∀ k, (d.get? k).map g.twin = d.get? k := by
      intro d hd k
      cases hk : d.get? k with
      | none => rfl
      | some t => simp [ht t (hd k t hk)]
    refine ⟨fun k => (h3.inputs k).trans (hm _ hof.inputs k), fun k => (h3.outputs k).trans (hm _ hof.outputs k),
      fun k => (h3.gold k).trans (hm _ hof.gold k), h3.optimizer.trans (hto _ hof.optimizer),
      h3.loss.trans (ht _ hof.loss), h3.initializers.trans ?_⟩
    conv_rhs => rw [← List.map_id nn.initializers]
    apply List.map_congr_left
    intro i hi
    have := hof.initializers i hi
    cases i with
    | global op => simp only [TfGraph.twinInit, hto op this, id]
    | matrix p a b c => simp only [TfGraph.twinInit, ht a this.1, ht b this.2.1, ht c this.2.2, id]
  · rw [h2] at h
    cases h

/-- C65: a feed dictionary assigns every supplied value to the tensor of that name, and nothing else. -/
theorem C65_feed {V : Type} (nn : NN) (hi : OneToOne nn.inputs) (hg : OneToOne nn.gold)
    (hd : ∀ k k' t, nn.inputs.get? k = some t → nn.gold.get? k' ≠ some t)
    (input gold : Dict Str V) (h1 : ∀ k ∈ input.keys, k ∈ nn.inputs.keys)
    (h2 : ∀ k ∈ gold.keys, k ∈ nn.gold.keys) :
    ∃ feed, nn.feedDict input (some gold) = .ok feed ∧
      ∀ t v, feed.get? t = some v ↔ (∃ k, nn.inputs.get? k = some t ∧ input.get? k = some v) ∨
        ∃ k, nn.gold.get? k = some t ∧ gold.get? k = some v := by
  obtain ⟨d, e1, f1⟩ := fillDict_ok hi h1
  obtain ⟨d', e2, f2⟩ := fillDict_ok hg h2
  refine ⟨d.update d', by simp only [NN.feedDict, e1, e2], fun t v => ?_⟩
  rw [Dict.get?_update, ← f1, ← f2]
  cases h3 : d'.get? t with
  | none => simp
  | some w =>
    have h4 : d.get? t = none := by
      cases h5 : d.get? t with
      | none => rfl
      | some x =>
        obtain ⟨k, hk, _⟩ := (f1 t x).mp h5
        obtain ⟨k', hk', _⟩ := (f2 t w).mp h3
        exact absurd hk' (hd k k' t hk)
    simp [h4]

/-- C65: the same for predictions. -/
theorem C65_feed_predict {V : Type} (nn : NN) (hi : OneToOne nn.inputs) (input : Dict Str V)
    (h1 : ∀ k ∈ input.keys, k ∈ nn.inputs.keys) :
    ∃ feed, nn.feedDict input none = .ok feed ∧
      ∀ t v, feed.get? t = some v ↔ ∃ k, nn.inputs.get? k = some t ∧ input.get? k = some v := by
  obtain ⟨d, e1, f1⟩ := fillDict_ok hi h1
  exact ⟨d, by simp only [NN.feedDict, e1], f1⟩

/-- C65: unknown names raise `KeyError`. -/
theorem C65_feed_unknown {V : Type} (nn : NN) (input : Dict Str V) (gold : Option (Dict Str V))
    (h : (∃ k ∈ input.keys, k ∉ nn.inputs.keys) ∨ ∃ gv, gold = some gv ∧ ∃ k ∈ gv.keys, k ∉ nn.gold.keys) :
    nn.feedDict input gold = .error .key := by
  by_cases h1 : ∃ k ∈ input.keys, k ∉ nn.inputs.keys
  · obtain ⟨k, hk, hn⟩ := h1
    simp only [NN.feedDict, fillDict_error hk hn]
  · rcases h with h | ⟨gv, rfl, k, hk, hn⟩
    · exact absurd h h1
    · rcases fillDict_list nn.inputs input.entries (Dict.empty : Dict Tensor V) with ⟨_, ps, _, h3⟩ | ⟨⟨q, hq, hq2⟩, _⟩
      · have h4 : fillDict nn.inputs input = .ok ((Dict.empty : Dict Tensor V).updateList ps) := h3
        simp only [NN.feedDict, h4, fillDict_error hk hn]
      · exact absurd ⟨q.1, List.mem_map_of_mem hq, hq2⟩ h1

namespace Demo

def nn : NN :=
  { inputs := Dict.ofList [(['w'], ⟨0, ['a']⟩), (['l'], ⟨0, ['b']⟩)]
    outputs := Dict.ofList [(['p'], ⟨0, ['c']⟩)]
    gold := Dict.ofList [(['p'], ⟨0, ['d']⟩)]
    optimizer := ⟨0, ['o']⟩
    loss := ⟨0, ['e']⟩
    initializers := [.global ⟨0, ['i']⟩, .matrix ['m'] ⟨0, ['a']⟩ ⟨0, ['b']⟩ ⟨0, ['c']⟩] }

end Demo

example : (Demo.nn.mapping.attach ⟨7, [['a'], ['b'], ['c'], ['d'], ['e']], [['o'], ['i']]⟩).map
      (fun n => (n.inputs.entries, n.loss, n.initializers)) =
    .ok ([(['w'], ⟨7, ['a']⟩), (['l'], ⟨7, ['b']⟩)], ⟨7, ['e']⟩,
      [.global ⟨7, ['i']⟩, .matrix ['m'] ⟨7, ['a']⟩ ⟨7, ['b']⟩ ⟨7, ['c']⟩]) := by decide +kernel
example : (Demo.nn.mapping.attach ⟨7, [['a'], ['b'], ['c'], ['d']], [['o'], ['i']]⟩).map NN.loss =
    .error .key := by decide +kernel
example : (Demo.nn.feedDict (Dict.ofList [(['l'], 5)]) (some (Dict.ofList [(['p'], 6)]))).map Dict.entries =
    .ok [(⟨0, ['b']⟩, 5), (⟨0, ['d']⟩, 6)] := by decide +kernel
example : (Demo.nn.feedDict (Dict.ofList [(['x'], 5)]) none).map Dict.entries =
    .error .key := by decide +kernel

/-! ### C91 -/

/-- C91: a model that is saved and loaded again, into whatever graph, predicts for every input exactly
what the saved model predicts, errors included. -/
theorem C91_same_predictions {V : Type} (m : NNModel V) (hof : m.network.Of m.session.graph.id)
    (hin : m.network.NamedIn m.session.graph) (fresh : Nat) :
    ∃ m', loadModel fresh m.save = ([.opened], .ok m') ∧
      ∀ features, m'.predict features = m.predict features := by
  have hin' : m.network.NamedIn ⟨fresh, m.session.graph.tensors, m.session.graph.ops⟩ := by
    obtain ⟨a, b, c, d, e, f⟩ := hin
    refine ⟨a, b, c, d, e, fun i hi => ?_⟩
    have := f i hi
    cases i <;> exact this
  rcases NN.attach_mapping ⟨fresh, m.session.graph.tensors, m.session.graph.ops⟩ m.network with
    ⟨_, nn', h2, h3, _, h5⟩ | ⟨h1, _⟩
  · refine ⟨⟨nn', ⟨⟨fresh, m.session.graph.tensors, m.session.graph.ops⟩, m.session.eval⟩⟩, ?_, ?_⟩
    · simp only [loadModel, NNModel.save, h2]
    · intro features
      exact predict_same (m := m)
        (m' := ⟨nn', ⟨⟨fresh, m.session.graph.tensors, m.session.graph.ops⟩, m.session.eval⟩⟩)
        rfl rfl h3 h5 hof hin features
  · exact absurd hin' h1

namespace Demo

/-- A session whose output `c` is the sum of what was fed for `a` and `b`. -/
def session : Session Nat :=
  { graph := ⟨0, [['a'], ['b'], ['c'], ['d'], ['e']], [['o'], ['i']]⟩
    eval := fun feed n =>
      match n, feed ['a'], feed ['b'] with
      | ['c'], some x, some y => .ok (x + y)
      | _, _, _ => .error .value }

end Demo

/-- C91: why the network has to be attached to the graph that is loaded: a model with an output of another graph than that
of its session predicts nothing. -/
theorem C91_own_graph {V : Type} (m : NNModel V) (features D : Dict Str V) (h : m.predict features = .ok D) :
    ∀ k t, m.network.outputs.get? k = some t → t.graph = m.session.graph.id ∧ t.name ∈ m.session.graph.tensors := by
  intro k t hk
  unfold NNModel.predict at h
  split at h
  · cases h
  · rename_i feed _
    unfold Session.run at h
    split at h
    · split at h
      · cases h
      · rename_i l hl
        rw [mapM'_ok_iff] at hl
        have hmem := Dict.get?_mem.1 hk
        obtain ⟨v, hv⟩ : ∃ v, m.session.fetch feed (k, t) = .ok v := by
          clear h
          generalize m.network.outputs.entries = es at hl hmem
          induction hl with
          | nil => cases hmem
          | cons h1 _ ih =>
            rcases List.mem_cons.1 hmem with rfl | h2
            · exact ⟨_, h1⟩
            · exact ih h2
        unfold Session.fetch at hv
        split at hv
        · rename_i hkn
          simpa [Session.knows] using hkn
        · cases hv
    · cases h

example : ∀ k t, Demo.nn.outputs.get? k = some t → t.graph = 0 ∧ t.name ∈ Demo.session.graph.tensors :=
  C91_own_graph ⟨Demo.nn, Demo.session⟩ (Dict.ofList [(['w'], 3), (['l'], 4)]) (Dict.ofList [(['p'], 7)]) rfl
example : (NNModel.predict ⟨Demo.nn, { Demo.session with graph := { Demo.session.graph with id := 9 } }⟩
    (Dict.ofList [(['w'], 3), (['l'], 4)])).map Dict.entries = .error .type := by decide +kernel

example : ((loadModel 9 (NNModel.save ⟨Demo.nn, Demo.session⟩)).2.toOption.map (fun m =>
      (m.network.loss, (m.predict (Dict.ofList [(['w'], 3), (['l'], 4)])).map Dict.entries))) =
    some (⟨9, ['e']⟩, .ok [(['p'], 7)]) := by decide +kernel
example : (NNModel.predict ⟨Demo.nn, Demo.session⟩ (Dict.ofList [(['w'], 3), (['l'], 4)])).map Dict.entries =
    .ok [(['p'], 7)] := by decide +kernel

/-! ### C92 -/

/-- C92: loading a model closes its session again if anything goes wrong, and leaves exactly one session
open otherwise. -/
theorem C92_load {V : Type} (fresh : Nat) (f : ModelFiles V) :
    (∀ e, (loadModel fresh f).2 = .error e → allClosed (loadModel fresh f).1 = true) ∧
    (∀ m, (loadModel fresh f).2 = .ok m → (loadModel fresh f).1 = [.opened]) := by
  unfold loadModel
  cases f.restore with
  | error e => exact ⟨fun _ _ => rfl, fun _ h => by cases h⟩
  | ok _ =>
    cases f.mapping with
    | error e => exact ⟨fun _ _ => rfl, fun _ h => by cases h⟩
    | ok m =>
      simp only
      cases m.attach ⟨fresh, f.tensors, f.ops⟩ with
      | error e => exact ⟨fun _ _ => rfl, fun _ h => by cases h⟩
      | ok nn => exact ⟨fun _ h => (by cases h), fun _ _ => rfl⟩

/-- C92: after tagging with a stored tagger no session is open, whether all documents are taken or only
some, and whether or not loading or tagging fails. -/
theorem C92_lazy {V X : Type} (fresh : Nat) (extractor : Res X) (f : ModelFiles V)
    (tagDoc : X → NNModel V → Document → Res Document) (n : Nat) (docs : List Document) :
    allClosed (lazyTag fresh extractor f tagDoc n docs).1 = true := by
  unfold lazyTag
  split
  · rename_i ev e h
    unfold loadTagger at h
    split at h
    · simp only [Prod.mk.injEq] at h
      rw [← h.1]
      rfl
    · split at h
      · rename_i ev' e' h'
        simp only [Prod.mk.injEq] at h
        rw [← h.1]
        have := (C92_load fresh f).1 e' (by rw [h'])
        rw [h'] at this
        exact this
      · simp at h
  · rename_i ev x m h
    split
    simp only
    unfold loadTagger at h
    split at h
    · simp at h
    · split at h
      · simp at h
      · rename_i ev' m' h'
        simp only [Prod.mk.injEq] at h
        rw [← h.1]
        have := (C92_load fresh f).2 m' (by rw [h'])
        rw [h'] at this
        simp only at this
        rw [this]
        rfl

example : (lazyTag (V := Nat) 9 (.ok ()) (NNModel.save ⟨Demo.nn, Demo.session⟩)
    (fun _ _ _ => .error .value) 5 [⟨[], [], []⟩]).1 = [.opened, .closed] ∧
  (lazyTag (V := Nat) 9 (.ok ()) (NNModel.save ⟨Demo.nn, Demo.session⟩)
    (fun _ _ _ => .error .value) 5 [⟨[], [], []⟩]).2.2 = some .value := by decide +kernel

/-- C92: at most one session is opened per use, and none if the extractors cannot be read; then nothing is tagged and the
exception is that of reading them. -/
theorem C92_once {V X : Type} (fresh : Nat) (extractor : Res X) (f : ModelFiles V)
    (tagDoc : X → NNModel V → Document → Res Document) (n : Nat) (docs : List Document) :
    (∀ e, extractor = .error e → lazyTag fresh extractor f tagDoc n docs = ([], [], some e)) ∧
    (∀ x, extractor = .ok x → (lazyTag fresh extractor f tagDoc n docs).1 = [.opened, .closed]) := by
  constructor
  · rintro e rfl
    rfl
  · rintro x rfl
    have h1 := C92_load fresh f
    unfold lazyTag loadTagger
    cases hl : loadModel fresh f with
    | mk ev r =>
      cases r with
      | error e =>
        unfold loadModel at hl
        split at hl
        · simp only [Prod.mk.injEq] at hl
          exact hl.1.symm
        · split at hl
          · simp only [Prod.mk.injEq] at hl
            exact hl.1.symm
          · split at hl
            · simp only [Prod.mk.injEq] at hl
              exact hl.1.symm
            · simp at hl
      | ok m =>
        rw [hl] at h1
        simp only
        have h2 : ev = [.opened] := h1.2 m rfl
        rw [h2]
        rfl

/-! ### C93 -/

/-- C93: a network can be built exactly for the configurations that are fine: at least one feature,
positive embedding sizes, known aggregators and skip connections of matching sizes, at least one task, no
two tasks with the same label, no binary task, every task reads a layer there is and has its weights, no
convolution of the character task is named like one of the shared part, and the optimizer is known. -/
theorem C93_iff (gid : Nat) (c : NetCfg) : (∃ r, buildNetwork gid c = .ok r) ↔ c.Ok := by
  rw [← layers_ok_iff]
  unfold buildNetwork
  cases c.layers [] with
  | error e =>
    simp only [reduceCtorEq, exists_false]
  | ok x =>
    simp only [Except.ok.injEq, exists_eq']

/-- C93 (refuted): no network with the binary task can be built, although the task is registered. -/
theorem C93_refuted (gid : Nat) (c : NetCfg) (t : TaskCfg) (h : t ∈ c.tasks) (hb : t.task = .lemmaBinary) :
    ∃ e, buildNetwork gid c = .error e := by
  cases hr : buildNetwork gid c with
  | error e => exact ⟨e, rfl⟩
  | ok r =>
    have h1 := ((C93_iff gid c).mp ⟨r, hr⟩).tasks t h
    have h2 := h1.2
    rw [hb] at h2
    exact h2.elim

theorem C93_registered : getTask "lemma_binary".toList = .ok .lemmaBinary := by decide

/-- C93 (refuted): nor can a network with a dense task without loss weights, although the weights are
optional. -/
theorem C93_refuted_weights (gid : Nat) (c : NetCfg) (t : TaskCfg) (h : t ∈ c.tasks) (hw : t.weights = none) :
    ∃ e, buildNetwork gid c = .error e := by
  cases hr : buildNetwork gid c with
  | error e => exact ⟨e, rfl⟩
  | ok r =>
    have h1 := ((C93_iff gid c).mp ⟨r, hr⟩).tasks t h
    have h2 := h1.2
    cases ht : t.task <;> rw [ht] at h2 <;> simp [hw] at h2

/-- C93: unknown tasks raise `KeyError`. -/
theorem C93_unknown (o : Str) (h : o ∉ ["pos_dense".toList, "lemma_dense".toList, "lemma_suffix".toList,
    "lemma_combo".toList, "lemma_binary".toList]) : getTask o = .error .key := by
  have : assocGet o taskNames = none := assocGet_none.mpr h
  simp only [getTask, this]

/-- C93, what holds: with tagging and rule-based lemmas on a BiLSTM with weights for all parts, every choice
of features of positive size can be built. -/
theorem C93_partial (gid : Nat) (f : SharedCfg) (hf : f.Ok) (cell : Nat) (layers : Int) (hl : 0 < layers)
    (slots : List Str) (hs : slots ≠ []) (o : Str) (ho : o ∈ optimizers) :
    ∃ r, buildNetwork gid ⟨.bilstm cell layers none, f,
      [⟨.posDense, "bilstm".toList, some ["default".toList], slots, 0, 0, [], false, false⟩,
       ⟨.lemmaSuffix, "word_features".toList, some ["LEMMA".toList], ["LEMMA".toList], 0, 0, [], false, false⟩],
      some o⟩ = .ok r := by
  rw [C93_iff]
  refine ⟨hf, ⟨hl, fun s hs => by cases hs⟩, ?_, by simp,
    (by decide : ["pos_labels".toList, "lemma_rule_labels".toList].Nodup), o, ho, rfl⟩
  intro t ht
  simp only [List.mem_cons, List.not_mem_nil, or_false] at ht
  rcases ht with rfl | rfl
  · refine ⟨?_, hs, _, rfl, fun s _ => Or.inr (List.mem_singleton.mpr rfl)⟩
    unfold NetCfg.readable
    exact List.mem_append.mpr (Or.inr List.mem_cons_self)
  · refine ⟨?_, by simp, _, rfl, fun s hs => Or.inl hs⟩
    unfold NetCfg.readable
    exact List.mem_append.mpr (Or.inl (List.mem_append.mpr (Or.inr List.mem_cons_self)))

namespace Demo

def chars : SubwordCfg := ⟨30, false, .cnn [⟨3, 40, 1⟩], true⟩

def pos (ws : Option (List Str)) : TaskCfg :=
  ⟨.posDense, "bilstm".toList, ws, ["UPOS".toList, "XPOS".toList], 0, 0, [], false, false⟩

def combo (k : Kernel) : TaskCfg :=
  ⟨.lemmaCombo, "bilstm_cnn".toList, some ["LEMMA".toList], [], 20, 10, [k], false, false⟩

def net (kind : SharedKind) (tasks : List TaskCfg) : NetCfg :=
  ⟨kind, ⟨some ⟨100, none⟩, none, some chars, none, none⟩, tasks, some "Adam".toList⟩

end Demo

example : ((buildNetwork 0 (Demo.net (.bilstm 70 2 (some "sum".toList))
      [Demo.pos (some ["default".toList])])).map (fun r => (r.1.inputs.keys, r.1.gold.keys.length))) =
    .ok (["sentences_lengths".toList, "words".toList, "characters".toList], 3) := by decide +kernel
/-- Sizes that do not fit, missing weights, the same task twice. -/
example : ((buildNetwork 0 (Demo.net (.bilstm 71 2 (some "sum".toList))
      [Demo.pos (some ["default".toList])])).map (fun r => r.1.gold.keys.length)) = .error .value := by decide +kernel
example : ((buildNetwork 0 (Demo.net (.bilstm 70 2 none) [Demo.pos none])).map
      (fun r => r.1.gold.keys.length)) = .error .key := by decide +kernel
example : ((buildNetwork 0 (Demo.net (.bilstm 70 2 none) [Demo.pos (some ["default".toList]),
      Demo.pos (some ["default".toList])])).map (fun r => r.1.gold.keys.length)) = .error .value := by decide +kernel
/-- The kernels of the character task and of the shared part have the same name. -/
example : ((buildNetwork 0 (Demo.net (.bilstmCnn 70 1 none [⟨3, 50, 1⟩]) [Demo.combo ⟨3, 50, 1⟩])).map
      (fun r => r.1.gold.keys.length)) = .error .value ∧
    ((buildNetwork 0 (Demo.net (.bilstmCnn 70 1 none [⟨3, 50, 1⟩]) [Demo.combo ⟨3, 51, 1⟩])).map
      (fun r => r.1.gold.keys.length)) = .ok 3 := by decide +kernel

/-! ### C94 -/

theorem extractedLabels_eq (c : NetCfg) : extractedLabels c = c.tasks.map TaskCfg.label := by
  unfold extractedLabels
  induction c.tasks with
  | nil => rfl
  | cons t ts ih =>
    rw [List.flatMap_cons, ih, List.map_cons]
    unfold TaskCfg.label
    cases t.task <;> rfl

theorem extractedFeatures_eq (c : NetCfg) :
    extractedFeatures c = c.features.inputs ++ c.tasks.flatMap TaskCfg.inputs := by
  have h1 : (fun t : TaskCfg => t.task.features) = TaskCfg.inputs := by
    funext t
    unfold TaskCfg.inputs
    cases t.task <;> rfl
  simp only [extractedFeatures, h1, SharedCfg.features, SharedCfg.inputs]

theorem built_labels {gid : Nat} {c : NetCfg} {r : NN × TfGraph × List Tensor} (h : buildNetwork gid c = .ok r) :
    (c.tasks.map TaskCfg.label).Nodup :=
  ((C93_iff gid c).mp ⟨r, h⟩).labels

/-- C94: for every configuration that can be built, the features and labels
that are extracted are exactly what the network accepts: feeding them together with learning rate and
dropout raises no error, every value reaches the placeholder of its name, and every placeholder that the
layers read gets a value. -/
theorem C94_fed (gid : Nat) (c : NetCfg) (nn : NN) (g : TfGraph) (used : List Tensor)
    (h : buildNetwork gid c = .ok (nn, g, used)) {V : Type} (features labels : Dict Str V)
    (hf : ∀ k, k ∈ features.keys ↔ k ∈ extractedFeatures c)
    (hl : ∀ k, k ∈ labels.keys ↔ k = "learning_rate".toList ∨ k = "dropout_probability".toList ∨
      k ∈ extractedLabels c) :
    ∃ feed, nn.feedDict features (some labels) = .ok feed ∧
      (∀ t ∈ used, ∃ v, feed.get? t = some v) ∧
      (∀ k v, features.get? k = some v → ∃ t, nn.inputs.get? k = some t ∧ feed.get? t = some v) ∧
      (∀ k v, labels.get? k = some v → ∃ t, nn.gold.get? k = some t ∧ feed.get? t = some v) := by
  obtain ⟨st, I, G, hinv, hI, hG, _, rfl, _, rfl⟩ := buildNetwork_inv (built_labels h) h
  have hnd := hinv.nodup
  rw [List.map_append, List.nodup_append] at hnd
  have hkI : st.inputs.keys = c.features.inputs ++ c.tasks.flatMap TaskCfg.inputs := (numbered_keys hinv.inputs).trans hI
  have hkG : st.gold.keys = [kDropout, kLr] ++ c.tasks.map TaskCfg.label := (numbered_keys hinv.gold).trans hG
  have hfe := extractedFeatures_eq c
  have hle : extractedLabels c = c.tasks.map TaskCfg.label := extractedLabels_eq c
  have hfk : ∀ k ∈ features.keys, k ∈ st.inputs.keys := by
    intro k hk
    rw [hkI, ← hfe]
    exact (hf k).mp hk
  have hlk : ∀ k, k ∈ labels.keys ↔ k ∈ st.gold.keys := by
    intro k
    rw [hl, hkG, hle]
    show (k = kLr ∨ k = kDropout ∨ _) ↔ k ∈ kDropout :: kLr :: _
    rw [List.mem_cons, List.mem_cons]
    generalize kLr = a, kDropout = b
    tauto
  obtain ⟨feed, e1, e2⟩ := C65_feed
    ⟨st.inputs, st.outputs, st.gold, ⟨gid, "optimizer_op".toList⟩, ⟨gid, natStr st.next⟩,
      .global ⟨gid, "init".toList⟩ :: st.inits⟩
    (numbered_oneToOne hinv.inputs hnd.1) (numbered_oneToOne hinv.gold hnd.2.1)
    (by
      intro k k' t h1 h2
      have m1 := Dict.get?_mem.mp h1
      have m2 := Dict.get?_mem.mp h2
      rw [hinv.inputs] at m1
      rw [hinv.gold] at m2
      obtain ⟨p, hp, e1⟩ := List.mem_map.mp m1
      obtain ⟨q, hq, e2⟩ := List.mem_map.mp m2
      have e3 := (congrArg Prod.snd e1).trans (congrArg Prod.snd e2).symm
      simp only [Tensor.mk.injEq, true_and] at e3
      exact hnd.2.2 _ (List.mem_map_of_mem hp) _ (List.mem_map_of_mem hq) (natStr_inj e3))
    features labels hfk (fun k hk => (hlk k).mp hk)
  refine ⟨feed, e1, ?_, ?_, ?_⟩
  · intro t ht
    obtain ⟨p, hp, rfl⟩ := hinv.used t ht
    rcases List.mem_append.mp hp with hp | hp
    · have h1 := numbered_get? hinv.inputs hp
      have h2 : p.1 ∈ features.keys := by
        rw [hf, hfe, ← hkI, ← Dict.get?_isSome, h1]
        rfl
      obtain ⟨v, hv⟩ := Option.isSome_iff_exists.mp (Dict.get?_isSome.mpr h2)
      exact ⟨v, (e2 _ _).mpr (Or.inl ⟨p.1, h1, hv⟩)⟩
    · have h1 := numbered_get? hinv.gold hp
      have h2 : p.1 ∈ labels.keys := by
        rw [hlk, ← Dict.get?_isSome, h1]
        rfl
      obtain ⟨v, hv⟩ := Option.isSome_iff_exists.mp (Dict.get?_isSome.mpr h2)
      exact ⟨v, (e2 _ _).mpr (Or.inr ⟨p.1, h1, hv⟩)⟩
  · intro k v hk
    have h1 := hfk k (Dict.get?_isSome.mp (by rw [hk]; rfl))
    obtain ⟨t, ht⟩ := Option.isSome_iff_exists.mp (Dict.get?_isSome.mpr h1)
    exact ⟨t, ht, (e2 _ _).mpr (Or.inl ⟨k, ht, hk⟩)⟩
  · intro k v hk
    have h1 := (hlk k).mp (Dict.get?_isSome.mp (by rw [hk]; rfl))
    obtain ⟨t, ht⟩ := Option.isSome_iff_exists.mp (Dict.get?_isSome.mpr h1)
    exact ⟨t, ht, (e2 _ _).mpr (Or.inr ⟨k, ht, hk⟩)⟩

/-- C94: the outputs of the network are exactly the labels that are interpreted, and the built network
can be saved: all its parts are in its graph. -/
theorem C94_outputs (gid : Nat) (c : NetCfg) (nn : NN) (g : TfGraph) (used : List Tensor)
    (h : buildNetwork gid c = .ok (nn, g, used)) :
    (∀ k, k ∈ nn.outputs.keys ↔ k ∈ extractedLabels c) ∧ nn.Of g.id ∧ nn.NamedIn g := by
  obtain ⟨st, I, G, hinv, _, _, hO, rfl, rfl, _⟩ := buildNetwork_inv (built_labels h) h
  have hle : extractedLabels c = c.tasks.map TaskCfg.label := extractedLabels_eq c
  have hin : ∀ (d : Dict Str Tensor) L, d.entries = numbered gid L → (∀ p ∈ L, p.2 < st.next) →
      ∀ k t, d.get? k = some t → t.graph = gid ∧ t.name ∈ (List.range (st.next + 1)).map natStr := by
    intro d L hdL hb k t hkt
    have m1 := Dict.get?_mem.mp hkt
    rw [hdL] at m1
    obtain ⟨p, hp, e⟩ := List.mem_map.mp m1
    obtain rfl : _ = t := congrArg Prod.snd e
    have := hb p hp
    exact ⟨rfl, List.mem_map_of_mem (List.mem_range.mpr (by omega))⟩
  have hi := hin st.inputs I hinv.inputs (fun p hp => hinv.below p (by simp [hp]))
  have hg := hin st.gold G hinv.gold (fun p hp => hinv.below p (by simp [hp]))
  have hout : ∀ k t, st.outputs.get? k = some t → t.graph = gid ∧ t.name ∈ (List.range (st.next + 1)).map natStr := by
    intro k t hkt
    obtain ⟨n, hn, e⟩ := hinv.outputs (k, t) (Dict.get?_mem.mp hkt)
    simp only at e
    rw [e]
    exact ⟨rfl, List.mem_map_of_mem (List.mem_range.mpr (by omega))⟩
  refine ⟨fun k => by rw [hle]; exact hO k, ⟨fun k t hk => (hi k t hk).1, fun k t hk => (hout k t hk).1,
    fun k t hk => (hg k t hk).1, rfl, rfl, ?_⟩, ⟨fun k t hk => (hi k t hk).2, fun k t hk => (hout k t hk).2,
    fun k t hk => (hg k t hk).2, by simp, List.mem_map_of_mem (List.mem_range.mpr (by simp)), ?_⟩⟩
  · intro i hi'
    rcases List.mem_cons.mp hi' with rfl | hi'
    · rfl
    · exact (hinv.inits i hi').1
  · intro i hi'
    rcases List.mem_cons.mp hi' with rfl | hi'
    · show "init".toList ∈ ["optimizer_op".toList, "init".toList]
      simp
    · exact (hinv.inits i hi').2

example : extractedFeatures (Demo.net .words [Demo.pos none, Demo.combo ⟨3, 50, 1⟩]) =
    ["sentences_lengths".toList, "words".toList, "characters".toList, "input_subwords".toList] ∧
    extractedLabels (Demo.net .words [Demo.pos none, Demo.combo ⟨3, 50, 1⟩]) =
      ["pos_labels".toList, "output_subwords".toList] := by decide +kernel

/-! ### C95 -/

/-- C95, what holds: the first call gives the providers of the shared part and of all tasks, and merging
them from a collection gives a builder of all features and one of all labels. -/
theorem C95_partial {π : Type} (feature label : π → Builder) (shared : List π) (tasks : List (List π))
    (hne : shared ≠ []) (hf : ∀ p, (feature p).WellFormed) (hl : ∀ p, (label p).WellFormed) :
    (featureProvidersCalls tasks 1 shared).head? = some (shared ++ tasks.flatten) ∧
    ∃ f l, mergedProviders feature label false (featureProviders shared tasks) = .ok (f, l) ∧
      (f.leaves.filter (fun x => x.2.isSome)).Perm
        ((Builder.leavesL ((shared ++ tasks.flatten).map feature)).filter (fun x => x.2.isSome)) ∧
      (l.leaves.filter (fun x => x.2.isSome)).Perm
        ((Builder.leavesL ((shared ++ tasks.flatten).map label)).filter (fun x => x.2.isSome)) := by
  refine ⟨rfl, ?_⟩
  have hne' : shared ++ tasks.flatten ≠ [] := by simp [hne]
  obtain ⟨f, e1, _⟩ := C39_total ((shared ++ tasks.flatten).map feature) (by simpa using hne') (by
    intro b hb
    obtain ⟨p, _, rfl⟩ := List.mem_map.mp hb
    exact hf p)
  obtain ⟨l, e2, _⟩ := C39_total ((shared ++ tasks.flatten).map label) (by simpa using hne') (by
    intro b hb
    obtain ⟨p, _, rfl⟩ := List.mem_map.mp hb
    exact hl p)
  refine ⟨f, l, ?_, C39_leaves _ _ e1, C39_leaves _ _ e2⟩
  simp only [mergedProviders, providerBuilders, featureProviders, Bool.false_eq_true, if_false, e1, e2]

/-- C95 (refuted): the second call returns the providers of the tasks twice, ... -/
theorem C95_refuted {π : Type} (shared : List π) (tasks : List (List π)) :
    featureProvidersCalls tasks 2 shared =
      [shared ++ tasks.flatten, shared ++ tasks.flatten ++ tasks.flatten] := by
  simp [featureProvidersCalls, featureProviders]

/-- ... and an iterable that can be iterated only once is refused with `ValueError`. -/
theorem C95_refuted_iterator {π : Type} (feature label : π → Builder) (providers : List π) :
    mergedProviders feature label true providers = .error .value := by
  unfold mergedProviders providerBuilders
  simp only [if_true, List.map_nil]
  cases h : mergeBuilders (providers.map feature) with
  | error e => simp only [C39_only_value_error _ _ h]
  | ok f => rfl

end Verif
