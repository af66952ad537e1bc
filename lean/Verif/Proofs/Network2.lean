import Verif.Proofs.Network
import Verif.Proofs.Evaluation

/-!
# Loading and building networks
-/

namespace Verif

/-! ### Predictions of a reattached network -/

/-- The feeds `d` in the graph `a` and `d'` in the graph `b` agree by name. -/
def SameFeed {V : Type} (a b : Nat) (names : List Str) (d d' : Dict Tensor V) : Prop :=
  (∀ n, d'.get? ⟨b, n⟩ = d.get? ⟨a, n⟩) ∧
  (∀ t ∈ d.keys, t.graph = a ∧ t.name ∈ names) ∧ (∀ t ∈ d'.keys, t.graph = b ∧ t.name ∈ names)

theorem Dict.mem_keys_set {K V : Type} [DecidableEq K] (d : Dict K V) (k : K) (v : V) (x : K) :
    x ∈ (d.set k v).keys ↔ x = k ∨ x ∈ d.keys := by
  rw [← Dict.get?_isSome, Dict.get?_set, ← Dict.get?_isSome]
  by_cases h : k = x
  · simp [h]
  · have : ¬ x = k := fun e => h e.symm
    simp [h, this]

theorem fill_same {V : Type} {g : TfGraph} {a : Nat} {keys keys' : Dict Str Tensor}
    (hk : ∀ k, keys'.get? k = (keys.get? k).map g.twin)
    (ho : ∀ k t, keys.get? k = some t → t.graph = a ∧ t.name ∈ g.tensors)
    (l : List (Str × V)) (d d' : Dict Tensor V) (h : SameFeed a g.id g.tensors d d') :
    (∃ r r', forM' (fillEntry keys) d l = .ok r ∧ forM' (fillEntry keys') d' l = .ok r' ∧
      SameFeed a g.id g.tensors r r') ∨
    (∃ e, forM' (fillEntry keys) d l = .error e ∧ forM' (fillEntry keys') d' l = .error e) := by
  induction l generalizing d d' with
  | nil => exact Or.inl ⟨d, d', rfl, rfl, h⟩
  | cons p l ih =>
    cases hp : keys.get? p.1 with
    | none =>
      right
      have hp' := hk p.1
      rw [hp] at hp'
      simp only [Option.map_none] at hp'
      exact ⟨.key, by simp only [forM', fillEntry, Dict.getItem, hp],
        by simp only [forM', fillEntry, Dict.getItem, hp']⟩
    | some t =>
      have hp' := hk p.1
      rw [hp] at hp'
      simp only [Option.map_some] at hp'
      have h1 : forM' (fillEntry keys) d (p :: l) = forM' (fillEntry keys) (d.set t p.2) l := by
        simp only [forM', fillEntry, Dict.getItem, hp]
      have h2 : forM' (fillEntry keys') d' (p :: l) = forM' (fillEntry keys') (d'.set (g.twin t) p.2) l := by
        simp only [forM', fillEntry, Dict.getItem, hp']
      rw [h1, h2]
      apply ih
      obtain ⟨o1, o2⟩ := ho _ _ hp
      refine ⟨fun n => ?_, fun x hx => ?_, fun x hx => ?_⟩
      · rw [Dict.get?_set, Dict.get?_set, h.1]
        have : (g.twin t = ⟨g.id, n⟩) ↔ (t = ⟨a, n⟩) := by
          obtain ⟨tg, tn⟩ := t
          simp only at o1
          subst o1
          simp [TfGraph.twin]
        by_cases hc : t = ⟨a, n⟩
        · rw [if_pos hc.symm, if_pos (this.mpr hc).symm]
        · have h3 : ¬ (⟨a, n⟩ : Tensor) = t := fun hh => hc hh.symm
          have h4 : ¬ (⟨g.id, n⟩ : Tensor) = g.twin t := fun hh => hc (this.mp hh.symm)
          rw [if_neg h3, if_neg h4]
      · rcases (Dict.mem_keys_set _ _ _ _).mp hx with rfl | hx
        · exact ⟨o1, o2⟩
        · exact h.2.1 x hx
      · rcases (Dict.mem_keys_set _ _ _ _).mp hx with rfl | hx
        · exact ⟨rfl, o2⟩
        · exact h.2.2 x hx

theorem run_same {V : Type} {s s' : Session V} (hn : s'.graph.tensors = s.graph.tensors)
    (he : s'.eval = s.eval) {d d' : Dict Tensor V}
    (h : SameFeed s.graph.id s'.graph.id s'.graph.tensors d d') {o o' : Dict Str Tensor}
    (ho : o'.entries = o.entries.map (fun p => (p.1, s'.graph.twin p.2)))
    (hg : ∀ k t, o.get? k = some t → t.graph = s.graph.id ∧ t.name ∈ s.graph.tensors) :
    s'.run o' d' = s.run o d := by
  unfold Session.run
  have h1 : d.keys.all s.knows = true := by
    rw [List.all_eq_true]
    intro t ht
    have := h.2.1 t ht
    rw [hn] at this
    simpa [Session.knows] using this
  have h2 : d'.keys.all s'.knows = true := by
    rw [List.all_eq_true]
    intro t ht
    have := h.2.2 t ht
    simpa [Session.knows] using this
  rw [h1, h2, ho]
  have h3 : ∀ l : List (Str × Tensor), (∀ p ∈ l, p.2.graph = s.graph.id ∧ p.2.name ∈ s.graph.tensors) →
      mapM' (s'.fetch d') (l.map (fun p => (p.1, s'.graph.twin p.2))) = mapM' (s.fetch d) l := by
    intro l hl
    induction l with
    | nil => rfl
    | cons p l ih =>
      have hp := hl p (by simp)
      have e1 : s'.fetch d' (p.1, s'.graph.twin p.2) = s.fetch d p := by
        unfold Session.fetch
        have k1 : s.knows p.2 = true := by simpa [Session.knows] using hp
        have k2 : s'.knows (s'.graph.twin p.2) = true := by
          simp only [Session.knows, TfGraph.twin, hn, decide_eq_true_eq, true_and]
          exact hp.2
        rw [k1, k2, he]
        simp only [if_true, TfGraph.twin]
        rw [show (fun n => d'.get? ⟨s'.graph.id, n⟩) = (fun n => d.get? ⟨s.graph.id, n⟩) from funext h.1]
      simp only [List.map_cons, mapM', e1, ih (fun q hq => hl q (by simp [hq]))]
  rw [h3 o.entries (fun p hp => hg p.1 p.2 (Dict.get?_mem.mpr hp))]

theorem predict_same {V : Type} {m m' : NNModel V} (hn : m'.session.graph.tensors = m.session.graph.tensors)
    (he : m'.session.eval = m.session.eval) (hr : Reattached m'.session.graph m.network m'.network)
    (ho : m'.network.outputs.entries = m.network.outputs.entries.map (fun p => (p.1, m'.session.graph.twin p.2)))
    (hof : m.network.Of m.session.graph.id) (hin : m.network.NamedIn m.session.graph)
    (features : Dict Str V) : m'.predict features = m.predict features := by
  unfold NNModel.predict NN.feedDict fillDict
  have h0 : SameFeed m.session.graph.id m'.session.graph.id m'.session.graph.tensors
      (Dict.empty : Dict Tensor V) Dict.empty :=
    ⟨fun n => rfl, fun t ht => (by cases ht), fun t ht => (by cases ht)⟩
  rcases fill_same hr.inputs
    (fun k t hkt => ⟨hof.inputs k t hkt, by rw [hn]; exact hin.inputs k t hkt⟩)
    features.entries _ _ h0 with ⟨r, r', e1, e2, e3⟩ | ⟨e, e1, e2⟩
  · simp only [e1, e2]
    exact run_same hn he e3 ho (fun k t hkt => ⟨hof.outputs k t hkt, hin.outputs k t hkt⟩)
  · simp only [e1, e2]

/-! ### Building -/

theorem Dict.updateList_new {K V : Type} [DecidableEq K] (d : Dict K V) (l : List (K × V))
    (hn : (l.map Prod.fst).Nodup) (hd : ∀ k ∈ l.map Prod.fst, k ∉ d.keys) :
    (d.updateList l).entries = d.entries ++ l := by
  induction l generalizing d with
  | nil => simp [Dict.updateList]
  | cons p l ih =>
    have h1 : (d.set p.1 p.2).entries = d.entries ++ [p] := by
      show assocSet p.1 p.2 d.entries = _
      exact assocSet_append_new (hd p.1 (by simp))
    simp only [List.map_cons, List.nodup_cons] at hn
    have h2 : (d.updateList (p :: l)) = (d.set p.1 p.2).updateList l := rfl
    rw [h2, ih _ hn.2, h1, List.append_assoc, List.singleton_append]
    intro k hk hk2
    rcases (Dict.mem_keys_set _ _ _ _).mp hk2 with rfl | hk2
    · exact hn.1 hk
    · exact hd k (by simp [hk]) hk2

/-- Numbered placeholders. -/
def numbered (gid : Nat) (L : List (Str × Nat)) : List (Str × Tensor) :=
  L.map (fun p => (p.1, ⟨gid, natStr p.2⟩))

def from' (n : Nat) : List Str → List (Str × Nat)
  | [] => []
  | k :: ks => (k, n) :: from' (n + 1) ks

theorem placeholders_numbered (gid n : Nat) (ks : List Str) :
    placeholders gid n ks = numbered gid (from' n ks) := by
  induction ks generalizing n with
  | nil => rfl
  | cons k ks ih =>
    simp only [placeholders, from', numbered, List.map_cons]
    rw [ih]
    rfl

theorem from'_fst (n : Nat) (ks : List Str) : (from' n ks).map Prod.fst = ks := by
  induction ks generalizing n with
  | nil => rfl
  | cons k ks ih => simp [from', ih]

theorem from'_snd (n : Nat) (ks : List Str) : (from' n ks).map Prod.snd = List.range' n ks.length := by
  induction ks generalizing n with
  | nil => rfl
  | cons k ks ih => simp [from', ih, List.range'_succ]

theorem numbered_fst (gid : Nat) (L : List (Str × Nat)) : (numbered gid L).map Prod.fst = L.map Prod.fst := by
  simp [numbered, List.map_map, Function.comp_def]

/-- The invariant of the loop over the tasks: the dictionaries consist of numbered placeholders, and every
placeholder that is read is in one of them. -/
structure NetInv (gid : Nat) (I G : List (Str × Nat)) (st : NetSt) : Prop where
  inputs : st.inputs.entries = numbered gid I
  gold : st.gold.entries = numbered gid G
  nodup : ((I ++ G).map Prod.snd).Nodup
  below : ∀ p ∈ I ++ G, p.2 < st.next
  outputs : ∀ p ∈ st.outputs.entries, ∃ n < st.next, p.2 = ⟨gid, natStr n⟩
  inits : ∀ i ∈ st.inits, i.Of gid ∧ i.NamedIn ⟨gid, (List.range (st.next + 1)).map natStr, ["optimizer_op".toList, "init".toList]⟩
  used : ∀ t ∈ st.used, ∃ p ∈ I ++ G, t = ⟨gid, natStr p.2⟩

theorem task_inputs_nodup (t : TaskCfg) : t.inputs.Nodup := by
  unfold TaskCfg.inputs
  cases t.task <;> decide

theorem init_named_mono {gid a b : Nat} {ops : List Str} (h : a ≤ b) {i : Init}
    (hi : i.NamedIn ⟨gid, (List.range a).map natStr, ops⟩) :
    i.NamedIn ⟨gid, (List.range b).map natStr, ops⟩ := by
  have hs : ∀ x, x ∈ (List.range a).map natStr → x ∈ (List.range b).map natStr := by
    intro x hx
    obtain ⟨n, hn, rfl⟩ := List.mem_map.mp hx
    exact List.mem_map_of_mem (List.mem_range.mpr (lt_of_lt_of_le (List.mem_range.mp hn) h))
  cases i with
  | global op => exact hi
  | matrix p i v u => exact ⟨hs _ hi.1, hs _ hi.2.1, hs _ hi.2.2⟩

theorem matrixInits_inv (gid n m : Nat) (names : List Str) (h : n + 3 * names.length ≤ m) :
    ∀ i ∈ matrixInits gid n names,
      i.Of gid ∧ i.NamedIn ⟨gid, (List.range (m + 1)).map natStr, ["optimizer_op".toList, "init".toList]⟩ := by
  intro i hi
  obtain ⟨q, hq, rfl⟩ := List.mem_map.mp hi
  have hq2 := List.snd_lt_of_mem_zipIdx hq
  refine ⟨⟨rfl, rfl, rfl⟩, ?_, ?_, ?_⟩ <;> apply List.mem_map_of_mem <;> rw [List.mem_range] <;> omega

theorem taskStep_inv {gid : Nat} {I0 I G : List (Str × Nat)} {shared : Dict Str Tensor} {st st' : NetSt} {t : TaskCfg}
    (hsh : shared.entries = numbered gid I0) (hI0 : ∀ p ∈ I0, p ∈ I)
    (hinv : NetInv gid I G st) (hI : ∀ k ∈ t.inputs, k ∉ I.map Prod.fst) (hG : t.label ∉ G.map Prod.fst)
    (h : taskStep gid shared st t = st') :
    NetInv gid (I ++ from' st.next t.inputs) (G ++ [(t.label, st.next + t.inputs.length)]) st' ∧
    st'.outputs = st.outputs.set t.label ⟨gid, natStr (st.next + t.inputs.length + 1)⟩ := by
  · subst h
    refine ⟨⟨?_, ?_, ?_, ?_, ?_, ?_, ?_⟩, rfl⟩
    · show (st.inputs.updateList (placeholders gid st.next t.inputs)).entries = _
      rw [Dict.updateList_new, hinv.inputs, placeholders_numbered]
      · simp [numbered]
      · rw [placeholders_numbered, numbered_fst, from'_fst]
        exact task_inputs_nodup t
      · intro k hk
        rw [placeholders_numbered, numbered_fst, from'_fst] at hk
        show k ∉ st.inputs.entries.map Prod.fst
        rw [hinv.inputs, numbered_fst]
        exact hI k hk
    · show assocSet t.label _ st.gold.entries = _
      rw [assocSet_append_new, hinv.gold]
      · simp [numbered]
      · rw [hinv.gold, numbered_fst]
        exact hG
    · have hnd := hinv.nodup
      rw [List.map_append, List.nodup_append] at hnd
      have hb : ∀ n, n ∈ I.map Prod.snd ∨ n ∈ G.map Prod.snd → n < st.next := by
        intro n hn
        rcases hn with hn | hn <;> obtain ⟨p, hp, rfl⟩ := List.mem_map.mp hn <;>
          exact hinv.below p (by simp [hp])
      simp only [List.map_append, List.map_cons, List.map_nil, from'_snd]
      rw [List.nodup_append, List.nodup_append, List.nodup_append]
      refine ⟨⟨hnd.1, List.nodup_range', ?_⟩, ⟨hnd.2.1, by simp, ?_⟩, ?_⟩
      · intro a ha b hbm
        have := hb a (Or.inl ha)
        have := List.mem_range'_1.mp hbm
        omega
      · intro a ha b hbm
        have := hb a (Or.inr ha)
        simp at hbm
        omega
      · intro a ha b hbm
        rcases List.mem_append.mp ha with ha | ha <;> rcases List.mem_append.mp hbm with hbm | hbm
        · exact hnd.2.2 a ha b hbm
        · have := hb a (Or.inl ha)
          simp at hbm
          omega
        · have := hb b (Or.inr hbm)
          have := List.mem_range'_1.mp ha
          omega
        · have := List.mem_range'_1.mp ha
          simp at hbm
          omega
    · intro p hp
      show p.2 < st.next + t.inputs.length + 2 + 3 * t.inits.length
      rcases List.mem_append.mp hp with hp | hp <;> rcases List.mem_append.mp hp with hp | hp
      · have := hinv.below p (by simp [hp]); omega
      · have h1 : p.2 ∈ (from' st.next t.inputs).map Prod.snd := List.mem_map_of_mem hp
        rw [from'_snd] at h1
        have := List.mem_range'_1.mp h1
        omega
      · have := hinv.below p (by simp [hp]); omega
      · simp at hp
        subst hp
        simp only
        omega
    · intro p hp
      have h1 : (st.outputs.set t.label ⟨gid, natStr (st.next + t.inputs.length + 1)⟩).get? p.1 = some p.2 :=
        Dict.get?_mem.mpr hp
      rw [Dict.get?_set] at h1
      split at h1
      · injection h1 with h1
        exact ⟨st.next + t.inputs.length + 1, by simp only [taskStep]; omega, h1.symm⟩
      · obtain ⟨n, hn, e⟩ := hinv.outputs (p.1, p.2) (Dict.get?_mem.mp h1)
        exact ⟨n, by simp only [taskStep]; omega, e⟩
    · intro i hi
      rcases List.mem_append.mp hi with hi | hi
      · exact ⟨(hinv.inits i hi).1, init_named_mono (by simp only [taskStep]; omega) (hinv.inits i hi).2⟩
      · exact matrixInits_inv gid _ _ _ (le_refl _) i hi
    · intro x hx
      simp only [taskStep, List.mem_append, List.mem_cons, List.not_mem_nil, or_false] at hx
      rcases hx with (hx | hx) | hx
      · obtain ⟨p, hp, e⟩ := hinv.used x hx
        refine ⟨p, ?_, e⟩
        rcases List.mem_append.mp hp with hp | hp <;> simp [hp]
      · obtain ⟨q, hq, rfl⟩ := List.mem_map.mp hx
        have h1 : ((Dict.ofList (placeholders gid st.next t.inputs)).update shared).get? q.1 = some q.2 :=
          Dict.get?_mem.mpr hq
        rw [Dict.get?_update] at h1
        cases hs : shared.get? q.1 with
        | some y =>
          rw [hs] at h1
          simp at h1
          have h2 := Dict.get?_mem.mp hs
          rw [hsh, h1] at h2
          obtain ⟨p, hp, e⟩ := List.mem_map.mp h2
          refine ⟨p, by simp [hI0 p hp], ?_⟩
          exact (congrArg Prod.snd e).symm
        | none =>
          rw [hs] at h1
          simp at h1
          have h2 := Dict.get?_mem.mp h1
          rw [Dict.ofList_entries _ (by rw [placeholders_numbered, numbered_fst, from'_fst]; exact task_inputs_nodup t),
            placeholders_numbered] at h2
          obtain ⟨p, hp, e⟩ := List.mem_map.mp h2
          refine ⟨p, by simp [hp], ?_⟩
          exact (congrArg Prod.snd e).symm
      · exact ⟨(t.label, st.next + t.inputs.length), by simp, hx⟩

theorem kDropout_ne : kDropout ≠ kLr := by decide

theorem shared_inputs_nodup (c : SharedCfg) : c.inputs.Nodup := by
  have h : ∀ a b c d e : Bool, (["sentences_lengths".toList] ++ (if a then ["words".toList] else []) ++
      (if b then ["trained_words".toList] else []) ++ (if c then ["characters".toList] else []) ++
      (if d then ["bpe_subwords".toList] else []) ++
      (if e then ["morfessor_subwords".toList] else [])).Nodup := by decide
  exact h _ _ _ _ _

theorem sharedPart_inv (gid : Nat) (c : SharedCfg) :
    NetInv gid (from' 2 c.inputs) (from' 0 [kDropout, kLr]) (sharedPart gid c) := by
  refine ⟨?_, ?_, ?_, ?_, ?_, ?_, ?_⟩
  · show (Dict.ofList (placeholders gid 2 c.inputs)).entries = _
    rw [Dict.ofList_entries, placeholders_numbered]
    rw [placeholders_numbered, numbered_fst, from'_fst]
    exact shared_inputs_nodup c
  · show (Dict.ofList (placeholders gid 0 [kDropout, kLr])).entries = _
    rw [Dict.ofList_entries, placeholders_numbered]
    rw [placeholders_numbered, numbered_fst, from'_fst]
    simp [kDropout_ne]
  · rw [List.map_append, from'_snd, from'_snd, List.nodup_append]
    refine ⟨List.nodup_range', List.nodup_range', ?_⟩
    intro a ha b hb
    have := List.mem_range'_1.mp ha
    have := List.mem_range'_1.mp hb
    simp at *
    omega
  · intro p hp
    have hp2 : p.2 ∈ ((from' 2 c.inputs) ++ (from' 0 [kDropout, kLr])).map Prod.snd := List.mem_map_of_mem hp
    rw [List.map_append, from'_snd, from'_snd, List.mem_append] at hp2
    show p.2 < 2 + c.inputs.length + 3 * c.inits.length
    rcases hp2 with h | h <;> have := List.mem_range'_1.mp h
    · omega
    · simp at this; omega
  · intro p hp
    cases hp
  · exact matrixInits_inv gid _ _ _ (le_refl _)
  · intro t ht
    obtain ⟨q, hq, rfl⟩ := List.mem_map.mp ht
    rw [placeholders_numbered] at hq
    obtain ⟨p, hp, rfl⟩ := List.mem_map.mp hq
    simp only [List.cons_append, List.nil_append, from'] at hp
    refine ⟨p, ?_, rfl⟩
    simp only [List.mem_append, from', List.mem_cons, List.not_mem_nil, or_false] at hp ⊢
    tauto

/-- The keys of the inputs and of the gold placeholders after the loop over the tasks. -/
theorem tasks_inv {gid : Nat} {c : SharedCfg} (tasks : List TaskCfg) {I G : List (Str × Nat)} {st st' : NetSt}
    (hI0 : ∀ p ∈ from' 2 c.inputs, p ∈ I) (hinv : NetInv gid I G st)
    (hI : ∀ k ∈ tasks.flatMap TaskCfg.inputs, k ∉ I.map Prod.fst)
    (hG : ∀ k ∈ tasks.map TaskCfg.label, k ∉ G.map Prod.fst)
    (hnd : (tasks.map TaskCfg.label).Nodup) (hndI : (tasks.flatMap TaskCfg.inputs).Nodup)
    (h : tasks.foldl (taskStep gid (sharedPart gid c).inputs) st = st') :
    ∃ I' G', NetInv gid I' G' st' ∧ I'.map Prod.fst = I.map Prod.fst ++ tasks.flatMap TaskCfg.inputs ∧
      G'.map Prod.fst = G.map Prod.fst ++ tasks.map TaskCfg.label ∧
      (∀ k, k ∈ st'.outputs.keys ↔ k ∈ st.outputs.keys ∨ k ∈ tasks.map TaskCfg.label) := by
  induction tasks generalizing I G st with
  | nil =>
    simp only [List.foldl_nil] at h
    subst h
    exact ⟨I, G, hinv, by simp, by simp, by simp⟩
  | cons t tasks ih =>
    simp only [List.foldl_cons] at h
    · simp only [List.map_cons, List.nodup_cons] at hnd
      simp only [List.flatMap_cons] at hndI hI
      rw [List.nodup_append] at hndI
      obtain ⟨h1, h2⟩ := taskStep_inv (sharedPart_inv gid c).inputs hI0 hinv
        (fun k hk => hI k (by simp [hk])) (hG t.label (by simp)) rfl
      obtain ⟨I', G', h3, h4, h5, h6⟩ := ih (I := I ++ from' st.next t.inputs)
        (G := G ++ [(t.label, st.next + t.inputs.length)]) (fun p hp => by simp [hI0 p hp]) h1
        (by
          intro k hk hk2
          rw [List.map_append, from'_fst, List.mem_append] at hk2
          rcases hk2 with hk2 | hk2
          · exact hI k (by simp only [List.mem_append]; exact Or.inr hk) hk2
          · exact hndI.2.2 k hk2 k hk rfl)
        (by
          intro k hk hk2
          rw [List.map_append, List.mem_append] at hk2
          rcases hk2 with hk2 | hk2
          · exact hG k (by simp only [List.map_cons, List.mem_cons]; exact Or.inr hk) hk2
          · simp at hk2
            subst hk2
            exact hnd.1 hk)
        hnd.2 hndI.2.1 h
      refine ⟨I', G', h3, ?_, ?_, ?_⟩
      · rw [h4, List.map_append, from'_fst]
        simp
      · rw [h5, List.map_append]
        simp
      · intro k
        rw [h6, h2, Dict.mem_keys_set, List.map_cons, List.mem_cons]
        tauto

theorem tasks_inputs_nodup {tasks : List TaskCfg} (h : (tasks.map TaskCfg.label).Nodup) :
    (tasks.flatMap TaskCfg.inputs).Nodup := by
  have hd : ∀ a b : Task, a.label ≠ b.label → ∀ k ∈ a.inputs, k ∉ b.inputs := by
    intro a b
    cases a <;> cases b <;> decide
  induction tasks with
  | nil => simp
  | cons t tasks ih =>
    simp only [List.map_cons, List.nodup_cons] at h
    rw [List.flatMap_cons, List.nodup_append]
    refine ⟨task_inputs_nodup t, ih h.2, ?_⟩
    intro a ha b hb e
    subst e
    obtain ⟨t', ht', hb⟩ := List.mem_flatMap.mp hb
    exact hd t.task t'.task (fun e => h.1 (List.mem_map.mpr ⟨t', ht', e.symm⟩)) a ha hb

theorem task_not_shared (c : SharedCfg) (t : Task) : ∀ k ∈ t.inputs, k ∉ c.inputs := by
  have h : ∀ t : Task, ∀ k ∈ t.inputs, k ∉ ["sentences_lengths".toList, "words".toList, "trained_words".toList,
      "characters".toList, "bpe_subwords".toList, "morfessor_subwords".toList] := by
    intro t
    cases t <;> decide
  intro k hk hm
  apply h t k hk
  simp only [SharedCfg.inputs, List.mem_append] at hm
  rcases hm with ((((hm | hm) | hm) | hm) | hm) | hm
  · exact List.mem_of_mem_head? (by rw [List.mem_singleton.mp hm]; rfl)
  all_goals
    split at hm
    · rw [List.mem_singleton.mp hm]
      simp only [List.mem_cons, true_or, or_true]
    · cases hm

theorem task_label_reserved (t : Task) : t.label ≠ kDropout ∧ t.label ≠ kLr := by
  cases t <;> decide

/-- What building a network gives. -/
theorem buildNetwork_inv {gid : Nat} {c : NetCfg}
    {nn : NN} {g : TfGraph} {used : List Tensor} (hnd : (c.tasks.map TaskCfg.label).Nodup)
    (h : buildNetwork gid c = .ok (nn, g, used)) :
    ∃ st I G, NetInv gid I G st ∧ I.map Prod.fst = c.features.inputs ++ c.tasks.flatMap TaskCfg.inputs ∧
      G.map Prod.fst = [kDropout, kLr] ++ c.tasks.map TaskCfg.label ∧
      (∀ k, k ∈ st.outputs.keys ↔ k ∈ c.tasks.map TaskCfg.label) ∧
      nn = ⟨st.inputs, st.outputs, st.gold, ⟨gid, "optimizer_op".toList⟩, ⟨gid, natStr st.next⟩,
        .global ⟨gid, "init".toList⟩ :: st.inits⟩ ∧
      g = ⟨gid, (List.range (st.next + 1)).map natStr, ["optimizer_op".toList, "init".toList]⟩ ∧
      used = st.used := by
  unfold buildNetwork at h
  split at h
  · cases h
  · injection h with h
    simp only [Prod.mk.injEq] at h
    obtain ⟨h1, h2, h3⟩ := h
    obtain ⟨I, G, k1, k2, k3, k4⟩ := tasks_inv (st' := wire gid c) c.tasks (fun p hp => hp)
      (sharedPart_inv gid c.features)
      (by
        intro k hk
        rw [from'_fst]
        obtain ⟨t, _, ht⟩ := List.mem_flatMap.mp hk
        exact task_not_shared c.features t.task k ht)
      (by
        intro k hk
        rw [from'_fst]
        obtain ⟨t, _, rfl⟩ := List.mem_map.mp hk
        have := task_label_reserved t.task
        simp [TaskCfg.label, this.1, this.2])
      hnd (tasks_inputs_nodup hnd) rfl
    rw [from'_fst] at k2 k3
    refine ⟨wire gid c, I, G, k1, k2, k3, ?_, h1.symm, h2.symm, h3.symm⟩
    intro k
    rw [k4]
    constructor
    · rintro (hk | hk)
      · cases hk
      · exact hk
    · exact Or.inr

theorem numbered_oneToOne {gid : Nat} {L : List (Str × Nat)} {d : Dict Str Tensor}
    (h : d.entries = numbered gid L) (hn : (L.map Prod.snd).Nodup) : OneToOne d := by
  intro k k' t h1 h2
  have m1 := Dict.get?_mem.mp h1
  have m2 := Dict.get?_mem.mp h2
  rw [h] at m1 m2
  obtain ⟨p, hp, e1⟩ := List.mem_map.mp m1
  obtain ⟨q, hq, e2⟩ := List.mem_map.mp m2
  injection e1 with e1 e1'
  injection e2 with e2 e2'
  rw [← e2'] at e1'
  injection e1' with _ e3
  have e4 := natStr_inj e3
  have := List.inj_on_of_nodup_map hn hp hq e4
  rw [← e1, ← e2, this]

theorem numbered_get? {gid : Nat} {L : List (Str × Nat)} {d : Dict Str Tensor}
    (h : d.entries = numbered gid L) {p : Str × Nat} (hp : p ∈ L) : d.get? p.1 = some ⟨gid, natStr p.2⟩ := by
  rw [Dict.get?_mem, h]
  exact List.mem_map.mpr ⟨p, hp, rfl⟩

theorem numbered_keys {gid : Nat} {L : List (Str × Nat)} {d : Dict Str Tensor}
    (h : d.entries = numbered gid L) : d.keys = L.map Prod.fst := by
  unfold Dict.keys
  rw [h, numbered_fst]

end Verif
