import Verif.Proofs.HyperRequired
import Verif.Props.Hyper

/-!
# C131: entries of the hyperparameters that are missing
-/

namespace Verif

variable {F μ σ : Type}

theorem loop_keys {train : Rat → μ → List σ → Rat → Res (μ × Rat)} {keys : TrainKeys} {lr : Rat} {epochs : Int}
    {dir : List Str} {sents : Nat → List σ} {dev : Option (Nat → List Str × μ → Res ScoreTable)} {init : μ}
    (h : (trainLoopKeys train keys lr epochs dir sents dev init).1.events ≠ []) :
    (∃ d, keys.decay = .ok d) ∧ (∃ d, keys.dropout = .ok d) ∧ ∃ b, keys.batchSize = .ok b := by
  by_contra hc
  apply h
  unfold trainLoopKeys
  cases List.range epochs.toNat with
  | nil => rfl
  | cons n ns =>
    have hs : ∀ st : TrainSt μ, ∃ e, trainStepKeys train keys dir sents dev st n = .error (st, e) := by
      intro st
      unfold trainStepKeys
      cases hd : keys.decay with
      | error e => exact ⟨e, rfl⟩
      | ok d =>
        cases hg : getLr n st.lr d with
        | error e => exact ⟨e, by simp only [hg]⟩
        | ok l =>
          cases hdr : keys.dropout with
          | error e => exact ⟨e, by simp only [hg]⟩
          | ok d' =>
            cases hb : keys.batchSize with
            | error e => exact ⟨e, by simp only [hg]⟩
            | ok b => exact absurd ⟨⟨d, hd⟩, ⟨d', hdr⟩, b, hb⟩ hc
    obtain ⟨e, he⟩ := hs { model := init, lr := lr, prev := List.replicate 5 0 }
    simp only [loopUntil, he]

/-- C131: if a model has been saved, no entry that is needed was missing. -/
theorem C131_required_partial (w : Outside) (m : Machine F μ σ) (dir : List Str)
    (dev : Option (Nat → List Str × μ → Res ScoreTable)) (j : JV) (st : TrainSt μ) (err : Option Err)
    (h : hyperTrain w m dir dev j = .ok (st, err)) (hs : st.events ≠ []) :
    ∀ p ∈ requiredPaths j, (j.find p).isSome = true := by
  simp only [hyperTrain, okBind, okPure] at h
  obtain ⟨p, hp, lr, hlr, n, hn, h⟩ := h
  have hk := loop_keys (by rw [h]; exact hs)
  simp only [hyperKeys, okBind] at hk
  obtain ⟨⟨_, o, ho, _, hdecay, _⟩, ⟨_, _, hdrop, _⟩, ⟨_, _, hbatch, _⟩⟩ := hk
  simp only [hyperEpochs, okBind] at hn
  obtain ⟨_, hep, _⟩ := hn
  simp only [hyperInitialLr, okBind, ho, Except.ok.injEq, exists_eq_left'] at hlr
  obtain ⟨_, hlr, _⟩ := hlr
  simp only [hyperPrepare, okBind] at hp
  obtain ⟨_, _, rate, hcon, ps, hps, asm, _, shapes, _, net, hnet, _, hbuild, _⟩ := hp
  have hok := (C93_iff _ _).mp ⟨_, hbuild⟩
  simp only [hyperConstruct, okBind] at hcon
  obtain ⟨ts, hts, s, hsh, _, _, _, heach, _⟩ := hcon
  simp only [hyperProviders, hyperSharedFeatures, okBind, hts, hsh, Except.ok.injEq, exists_eq_left', okPure] at hps
  obtain ⟨fc, hfc, pa, hpa, pb, hpb, _⟩ := hps
  simp only [hyperNet, hyperSharedFeatures, okBind, hts, hsh, hfc, ho, Except.ok.injEq, exists_eq_left', okPure] at hnet
  obtain ⟨v, hv, name, hname, c, hc, kind, hkind, f, hf, rs, hrs, on, hon, rfl⟩ := hnet
  simp only [hyperTasks, okBind] at hts
  obtain ⟨nn, hnn, tv, htv, tl, htl, hts⟩ := hts
  simp only [hyperShared, okBind, hnn, Except.ok.injEq, exists_eq_left'] at hsh
  simp only [hyperOptimizer, okBind, hnn, Except.ok.injEq, exists_eq_left'] at ho
  obtain ⟨g, hg, ho⟩ := ho
  have hnn' : j.get "nn_config".toList = .ok nn := hnn
  refine AllThere.append (.key htv (.key hnn' (.key hep (.key hdrop (.key hbatch (.nil _)))))) (.section ?_)
  intro nn' hnn''
  obtain rfl : nn = nn' := by
    rw [hnn'] at hnn''
    injection hnn''
  have htype : ∃ t, o.get "type".toList = .ok t := by
    obtain ⟨x, _, hx⟩ := hok.optimizer
    simp only at hx
    subst hx
    simp only [optimizerName, okBind] at hon
    obtain ⟨b, _, hon⟩ := hon
    cases b with
    | true =>
      simp only [if_true, okBind] at hon
      obtain ⟨t, ht, _⟩ := hon
      exact ⟨t, ht⟩
    | false => cases hon
  obtain ⟨_, htype⟩ := htype
  refine .append (.append (.append ?_ (.key hsh (.nil _))) (.section ?_)) ?_
  · exact .under hg (.under ho (.key htype (.key hlr (.key hdecay (.nil _)))))
  · intro s' hs'
    rw [hsh] at hs'
    cases hs'
    refine .append (.append (.key hv (.key hc (.nil _))) (.under hc (kind_there hv hname hkind hok.kind)))
      (.section ?_)
    intro fc' hfc'
    rw [JV.getD_of_get hfc'] at hfc
    cases hfc
    exact features_there hpa hf
  · intro p hp
    obtain ⟨t, ht, hp⟩ := List.mem_flatMap.mp hp
    have htw : t ∈ tv.words := by
      obtain ⟨l, rfl, hl⟩ := JV.get_ok.mp htv
      simpa only [taskNamesIn, hl] using ht
    obtain ⟨te, hte, hget⟩ := mapM'_read hts (iter_words htl htw)
    simp only [hyperTask, JV.key, okBind, Except.ok.injEq, exists_eq_left'] at hget
    have key : AllThere nn ([t] :: inSection nn t taskNeeds) := by
      refine .cons (by rw [JV.find_one.mpr hget]; rfl) (.section ?_)
      intro te' hte'
      rw [hget] at hte'
      cases hte'
      obtain ⟨_, _, h1⟩ := mapM'_read hpb hte
      obtain ⟨r, hr, h2⟩ := mapM'_read hrs hte
      exact task_there (checkEach_mem heach hte) h1 h2 (hok.tasks _ (List.mem_map.mpr ⟨r, hr, rfl⟩))
    exact key p hp

theorem stepKeys_events {train : Rat → μ → List σ → Rat → Res (μ × Rat)} {keys : TrainKeys}
    {dir : List Str} {sents : Nat → List σ} {dev : Option (Nat → List Str × μ → Res ScoreTable)} {st st' : TrainSt μ}
    {n : Nat} (h : trainStepKeys train keys dir sents dev st n = .ok st') : st'.events ≠ [] := by
  unfold trainStepKeys at h
  repeat' split at h
  all_goals first
    | (cases h; done)
    | (simp only [Except.ok.injEq] at h; subst h; simp [TrainSt.saved])

theorem loopUntil_events {α : Type} {f : TrainSt μ → α → Except (TrainSt μ × Err) (TrainSt μ)}
    (hf : ∀ st n st', f st n = .ok st' → st'.events ≠ []) (st st' : TrainSt μ) (l : List α)
    (h : loopUntil f st l = (st', none)) : l = [] ∨ st'.events ≠ [] := by
  induction l generalizing st with
  | nil => exact .inl rfl
  | cons x xs ih =>
    right
    unfold loopUntil at h
    cases hx : f st x with
    | error e => rw [hx] at h; cases h
    | ok s1 =>
      rw [hx] at h
      rcases ih s1 h with rfl | h1
      · cases h
        exact hf _ _ _ hx
      · exact h1

/-- C131: without an entry that is needed the training ends with an exception, and no model is saved; if no epochs are
asked for, there may be no exception. -/
theorem C131_missing_partial (w : Outside) (m : Machine F μ σ) (dir : List Str)
    (dev : Option (Nat → List Str × μ → Res ScoreTable)) (j : JV) (p : List Str) (hp : p ∈ requiredPaths j)
    (h : j.find p = none) :
    (∃ e, hyperTrain w m dir dev j = .error e) ∨ ∃ st err, hyperTrain w m dir dev j = .ok (st, err) ∧ st.events = [] ∧
      (err = none → ∃ q : Rat, q ≤ 0 ∧ j.find ["epochs".toList] = some (.num q)) := by
  cases hr : hyperTrain w m dir dev j with
  | error e => exact .inl ⟨e, rfl⟩
  | ok r =>
    obtain ⟨st, err⟩ := r
    have he : st.events = [] := by
      by_contra hc
      have := C131_required_partial w m dir dev j st err hr hc p hp
      rw [h] at this
      cases this
    refine .inr ⟨st, err, rfl, he, ?_⟩
    rintro rfl
    simp only [hyperTrain, okBind, okPure] at hr
    obtain ⟨_, _, _, _, n, hn, hr⟩ := hr
    simp only [hyperEpochs, okBind] at hn
    obtain ⟨v, hv, hn⟩ := hn
    rcases loopUntil_events (fun st n st' h => stepKeys_events h) _ _ _ hr with hl | hl
    · have hn0 : n ≤ 0 := by
        by_contra hc
        have : n.toNat ≠ 0 := by omega
        rw [List.range_eq_nil] at hl
        exact this hl
      cases v with
      | num q =>
        refine ⟨q, ?_, JV.find_one.mpr hv⟩
        simp only [JV.int] at hn
        split at hn
        · cases hn
          exact Rat.num_nonpos.mp hn0
        · cases hn
      | _ => cases hn
    · exact absurd he hl

namespace Demo

/-- The sample without the factor. -/
def hyperNoFactor : JV := hyperWith [("type", jstr "Adam"), ("initial_lr", .num (1/500)), ("lr_decay", .num 0)]

/-- A dev tester for which the models do not get better. -/
def flatDev : Nat → List Str × Nat → Res ScoreTable := fun _ _ => .ok Dict.empty

end Demo

/-- C131 (refuted): `lr_decrease_factor` is documented to be 2 if it is missing, but then the training ends with a
`KeyError` after the first epoch without progress, with the model of that epoch saved, whereas it goes on with 2. -/
theorem C131_factor_refuted :
    Demo.hyperNoFactor.find ["nn_config".toList, "general".toList, "optimizer".toList, "lr_decrease_factor".toList] =
      none ∧
    (hyperTrain Demo.noFiles Demo.hyperMachine [] (some Demo.flatDev) Demo.hyperNoFactor).map
      (fun r => (r.1.events.length, r.2)) = .ok (1, some .key) ∧
    (hyperTrain Demo.noFiles Demo.hyperMachine [] (some Demo.flatDev) Demo.hyperSample).map
      (fun r => (r.1.events.length, r.1.lrs, r.2)) = .ok (2, [1/500, 1/1000], none) := by
  refine ⟨by decide +kernel, by decide +kernel, by decide +kernel⟩

/-- Nobody notices if there is progress or no dev set. -/
example : Demo.trainedModels (hyperTrain Demo.noFiles Demo.hyperMachine [] none Demo.hyperNoFactor) =
    .ok ([1, 2], [1/500, 1/500], none) := by decide +kernel

/-- The sample has everything that is needed; `lstm_cell_size` is needed. -/
example : ["nn_config".toList, "shared_part".toList, "config".toList, "lstm_cell_size".toList] ∈
    requiredPaths Demo.hyperSample ∧ (requiredPaths Demo.hyperSample).all (fun p => (Demo.hyperSample.find p).isSome) :=
  by decide +kernel

end Verif
