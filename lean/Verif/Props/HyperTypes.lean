import Verif.Proofs.HyperTypes
import Verif.Props.HyperRequired

/-!
# C164: entries of the hyperparameters that have a wrong type, are negative sizes or unknown names
-/

namespace Verif

variable {F μ σ : Type}

/-- C164: if the training gets to its loop, everything that is read before has the right type. -/
theorem C164_early (w : Outside) (m : Machine F μ σ) (dir : List Str)
    (dev : Option (Nat → List Str × μ → Res ScoreTable)) (j : JV) (st : TrainSt μ) (err : Option Err)
    (h : hyperTrain w m dir dev j = .ok (st, err)) :
    ∀ e ∈ earlyTypes j, ∀ v, j.find e.1 = some v → e.2.Has v := by
  simp only [hyperTrain, okBind, okPure] at h
  obtain ⟨p, hp, lr, hlr, n, hn, h⟩ := h
  simp only [hyperEpochs, okBind] at hn
  obtain ⟨_, hep, hep'⟩ := hn
  simp only [hyperInitialLr, okBind] at hlr
  obtain ⟨o, ho, _, hlr, hlr'⟩ := hlr
  simp only [hyperPrepare, okBind] at hp
  obtain ⟨_, _, rate, hcon, ps, hps, asm, _, shapes, _, net, hnet, _, hbuild, _⟩ := hp
  have hok := (C93_iff _ _).mp ⟨_, hbuild⟩
  simp only [hyperConstruct, okBind] at hcon
  obtain ⟨ts, hts, s, hsh, _, _, _, _, _, _, c0, hc0, _, hsc, hsc'⟩ := hcon
  simp only [hyperProviders, hyperSharedFeatures, okBind, hts, hsh, Except.ok.injEq, exists_eq_left', okPure] at hps
  obtain ⟨fc, hfc, pa, hpa, pb, hpb, _⟩ := hps
  simp only [hyperNet, hyperSharedFeatures, okBind, hts, hsh, hfc, ho, Except.ok.injEq, exists_eq_left', okPure] at hnet
  obtain ⟨v, hv, name, hname, c, hc, kind, hkind, f, hf, rs, hrs, on, hon, rfl⟩ := hnet
  simp only [hyperTasks, okBind] at hts
  obtain ⟨nn, hnn, tv, htv, tl, htl, hts⟩ := hts
  simp only [hyperShared, okBind, hnn, Except.ok.injEq, exists_eq_left'] at hsh
  simp only [hyperOptimizer, okBind, hnn, Except.ok.injEq, exists_eq_left'] at ho
  obtain ⟨g, hg, ho⟩ := ho
  have hnn' : j.get "nn_config".toList = .ok nn := hnn
  refine AllTyped.append (.one (fun _ => has_got hep (whole_typed hep'))) (.section ?_)
  intro nn' hnn''
  obtain rfl : nn = nn' := by
    rw [hnn'] at hnn''
    injection hnn''
  refine .append (.append ?_ (.section ?_)) ?_
  · refine .under (fun g' hg' => .under (fun o' ho' => ?_))
    rw [hg] at hg'
    cases hg'
    rw [ho] at ho'
    cases ho'
    refine .key (fun t ht => ?_) (.one (fun _ => has_got hlr (number_typed hlr')))
    obtain ⟨x, hx, hxx⟩ := hok.optimizer
    simp only at hxx
    subst hxx
    simp only [optimizerName, okBind, JV.has_of_get ht, ht, Except.ok.injEq, exists_eq_left', if_true] at hon
    cases t with
    | str s =>
      simp only [okPure, Option.some.injEq] at hon
      subst hon
      obtain ⟨y, hy, rfl⟩ := List.mem_map.mp (show _ ∈ ["GD", "Adam", "RMSProp"].map String.toList from hx)
      exact ⟨y, hy, rfl⟩
    | _ =>
      simp only [okPure, Option.some.injEq] at hon
      subst hon
      exact absurd hx (by decide)
  · intro s' hs'
    rw [hsh] at hs'
    cases hs'
    have hcfg : ∀ {l}, AllTyped c l → AllTyped s (typedUnder "config".toList l) := by
      intro l hl
      refine .under (fun c' hc' => ?_)
      rw [hc] at hc'
      cases hc'
      exact hl
    rw [hc] at hc0
    cases hc0
    refine .append (.append (.append (.one (fun _ => has_got hv (lookup_typed rfl hname))) (hcfg (.one (fun x hx => ?_))))
      (hcfg (kind_typed hv hname hkind hok.kind))) (.section ?_)
    · rw [JV.getD_of_get hx] at hsc
      cases hsc
      exact number_typed hsc'
    · intro fc' hfc'
      rw [JV.getD_of_get hfc'] at hfc
      cases hfc
      exact features_typed hpa hf
  · intro e he
    obtain ⟨t, ht, he⟩ := List.mem_flatMap.mp he
    have htw : t ∈ tv.words := by
      obtain ⟨l, rfl, hl⟩ := JV.get_ok.mp htv
      simpa only [taskNamesIn, hl] using ht
    obtain ⟨te, hte, hget⟩ := mapM'_read hts (iter_words htl htw)
    simp only [hyperTask, JV.key, okBind, Except.ok.injEq, exists_eq_left'] at hget
    have key : AllTyped nn (typedSection nn t taskTypes) := by
      refine .section ?_
      intro te' hte'
      rw [hget] at hte'
      cases hte'
      obtain ⟨_, _, h1⟩ := mapM'_read hpb hte
      obtain ⟨_, _, h2⟩ := mapM'_read hrs hte
      exact task_typed h1 h2
    exact key e he

/-- C164: if a model has been saved, everything that is read in the first epoch has the right type, too. -/
theorem C164_late (w : Outside) (m : Machine F μ σ) (dir : List Str)
    (dev : Option (Nat → List Str × μ → Res ScoreTable)) (j : JV) (st : TrainSt μ) (err : Option Err)
    (h : hyperTrain w m dir dev j = .ok (st, err)) (hs : st.events ≠ []) :
    ∀ e ∈ lateTypes, ∀ v, j.find e.1 = some v → e.2.Has v := by
  simp only [hyperTrain, okBind, okPure] at h
  obtain ⟨p, hp, lr, hlr, n, hn, h⟩ := h
  have hk := loop_keys (by rw [h]; exact hs)
  simp only [hyperKeys, hyperOptimizer, hyperNN, okBind] at hk
  obtain ⟨⟨_, o, ⟨nn, hnn, g, hg, ho⟩, _, hdecay, hdecay'⟩, ⟨_, _, hdrop, hdrop'⟩, ⟨_, _, hbatch, hbatch'⟩⟩ := hk
  refine AllTyped.append (.key (fun _ => has_got hdrop (number_typed hdrop'))
    (.one (fun _ => has_got hbatch (atLeast_typed hbatch')))) (.under (fun a ha => .under (fun b hb => .under (fun c hc => ?_))))
  rw [hnn] at ha
  cases ha
  rw [hg] at hb
  cases hb
  rw [ho] at hc
  cases hc
  exact .one (fun _ => has_got hdecay (number_typed hdecay'))

/-- C164: an entry of a wrong type is an exception before the first epoch, or, if it is read in the first epoch, before
a model is saved. -/
theorem C164_wrong (w : Outside) (m : Machine F μ σ) (dir : List Str)
    (dev : Option (Nat → List Str × μ → Res ScoreTable)) (j : JV) (e : List Str × EntryType) (v : JV)
    (h : j.find e.1 = some v) (hv : ¬ e.2.Has v) :
    (e ∈ earlyTypes j → ∃ x, hyperTrain w m dir dev j = .error x) ∧
    (e ∈ lateTypes → (∃ x, hyperTrain w m dir dev j = .error x) ∨
      ∃ st err, hyperTrain w m dir dev j = .ok (st, err) ∧ st.events = []) := by
  cases hr : hyperTrain w m dir dev j with
  | error x => exact ⟨fun _ => ⟨x, rfl⟩, fun _ => .inl ⟨x, rfl⟩⟩
  | ok r =>
    obtain ⟨st, err⟩ := r
    refine ⟨fun he => absurd (C164_early w m dir dev j st err hr e he v h) hv, fun he => .inr ⟨st, err, rfl, ?_⟩⟩
    by_contra hc
    exact hv (C164_late w m dir dev j st err hr hc e he v h)

/-- C164: a number that is no whole number or negative is no size; neither is a string. -/
theorem C164_size (q : Rat) (s : Str) :
    (EntryType.size.Has (.num q) ↔ q.den = 1 ∧ 0 ≤ q) ∧ ¬ EntryType.size.Has (.str s) ∧ ¬ EntryType.size.Has .null := by
  refine ⟨⟨?_, ?_⟩, ?_, ?_⟩
  · rintro (⟨n, hn⟩ | ⟨b, hb⟩)
    · cases hn
      exact ⟨rfl, by exact_mod_cast Nat.zero_le n⟩
    · cases hb
  · rintro ⟨hd, h0⟩
    refine .inl ⟨q.num.toNat, congrArg JV.num ?_⟩
    have h1 : ((q.num.toNat : Int) : Rat) = (q.num : Rat) := by
      rw [Int.toNat_of_nonneg (Rat.num_nonneg.mpr h0)]
    rw [rat_whole hd]
    exact_mod_cast h1.symm
  · rintro (⟨n, hn⟩ | ⟨b, hb⟩) <;> cases ‹_›
  · rintro (⟨n, hn⟩ | ⟨b, hb⟩) <;> cases ‹_›

namespace Demo

/-- The sample with another size of the recurrent layer. -/
def hyperCell (v : JV) : JV :=
  hyperSample.setAt ["nn_config".toList, "shared_part".toList, "config".toList] "lstm_cell_size".toList v

/-- The sample with another entry of the recurrent layer. -/
def hyperShare (k : String) (v : JV) : JV :=
  hyperSample.setAt ["nn_config".toList, "shared_part".toList, "config".toList] k.toList v

/-- Where the size is. -/
def cellEntry : List Str × EntryType :=
  (["nn_config".toList, "shared_part".toList, "config".toList, "lstm_cell_size".toList], .size)

end Demo

/-- C164: the factor of the learning rate is looked at only if there is no progress: a string is found after the model of
the first epoch has been saved, or not at all. -/
theorem C164_factor :
    (hyperTrain Demo.noFiles Demo.hyperMachine [] (some Demo.flatDev)
      (Demo.hyperWith [("type", Demo.jstr "Adam"), ("initial_lr", .num (1/500)), ("lr_decay", .num 0),
        ("lr_decrease_factor", Demo.jstr "2")])).map (fun r => (r.1.events.length, r.2)) = .ok (1, some .type) ∧
    (hyperTrain Demo.noFiles Demo.hyperMachine [] none
      (Demo.hyperWith [("type", Demo.jstr "Adam"), ("initial_lr", .num (1/500)), ("lr_decay", .num 0),
        ("lr_decrease_factor", Demo.jstr "2")])).map (fun r => (r.1.events.length, r.2)) = .ok (2, none) := by
  refine ⟨by decide +kernel, by decide +kernel⟩

/-- The sample can be used for training; a negative size, a size that is no whole number and a string cannot. -/
example : (hyperTrain Demo.noFiles Demo.hyperMachine [] none (Demo.hyperCell (.num 7))).map (fun r => r.2) = .ok none ∧
    (hyperTrain Demo.noFiles Demo.hyperMachine [] none (Demo.hyperCell (.num (-7)))).map (fun r => r.2) = .error .value ∧
    (hyperTrain Demo.noFiles Demo.hyperMachine [] none (Demo.hyperCell (.num (7/2)))).map (fun r => r.2) = .error .type ∧
    (hyperTrain Demo.noFiles Demo.hyperMachine [] none (Demo.hyperCell (.str "7".toList))).map (fun r => r.2) =
      .error .type := by
  refine ⟨by decide +kernel, by decide +kernel, by decide +kernel, by decide +kernel⟩

/-- Unknown names of skip connections, splittings and optimizers are found, too, and so are no layers. -/
example : (hyperTrain Demo.noFiles Demo.hyperMachine [] none (Demo.hyperShare "skip_connection" (Demo.jstr "concat"))).map
      (fun r => r.2) = .ok none ∧
    (hyperTrain Demo.noFiles Demo.hyperMachine [] none (Demo.hyperShare "skip_connection" (Demo.jstr "add"))).map
      (fun r => r.2) = .error .value ∧
    (hyperTrain Demo.noFiles Demo.hyperMachine [] none (Demo.hyperShare "skip_connection" (.bool false))).map
      (fun r => r.2) = .error .value ∧
    (hyperTrain Demo.noFiles Demo.hyperMachine [] none (Demo.hyperShare "bilstm_layer_count" (.num 0))).map
      (fun r => r.2) = .error .value := by
  refine ⟨by decide +kernel, by decide +kernel, by decide +kernel, by decide +kernel⟩

/-- The entry is one of those of `C164_wrong`. -/
example : (earlyTypes (Demo.hyperCell (.num (-7)))).any (fun e => e.1 == Demo.cellEntry.1) = true ∧
    ((Demo.hyperCell (.num (-7))).find Demo.cellEntry.1).isSome = true ∧ ¬ Demo.cellEntry.2.Has (.num (-7)) :=
  ⟨by decide +kernel, by decide +kernel, fun h => by
    have := ((C164_size (-7) []).1.mp h).2
    norm_num at this⟩

end Verif
