import Verif.Props.LongerTraining
import Verif.Props.Hyper

/-! # C167: the number of epochs in the hyperparameters -/

namespace Verif

variable {F μ σ : Type}

/-- Two values have the same entries apart from `epochs`. -/
theorem setEpochs_get (l : List (Str × JV)) (v : JV) {k : Str} (hk : k ≠ "epochs".toList) :
    ((JV.obj l).setAt [] "epochs".toList v).get k = (JV.obj l).get k := by
  simp only [JV.setAt, JV.get, assocGet_set]
  rw [if_neg hk]

theorem trainStepKeys_begins (train : Rat → μ → List σ → Rat → Res (μ × Rat)) (keys : TrainKeys)
    (dir : List Str) (sents : Nat → List σ) (dev : Option (Nat → List Str × μ → Res ScoreTable)) (st : TrainSt μ) (n : Nat) :
    (∀ st', trainStepKeys train keys dir sents dev st n = .ok st' → BeginsWith st' st) ∧
    ∀ st' e, trainStepKeys train keys dir sents dev st n = .error (st', e) → BeginsWith st' st := by
  unfold trainStepKeys
  cases keys.decay with
  | error e => exact ⟨fun _ h => (by cases h), fun _ _ h => by cases h; exact .refl _⟩
  | ok decay =>
    simp only
    cases getLr n st.lr decay with
    | error e => exact ⟨fun _ h => (by cases h), fun _ _ h => by cases h; exact .refl _⟩
    | ok lr =>
      simp only
      cases keys.dropout with
      | error e => exact ⟨fun _ h => (by cases h), fun _ _ h => by cases h; exact .refl _⟩
      | ok dropout =>
        simp only
        cases keys.batchSize with
        | error e => exact ⟨fun _ h => (by cases h), fun _ _ h => by cases h; exact .refl _⟩
        | ok batchSize =>
          simp only
          cases trainEpoch (train dropout) batchSize (sents n) lr st.model with
          | error e => exact ⟨fun _ h => (by cases h), fun _ _ h => by cases h; exact .refl _⟩
          | ok m =>
            have hs : BeginsWith (st.saved m.1 lr (dir ++ [epochName n])) st :=
              ⟨List.prefix_refl _, List.prefix_append _ _, List.prefix_append _ _, List.prefix_refl _⟩
            simp only
            cases dev with
            | none =>
              refine ⟨fun _ h => ?_, fun _ _ h => by cases h⟩
              cases h
              exact ⟨List.prefix_refl _, List.prefix_append _ _, List.prefix_append _ _, List.prefix_append _ _⟩
            | some test =>
              simp only
              cases test n (dir ++ [epochName n], m.1) with
              | error e => exact ⟨fun _ h => (by cases h), fun _ _ h => by cases h; exact hs⟩
              | ok scores =>
                simp only
                cases dropLrKey keys.factor lr st.prev (devAcc scores) with
                | error e => exact ⟨fun _ h => (by cases h), fun _ _ h => by cases h; exact hs⟩
                | ok lr' =>
                  refine ⟨fun _ h => ?_, fun _ _ h => by cases h⟩
                  cases h
                  exact ⟨List.prefix_append _ _, List.prefix_append _ _, List.prefix_append _ _, List.prefix_append _ _⟩

theorem trainLoopKeys_longer (train : Rat → μ → List σ → Rat → Res (μ × Rat)) (keys : TrainKeys) (lr : Rat) {n more : Int}
    (hm : n ≤ more) (dir : List Str) (sents : Nat → List σ) (dev : Option (Nat → List Str × μ → Res ScoreTable)) (init : μ) :
    BeginsWith (trainLoopKeys train keys lr more dir sents dev init).1 (trainLoopKeys train keys lr n dir sents dev init).1 ∧
    ((trainLoopKeys train keys lr n dir sents dev init).2 ≠ none →
      trainLoopKeys train keys lr more dir sents dev init = trainLoopKeys train keys lr n dir sents dev init) := by
  obtain ⟨k, hk⟩ : ∃ k, more.toNat = n.toNat + k := ⟨more.toNat - n.toNat, by omega⟩
  have e := loopUntil_append (trainStepKeys train keys dir sents dev) { model := init, lr := lr, prev := List.replicate 5 0 }
    (List.range n.toNat) ((List.range k).map (n.toNat + ·))
  rw [← List.range_add, ← hk] at e
  unfold trainLoopKeys
  rw [e]
  cases hs : loopUntil (trainStepKeys train keys dir sents dev) { model := init, lr := lr, prev := List.replicate 5 0 }
    (List.range n.toNat) with
  | mk st f =>
    cases f with
    | none => exact ⟨loopUntil_begins (fun st n => trainStepKeys_begins train keys dir sents dev st n) _ _, fun h => absurd rfl h⟩
    | some e => exact ⟨.refl _, fun _ => rfl⟩

/-- C167: if the entry `epochs` of the hyperparameters is increased and nothing else is changed, the training fails before the
first epoch as it did before, or begins with the same epochs. -/
theorem C167_hyper (w : Outside) (m : Machine F μ σ) (dir : List Str)
    (dev : Option (Nat → List Str × μ → Res ScoreTable)) (l : List (Str × JV)) {v v' : JV} {n n' : Int}
    (hl : assocGet "epochs".toList l = some v) (hv : v.int = .ok n) (hv' : v'.int = .ok n') (hn : n ≤ n') :
    (∃ e, hyperTrain w m dir dev (.obj l) = .error e ∧
      hyperTrain w m dir dev ((JV.obj l).setAt [] "epochs".toList v') = .error e) ∨
    ∃ st f st' f', hyperTrain w m dir dev (.obj l) = .ok (st, f) ∧
      hyperTrain w m dir dev ((JV.obj l).setAt [] "epochs".toList v') = .ok (st', f') ∧ BeginsWith st' st ∧
      (f ≠ none → st' = st ∧ f' = f) := by
  have hg := fun {k : Str} (hk : k ≠ "epochs".toList) => setEpochs_get l v' hk
  have hnn : hyperNN ((JV.obj l).setAt [] "epochs".toList v') = hyperNN (.obj l) := hg (by decide)
  have hpass : passParams ((JV.obj l).setAt [] "epochs".toList v') = passParams (.obj l) := by
    simp only [JV.setAt, passParams]
    have : ∀ k ∈ reservedArgs, assocGet k (assocSet "epochs".toList v' l) = assocGet k l := by
      intro k hk
      rw [assocGet_set, if_neg]
      rintro rfl
      revert hk
      decide
    have : (∃ k ∈ reservedArgs, (assocGet k (assocSet "epochs".toList v' l)).isSome) ↔
        ∃ k ∈ reservedArgs, (assocGet k l).isSome :=
      ⟨fun ⟨k, h1, h2⟩ => ⟨k, h1, this k h1 ▸ h2⟩, fun ⟨k, h1, h2⟩ => ⟨k, h1, (this k h1).symm ▸ h2⟩⟩
    simp only [this]
  have htasks : hyperTasks ((JV.obj l).setAt [] "epochs".toList v') = hyperTasks (.obj l) := by
    unfold hyperTasks
    rw [hnn, hg (k := "tasks".toList) (by decide)]
  have hshared : hyperShared ((JV.obj l).setAt [] "epochs".toList v') = hyperShared (.obj l) := by
    unfold hyperShared
    rw [hnn]
  have hopt : hyperOptimizer ((JV.obj l).setAt [] "epochs".toList v') = hyperOptimizer (.obj l) := by
    unfold hyperOptimizer
    rw [hnn]
  have hfeat : hyperSharedFeatures ((JV.obj l).setAt [] "epochs".toList v') = hyperSharedFeatures (.obj l) := by
    unfold hyperSharedFeatures
    rw [hshared]
  have hkeys : hyperKeys ((JV.obj l).setAt [] "epochs".toList v') = hyperKeys (.obj l) := by
    unfold hyperKeys
    rw [hopt, hg (k := "dropout".toList) (by decide), hg (k := "batch_size".toList) (by decide)]
  have hprep : hyperPrepare w m ((JV.obj l).setAt [] "epochs".toList v') = hyperPrepare w m (.obj l) := by
    unfold hyperPrepare hyperConstruct hyperProviders hyperNet
    rw [hpass, htasks, hshared, hopt, hfeat]
  have he : hyperEpochs (.obj l) = .ok n := by
    simp only [hyperEpochs, JV.get, hl]
    exact hv
  have he' : hyperEpochs ((JV.obj l).setAt [] "epochs".toList v') = .ok n' := by
    simp only [hyperEpochs, JV.setAt, JV.get, assocGet_set]
    exact hv'
  unfold hyperTrain hyperInitialLr
  rw [hprep, hopt, hkeys, he, he']
  cases hyperPrepare w m (.obj l) with
  | error e => exact .inl ⟨e, rfl, rfl⟩
  | ok p =>
    simp only [bind, Except.bind, pure, Except.pure]
    cases hyperOptimizer (.obj l) with
    | error e => exact .inl ⟨e, rfl, rfl⟩
    | ok o =>
      simp only
      cases o.get "initial_lr".toList with
      | error e => exact .inl ⟨e, rfl, rfl⟩
      | ok x =>
        simp only
        cases x.number with
        | error e => exact .inl ⟨e, rfl, rfl⟩
        | ok lr =>
          obtain ⟨h1, h2⟩ := trainLoopKeys_longer p.2 (hyperKeys (.obj l)) lr hn dir m.sents dev p.1
          exact .inr ⟨_, _, _, _, rfl, rfl, h1, fun hf => ⟨congrArg Prod.fst (h2 hf), congrArg Prod.snd (h2 hf)⟩⟩

/-- Two epochs, and then three. -/
example : Demo.trainedModels (hyperTrain Demo.noFiles Demo.hyperMachine [] none Demo.hyperSample) =
      .ok ([1, 2], [1/500, 1/500], none) ∧
    Demo.trainedModels (hyperTrain Demo.noFiles Demo.hyperMachine [] none (Demo.hyperSample.setAt [] "epochs".toList (.num 3))) =
      .ok ([1, 2, 3], [1/500, 1/500, 1/500], none) := by
  decide +kernel

end Verif
