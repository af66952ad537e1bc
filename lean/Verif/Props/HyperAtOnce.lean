import Verif.Spec.HyperAtOnce
import Verif.Props.HyperDoc

/-!
# C131: what is missed before any file is opened
-/

namespace Verif

theorem featuresAtOnce_there {fc : JV} (h : checkFeatures fc = .ok ()) : AllThere fc (featuresAtOnce fc) := by
  simp only [checkFeatures, okBind] at h
  obtain ⟨_, ha, _, hb, _⟩ := h
  refine .append (.section fun c hc => ?_) (.section fun c hc => ?_)
  · obtain ⟨_, h, _⟩ := optPart_of ha hc
    simp only [checkWord, okBind] at h
    obtain ⟨_, h1, _, h2, _⟩ := h
    exact .key h1 (.key h2 (.nil _))
  · obtain ⟨_, h, _⟩ := optPart_of hb hc
    simp only [checkTrained, okBind] at h
    obtain ⟨_, h1, _, h2, _⟩ := h
    exact .key h1 (.key h2 (.nil _))

theorem sharedAtOnce_there {s : JV} (h : checkShared s = .ok ()) : AllThere s (sharedAtOnce s) := by
  simp only [checkShared, okBind] at h
  obtain ⟨v, hv, n, hn, c, hc, fc, hfc, _, hf, hk⟩ := h
  have ht := lookup_text hv hn
  refine .append (.append (.key hv (.key hc (.nil _))) (.under hc (.pick ?_))) (.section fun fc' hfc' => ?_)
  · intro e he hs
    rw [hs] at ht
    simp only [List.mem_cons, List.not_mem_nil, or_false] at he
    rcases he with rfl | rfl
    · have hx : assocGet "BiLSTM".toList sharedNames = some .bilstm := by decide
      obtain rfl : n = .bilstm := Option.some.inj (ht.symm.trans hx)
      simp only [checkSharedConfig, okBind] at hk
      obtain ⟨_, k1, _⟩ := hk
      exact .key k1 (.nil _)
    · have hx : assocGet "BiLSTM_CNN".toList sharedNames = some .bilstmCnn := by decide
      obtain rfl : n = .bilstmCnn := Option.some.inj (ht.symm.trans hx)
      simp only [checkSharedConfig, okBind] at hk
      obtain ⟨_, k1, _, _, _, _, _, k2, _⟩ := hk
      exact .key k1 (.key k2 (.nil _))
  · rw [JV.getD_of_get hfc'] at hfc
    cases hfc
    exact featuresAtOnce_there hf

theorem denseAtOnce_there {c : JV} (h : checkDense c = .ok ()) : AllThere c (keyPaths ["shared_name", "dense_size"]) := by
  simp only [checkDense, okBind] at h
  obtain ⟨_, k1, _, k2, _⟩ := h
  exact .key k1 (.key k2 (.nil _))

theorem taskAtOnce_there {t : JV} (h : checkTask t = .ok ()) : AllThere t (taskAtOnce t) := by
  simp only [checkTask, okBind] at h
  obtain ⟨v, hv, n, hn, c, hcc, fc, hfc, hc⟩ := h
  have ht := lookup_text hv hn
  refine .append (.append (.key hv (.key hcc (.nil _))) (.under hcc (.pick ?_))) (.pick ?_)
  · intro e he hs
    rw [hs] at ht
    simp only [List.mem_cons, List.not_mem_nil, or_false] at he
    rcases he with rfl | rfl | rfl | rfl
    · have hx : assocGet "pos_dense".toList taskNames = some .posDense := by decide
      obtain rfl : n = .posDense := Option.some.inj (ht.symm.trans hx)
      simp only [checkTaskConfig, okBind] at hc
      obtain ⟨_, h1, _, k, _⟩ := hc
      have h2 : AllThere c (keyPaths ["splitting"]) := .key k (.nil _)
      exact AllThere.append (denseAtOnce_there h1) h2
    · have hx : assocGet "lemma_dense".toList taskNames = some .lemmaDense := by decide
      obtain rfl : n = .lemmaDense := Option.some.inj (ht.symm.trans hx)
      exact denseAtOnce_there hc
    · have hx : assocGet "lemma_suffix".toList taskNames = some .lemmaSuffix := by decide
      obtain rfl : n = .lemmaSuffix := Option.some.inj (ht.symm.trans hx)
      simp only [checkTaskConfig, okBind] at hc
      obtain ⟨_, h1, _⟩ := hc
      exact denseAtOnce_there h1
    · have hx : assocGet "lemma_combo".toList taskNames = some .lemmaCombo := by decide
      obtain rfl : n = .lemmaCombo := Option.some.inj (ht.symm.trans hx)
      simp only [checkTaskConfig, okBind] at hc
      obtain ⟨_, k1, _, _, _, _, _, k2, _, k3, _, _, _, _, ws, kw, _, kl, _⟩ := hc
      have hne : ws ≠ .null := by rintro rfl; cases kl
      exact .append (.key k1 (.key k2 (.key k3 (.nil _)))) (.under (JV.getD_null kw hne) (.key kl (.nil _)))
  · intro e he hs
    rw [hs] at ht
    simp only [List.mem_cons, List.not_mem_nil, or_false] at he
    rcases he with rfl | rfl
    · have hx : assocGet "lemma_suffix".toList taskNames = some .lemmaSuffix := by decide
      obtain rfl : n = .lemmaSuffix := Option.some.inj (ht.symm.trans hx)
      simp only [checkTaskConfig, okBind] at hc
      obtain ⟨_, _, _, k, _⟩ := hc
      exact .under (JV.getD_get hfc k) (.key k (.nil _))
    · have hx : assocGet "lemma_combo".toList taskNames = some .lemmaCombo := by decide
      obtain rfl : n = .lemmaCombo := Option.some.inj (ht.symm.trans hx)
      simp only [checkTaskConfig, okBind] at hc
      obtain ⟨_, _, _, ki, _, ke, _, _, _, _, _, ko, _, km, _⟩ := hc
      exact .under (JV.getD_get hfc ki) (.append (.under ki (.key ke (.nil _))) (.under ko (.key km (.nil _))))

theorem construct_there {j : JV} {q : Rat} (h : hyperConstruct j = .ok q) : AllThere j (pathsAtOnce j) := by
  simp only [hyperConstruct, okBind] at h
  obtain ⟨ts, hts, s, hsh, _, hs, _, heach, _, ho, _⟩ := h
  simp only [hyperTasks, okBind] at hts
  obtain ⟨nn, hnn, tv, htv, tl, htl, hts⟩ := hts
  simp only [hyperShared, okBind, hnn, Except.ok.injEq, exists_eq_left'] at hsh
  simp only [hyperOptimizer, okBind, hnn, Except.ok.injEq, exists_eq_left'] at ho
  obtain ⟨g, hg, ho⟩ := ho
  have hnn' : j.get "nn_config".toList = .ok nn := hnn
  refine .append (.key htv (.key hnn' (.nil _))) (.section ?_)
  intro nn' hnn''
  obtain rfl : nn = nn' := by
    rw [hnn'] at hnn''
    injection hnn''
  refine .append (.append (.append (.under hg (.key ho (.nil _))) (.key hsh (.nil _))) (.section ?_)) ?_
  · intro s' hs'
    rw [hsh] at hs'
    cases hs'
    exact sharedAtOnce_there hs
  · intro p hp
    obtain ⟨t, ht, hp⟩ := List.mem_flatMap.mp hp
    have htw : t ∈ tv.words := by
      obtain ⟨l, rfl, hl⟩ := JV.get_ok.mp htv
      simpa only [taskNamesIn, hl] using ht
    obtain ⟨te, hte, hget⟩ := mapM'_read hts (iter_words htl htw)
    simp only [hyperTask, JV.key, okBind, Except.ok.injEq, exists_eq_left'] at hget
    have key : AllThere nn ([t] :: inSection nn t taskAtOnce) := by
      refine .cons (by rw [JV.find_one.mpr hget]; rfl) (.section ?_)
      intro te' hte'
      rw [hget] at hte'
      cases hte'
      exact taskAtOnce_there (checkEach_mem heach hte)
    exact key p hp

/-- C131: without an entry of a constructor the training ends with an exception before anything is read: it is the same one
whatever the training data, the files, the segmenters and the network are. -/
theorem C131_at_once (j : JV) (p : List Str) (hp : p ∈ pathsAtOnce j) (h : j.find p = none) :
    ∃ e, ∀ {F μ σ : Type} (w : Outside) (m : Machine F μ σ) (dir : List Str)
      (dev : Option (Nat → List Str × μ → Res ScoreTable)), hyperTrain w m dir dev j = .error e := by
  cases h1 : passParams j with
  | error e =>
    refine ⟨e, fun w m dir dev => ?_⟩
    unfold hyperTrain hyperPrepare
    rw [h1]
    rfl
  | ok u =>
    cases h2 : hyperConstruct j with
    | error e =>
      refine ⟨e, fun w m dir dev => ?_⟩
      unfold hyperTrain hyperPrepare
      rw [h1, okBindL, h2]
      rfl
    | ok q =>
      have := construct_there h2 p hp
      rw [h] at this
      cases this

/-- The size of a task is missed at once. -/
example : ["nn_config".toList, "pos".toList, "config".toList, "dense_size".toList] ∈ pathsAtOnce Demo.hyperSample ∧
    (pathsAtOnce Demo.hyperSample).all (fun p => (Demo.hyperSample.find p).isSome) := by
  decide +kernel

namespace Demo

/-- The sample with a task without a size. -/
def hyperNoSize : JV := hyperSample.setAt ["nn_config".toList, "pos".toList] "config".toList
  (.obj [("shared_name".toList, jstr "bilstm_and_word_features"), ("splitting".toList, jstr "uxf")])

end Demo

example : ["nn_config".toList, "pos".toList, "config".toList, "dense_size".toList] ∈ pathsAtOnce Demo.hyperNoSize ∧
    Demo.hyperNoSize.find ["nn_config".toList, "pos".toList, "config".toList, "dense_size".toList] = none ∧
    Demo.trainedModels (hyperTrain Demo.noFiles Demo.hyperMachine [] none Demo.hyperNoSize) = .error .key := by
  refine ⟨by decide +kernel, by rfl, by decide +kernel⟩

end Verif
