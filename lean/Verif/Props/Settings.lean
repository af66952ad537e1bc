import Verif.Model.Settings
import Verif.Props.EvalRun

/-!
# Theorems about incomplete and wrong settings (C129)
-/

namespace Verif

variable {π τ : Type}

theorem Tr.pure_bind {α β : Type} (a : α) (f : α → Tr β) : (Tr.pure a).bind f = f a := by
  simp [Tr.pure, Tr.bind]

theorem Tr.error_bind {α β : Type} (e : Err) (f : α → Tr β) : (Tr.lift (.error e) : Tr α).bind f = .lift (.error e) := rfl

/-- Settings with all keys. -/
def RunArgs.raw (a : RunArgs π τ) : RawArgs π τ where
  deleteAfter := a.deleteAfter
  modelDir := some a.modelDir
  seeds := some a.seeds
  printFields := some a.printFields
  cmpFields := some a.cmpFields
  cmpMetric := some a.cmpMetric
  trainPath := true
  dev := some a.devResults
  test := a.test.map (fun t => some (a.testResults, t))
  trainer := a.trainer
  hyperparams := a.hyperparams

/-- C129: with all keys, the run is the one of Model/EvalRun.lean. -/
theorem C129_complete (a : RunArgs π τ) (disk : List (List Str)) : a.raw.main disk = a.main disk := by
  obtain ⟨modelDir, deleteAfter, seeds, printFields, cmpFields, cmpMetric, devResults, trainer, testResults, test,
    hyperparams⟩ := a
  have hd : deleteAfter = false ∨ deleteAfter = true := by cases deleteAfter <;> simp
  cases trainer with
  | none =>
    rcases hd with rfl | rfl
    · simp [RunArgs.raw, RawArgs.main, RawArgs.checkDir, RawArgs.prepare, needKey, Tr.pure_bind, Tr.error_bind,
        RunArgs.main]
    · by_cases hc : hasContent disk modelDir = true
      · simp [RunArgs.raw, RawArgs.main, RawArgs.checkDir, needKey, Tr.pure_bind, Tr.error_bind, RunArgs.main, hc]
      · simp [RunArgs.raw, RawArgs.main, RawArgs.checkDir, RawArgs.prepare, needKey, Tr.pure_bind, Tr.error_bind,
          RunArgs.main, hc]
  | some train =>
    have key : ∀ d : Bool, (RunArgs.raw ⟨modelDir, d, seeds, printFields, cmpFields, cmpMetric, devResults,
        some train, testResults, test, hyperparams⟩).prepare =
        .pure ⟨modelDir, d, seeds, printFields, cmpFields, cmpMetric, devResults, some train, none, none,
          hyperparams⟩ := by
      intro d
      simp [RunArgs.raw, RawArgs.prepare, needKey, Tr.pure_bind]
    have hstep : ∀ (d : Bool) x y, (RunArgs.paramsStep (⟨modelDir, d, seeds, printFields, cmpFields, cmpMetric,
        devResults, some train, none, none, hyperparams⟩ : RunArgs π τ) train) x y =
        (RunArgs.paramsStep (⟨modelDir, d, seeds, printFields, cmpFields, cmpMetric,
        devResults, some train, testResults, test, hyperparams⟩ : RunArgs π τ) train) x y := fun _ _ _ => rfl
    have main' : ∀ d : Bool,
        ((RunArgs.raw ⟨modelDir, d, seeds, printFields, cmpFields, cmpMetric, devResults,
          some train, testResults, test, hyperparams⟩).checkDir disk) = .pure () →
        (RunArgs.raw ⟨modelDir, d, seeds, printFields, cmpFields, cmpMetric, devResults,
          some train, testResults, test, hyperparams⟩).main disk =
        ((Tr.loop ((⟨modelDir, d, seeds, printFields, cmpFields, cmpMetric, devResults, some train, testResults, test,
            hyperparams⟩ : RunArgs π τ).paramsStep train) {} (hyperList hyperparams)).bind (fun st =>
          (Tr.lift (printMetrics printFields st.scores)).bind (fun _ =>
            (RunArgs.testScores (⟨modelDir, d, seeds, printFields, cmpFields, cmpMetric, devResults, some train,
              testResults, test, hyperparams⟩ : RunArgs π τ) st.best).bind (fun t =>
              (if d then Tr.tell [.remove modelDir] else .pure ()).bind (fun _ =>
                .pure ⟨st.best.map Prod.fst, st.scores, t⟩))))) := by
      intro d hd
      unfold RawArgs.main
      rw [hd, Tr.pure_bind, key, Tr.pure_bind]
      cases test with
      | none => rfl
      | some t => 
        simp only [RawArgs.withTest, RunArgs.raw, Option.map_some, needKey, Tr.pure_bind]
        rfl
    rcases hd with rfl | rfl
    · rw [main' false rfl]
      simp [RunArgs.main]
    · by_cases hc : hasContent disk modelDir = true
      · simp [RunArgs.raw, RawArgs.main, RawArgs.checkDir, needKey, Tr.pure_bind, Tr.error_bind, RunArgs.main, hc]
      · rw [main' true (by simp [RawArgs.checkDir, RunArgs.raw, needKey, Tr.pure_bind, hc])]
        simp [RunArgs.main, hc]

/-- The settings that are needed before the search are all there. -/
def RawArgs.Complete (a : RawArgs π τ) : Prop :=
  a.modelDir ≠ none ∧ a.seeds ≠ none ∧ a.printFields ≠ none ∧ a.cmpFields ≠ none ∧ a.cmpMetric ≠ none ∧
    a.trainPath = true ∧ a.dev ≠ none

/-- C129 (part; missing: the test set and misspelt names): if a needed key is missing, the run ends with an exception before anything is written or removed: a
`KeyError`, if the method is known and the model directory may be used. -/
theorem C129_missing_partial (a : RawArgs π τ) (disk : List (List Str)) (h : ¬ a.Complete) :
    (a.main disk).events = [] ∧ (∃ e, (a.main disk).value = .error e) ∧
    (a.trainer ≠ none → (∀ dir, a.modelDir = some dir → ¬ hasContent disk dir) →
      (a.main disk).value = .error .key) := by
  obtain ⟨deleteAfter, modelDir, seeds, printFields, cmpFields, cmpMetric, trainPath, dev, test, trainer,
    hyperparams⟩ := a
  have hprep : ∀ d, (∃ e, RawArgs.prepare (⟨d, modelDir, seeds, printFields, cmpFields, cmpMetric, trainPath, dev,
      test, trainer, hyperparams⟩ : RawArgs π τ) = .lift (.error e)) ∧
      (trainer ≠ none → RawArgs.prepare (⟨d, modelDir, seeds, printFields, cmpFields, cmpMetric, trainPath, dev,
      test, trainer, hyperparams⟩ : RawArgs π τ) = .lift (.error .key)) := by
    intro d
    simp only [RawArgs.Complete] at h
    cases printFields with
    | none => exact ⟨⟨_, rfl⟩, fun _ => rfl⟩
    | some pf =>
      cases trainer with
      | none => exact ⟨⟨_, rfl⟩, fun h => absurd rfl h⟩
      | some tr =>
        cases cmpFields with
        | none => exact ⟨⟨_, rfl⟩, fun _ => rfl⟩
        | some cf =>
          cases cmpMetric with
          | none => exact ⟨⟨_, rfl⟩, fun _ => rfl⟩
          | some cm =>
            cases trainPath with
            | false => exact ⟨⟨_, rfl⟩, fun _ => rfl⟩
            | true =>
              cases dev with
              | none => exact ⟨⟨_, rfl⟩, fun _ => rfl⟩
              | some dv =>
                cases modelDir with
                | none => exact ⟨⟨_, rfl⟩, fun _ => rfl⟩
                | some md =>
                  cases seeds with
                  | none => exact ⟨⟨_, rfl⟩, fun _ => rfl⟩
                  | some sd => simp at h
  cases deleteAfter with
  | false =>
    obtain ⟨⟨e, he⟩, hk⟩ := hprep false
    simp only [RawArgs.main, RawArgs.checkDir, Bool.false_eq_true, if_false, Tr.pure_bind]
    refine ⟨by rw [he]; rfl, ⟨e, by rw [he]; rfl⟩, fun ht _ => by rw [hk ht]; rfl⟩
  | true =>
    cases modelDir with
    | none => exact ⟨rfl, ⟨_, rfl⟩, fun _ _ => rfl⟩
    | some md =>
      obtain ⟨⟨e, he⟩, hk⟩ := hprep true
      by_cases hc : hasContent disk md = true
      · simp only [RawArgs.main, RawArgs.checkDir, if_true, needKey, Tr.pure_bind, hc, Tr.error_bind]
        exact ⟨rfl, ⟨_, rfl⟩, fun _ hd => absurd hc (hd md rfl)⟩
      · simp only [RawArgs.main, RawArgs.checkDir, if_true, needKey, Tr.pure_bind, hc, Bool.false_eq_true, if_false]
        exact ⟨by rw [he]; rfl, ⟨e, by rw [he]; rfl⟩, fun ht _ => by rw [hk ht]; rfl⟩

/-- C129: a test set without path is noticed at the very end only: everything that the search does has been done, and
the models are left in the model directory even with `--delete_after`. -/
theorem C129_test (a : RawArgs π τ) (disk : List (List Str)) (ht : a.test = some none) (r : RunArgs π τ)
    (hd : (a.checkDir disk).value = .ok ()) (hr : a.prepare = .pure r)
    (hs : ∃ st, r.search.value = .ok st ∧ printMetrics r.printFields st.scores = .ok ()) :
    a.main disk = ⟨r.search.events, .error .key⟩ := by
  obtain ⟨st, h1, h2⟩ := hs
  have hd' : a.checkDir disk = .pure () := by
    unfold RawArgs.checkDir at hd ⊢
    cases hda : a.deleteAfter with
    | false => simp
    | true =>
      rw [hda] at hd
      cases hm : a.modelDir with
      | none => rw [hm] at hd; simp [needKey, Tr.bind, Tr.lift] at hd
      | some md =>
        simp only [hm, if_true, needKey, Tr.pure_bind] at hd ⊢
        by_cases hc : hasContent disk md = true
        · simp [hc, Tr.lift] at hd
        · simp [hc]
  unfold RawArgs.main
  rw [hd', Tr.pure_bind, hr, Tr.pure_bind]
  simp only [Tr.bind, h1, Tr.lift, h2, RawArgs.withTest, ht, needKey, List.append_nil]

theorem printMetrics_fields {fields : List Str} {scores : Option ScoreTable} {u : Unit}
    (hp : printMetrics fields scores = .ok u) : ∀ f ∈ fields, ∃ t s, scores = some t ∧ t.get? f = some s := by
  unfold printMetrics at hp
  induction fields with
  | nil => intro f hf; simp at hf
  | cons g gs ih =>
    intro f hf
    simp only [forM'] at hp
    cases scores with
    | none => simp [printMetric] at hp
    | some t =>
      cases hg : t.get? g with
      | none => simp [printMetric, Dict.getItem, hg] at hp
      | some s =>
        rcases List.mem_cons.1 hf with rfl | hf
        · exact ⟨t, s, rfl, hg⟩
        · refine ih ?_ f hf
          simpa [printMetric, Dict.getItem, hg] using hp

/-- C129: a run that ends without exception has found every field to be printed in the scores it prints. -/
theorem C129_printed (a : RawArgs π τ) (disk : List (List Str)) (fin : Final π)
    (h : (a.main disk).value = .ok fin) :
    ∃ fields, a.printFields = some fields ∧ ∀ f ∈ fields, ∃ t s, fin.dev = some t ∧ t.get? f = some s := by
  unfold RawArgs.main at h
  obtain ⟨_, _, h, _⟩ := Tr.bind_value h
  obtain ⟨r, hr, h, _⟩ := Tr.bind_value h
  obtain ⟨st, _, h, _⟩ := Tr.bind_value h
  obtain ⟨_, hp, h, _⟩ := Tr.bind_value h
  obtain ⟨_, _, h, _⟩ := Tr.bind_value h
  obtain ⟨_, _, h, _⟩ := Tr.bind_value h
  obtain ⟨_, _, h, _⟩ := Tr.bind_value h
  simp only [Tr.pure, Except.ok.injEq] at h
  subst h
  unfold RawArgs.prepare at hr
  obtain ⟨pf, hpf, hr, _⟩ := Tr.bind_value hr
  obtain ⟨_, _, hr, _⟩ := Tr.bind_value hr
  obtain ⟨_, _, hr, _⟩ := Tr.bind_value hr
  obtain ⟨_, _, hr, _⟩ := Tr.bind_value hr
  obtain ⟨_, _, hr, _⟩ := Tr.bind_value hr
  obtain ⟨_, _, hr, _⟩ := Tr.bind_value hr
  obtain ⟨_, _, hr, _⟩ := Tr.bind_value hr
  obtain ⟨_, _, hr, _⟩ := Tr.bind_value hr
  simp only [Tr.pure, Except.ok.injEq] at hr
  subst hr
  cases ha : a.printFields with
  | none => rw [ha] at hpf; simp [needKey, Tr.lift] at hpf
  | some fields =>
    rw [ha] at hpf
    simp only [needKey, Tr.pure, Except.ok.injEq] at hpf
    subst hpf
    refine ⟨_, rfl, ?_⟩
    exact printMetrics_fields hp

/-! ### Witnesses -/

/-- Some epochs for one parameter set. -/
def Demo.settings (epochs : Nat) (printed metric : Str) (test : Option (Option (Option (List Str) ×
    (Option Nat → Bool × Res ScoreTable)))) : RawArgs Bool Nat where
  deleteAfter := true
  modelDir := some ["models".toList]
  seeds := some (.one "1".toList)
  printFields := some [printed]
  cmpFields := some ["UPOS".toList]
  cmpMetric := some metric
  trainPath := true
  dev := some none
  test := test
  trainer := some (fun _ _ => (List.range epochs).map (fun n : Nat => ⟨true, true, .ok (some (Demo.tab n), n)⟩))
  hyperparams := .inl true

/-- C129: not all mistakes are noticed before the training.  A test set without path lets the run fail after all models
have been trained, and the directory is not cleaned. -/
theorem C129_test_refuted : (Demo.settings 2 "UPOS".toList "f1".toList (some none)).Complete ∧
    ((Demo.settings 2 "UPOS".toList "f1".toList (some none)).main []).value.toOption.isNone = true ∧
    hasContent (dirAfter [] ((Demo.settings 2 "UPOS".toList "f1".toList (some none)).main []).events)
      ["models".toList] = true :=
  ⟨by simp [RawArgs.Complete, Demo.settings], by decide +kernel, by decide +kernel⟩

/-- C129: a misspelt field to be printed lets the run fail after the first epoch. -/
theorem C129_field_refuted : (Demo.settings 2 "upos".toList "f1".toList none).Complete ∧
    ((Demo.settings 2 "upos".toList "f1".toList none).main []).value.toOption.isNone = true ∧
    ((Demo.settings 2 "upos".toList "f1".toList none).main []).events =
      [.save ["models".toList, "params-0".toList, "1".toList, "epoch-0".toList]] :=
  ⟨by simp [RawArgs.Complete, Demo.settings], by decide +kernel, by decide +kernel⟩

/-- C129: a misspelt metric to be compared is noticed after the second epoch, or never if there is only one. -/
theorem C129_metric_refuted :
    ((Demo.settings 1 "UPOS".toList "f2".toList none).main []).value.toOption.isSome = true ∧
    ((Demo.settings 2 "UPOS".toList "f2".toList none).main []).value.toOption.isNone = true ∧
    ((Demo.settings 2 "UPOS".toList "f2".toList none).main []).events.length = 2 := by
  decide +kernel

/-- With correct settings the same run succeeds and leaves nothing behind. -/
example : ((Demo.settings 2 "UPOS".toList "f1".toList (some (some (none, fun _ => (true, .ok (Demo.tab 1)))))).main
      []).value.toOption.isSome = true ∧
    dirAfter [] ((Demo.settings 2 "UPOS".toList "f1".toList
      (some (some (none, fun _ => (true, .ok (Demo.tab 1)))))).main []).events = [] := by
  decide +kernel

/-- A missing key. -/
example : ({ Demo.settings 2 "UPOS".toList "f1".toList none with seeds := none }.main []).events = [] ∧
    ({ Demo.settings 2 "UPOS".toList "f1".toList none with seeds := none }.main []).value = .error .key := by
  have h := C129_missing_partial { Demo.settings 2 "UPOS".toList "f1".toList none with seeds := none } []
    (by simp [RawArgs.Complete])
  exact ⟨h.1, h.2.2 (by simp [Demo.settings]) (by intro dir _; simp [hasContent])⟩

end Verif
