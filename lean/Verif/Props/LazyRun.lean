import Verif.Proofs.LazyRun

/-! # C147: models are read from the disk when they are tested -/

namespace Verif

variable {π μ : Type}

/-- C147: reading a model when it is tested makes no difference, whatever is in the model directory before the run: the run ends
as if all models were kept in memory.  Trainings with the same text of the seed have to be the same. -/
theorem C147_partial (a : RunArgs π μ) (name : Str → Str)
    (hn : ∀ train, a.trainer = some train → SameTrainings name train a.seeds.list) (gone : Err) (disk : List (List Str))
    (d : Store μ) : a.lazyMain name gone disk d = (a.main disk).value := by
  rw [lazyMain_eq]
  unfold RunArgs.main
  split
  · rfl
  cases ht : a.trainer with
  | none => rfl
  | some train =>
    simp only
    have hl := SameOut.forM (params_store a name (hn train ht)) (hyperList a.hyperparams) {} ({}, d)
      ⟨rfl, rfl, rfl, .inl ⟨rfl, rfl, rfl⟩⟩
    cases hx : (Tr.loop (a.paramsStep train) {} (hyperList a.hyperparams)).value with
    | error e =>
      cases hy : forM' (a.lazyParams name train) ({}, d) (hyperList a.hyperparams) with
      | ok b => rw [hx, hy] at hl; exact hl.elim
      | error e' =>
        rw [hx, hy] at hl
        rw [Tr.bind_error hx]
        exact congrArg _ (Eq.symm hl)
    | ok st =>
      cases hy : forM' (a.lazyParams name train) ({}, d) (hyperList a.hyperparams) with
      | error e' => rw [hx, hy] at hl; exact hl.elim
      | ok s =>
        rw [hx, hy] at hl
        obtain ⟨h1, h2, h3, h4⟩ := hl
        rw [Tr.bind_ok hx]
        simp only
        rw [h2]
        cases hp : printMetrics a.printFields st.scores with
        | error e =>
          rw [Tr.bind_error (e := e) rfl]
        | ok u =>
          rw [Tr.bind_ok (a := u) rfl]
          simp only
          have hscores : a.lazyScores gone s.2 s.1.best = (a.testScores st.best).value := by
            unfold RunArgs.lazyScores RunArgs.testScores
            cases a.test with
            | none => rfl
            | some test =>
              simp only
              have hfin : a.lazyTest gone test s.2 s.1.best = (a.finalTest test st.best).value := by
                rcases h4 with ⟨g1, g2, _⟩ | ⟨p, ms, ls, i, _, g1, _, g2, g3, _⟩
                · rw [g1, g2]
                  rfl
                · rw [g1, g2]
                  unfold RunArgs.lazyTest RunArgs.finalTest
                  cases a.seeds with
                  | one seed =>
                    cases ms with
                    | nil => cases g3; rfl
                    | cons m ms =>
                      cases g3 with
                      | cons g3 _ =>
                        simp only
                        rw [testOne_value, load_store g3]
                  | many seeds =>
                    simp only
                    rw [← tests_store a g3]
                    cases hm : (Tr.mapM (fun m : List Str × Option μ => a.testOne m.1 m.2 test) ms).value with
                    | error e => rw [Tr.bind_error hm]
                    | ok ts =>
                      rw [Tr.bind_ok hm]
                      rfl
              rw [hfin]
              cases hv : (a.finalTest test st.best).value with
              | error e => rw [Tr.bind_error hv]
              | ok t =>
                rw [Tr.bind_ok hv]
                simp only
                cases hq : printMetrics a.printFields (some t) with
                | error e => rw [Tr.bind_error (e := e) rfl]
                | ok u =>
                  rw [Tr.bind_ok (a := u) rfl]
                  rfl
          rw [hscores]
          have hpar : s.1.best.map Prod.fst = st.best.map Prod.fst := by
            rcases h4 with ⟨g1, g2, _⟩ | ⟨p, ms, ls, i, _, g1, _, g2, _⟩ <;> rw [g1, g2] <;> rfl
          rw [hpar]
          cases hv : (a.testScores st.best).value with
          | error e => rw [Tr.bind_error hv]
          | ok t =>
            rw [Tr.bind_ok hv]
            cases a.deleteAfter <;> rfl

/-- C147: different seeds, or trainings that depend on the seed and the parameters only. -/
theorem C147_seeds (a : RunArgs π μ) (gone : Err) (disk : List (List Str)) (d : Store μ) :
    a.lazyMain id gone disk d = (a.main disk).value :=
  C147_partial a id (fun train _ _ _ _ _ h => congrArg train h) gone disk d

/-- C147: the test scores are those of the selected models. -/
theorem C147_tested (a : RunArgs π μ) (name : Str → Str) {train : Str → π → List (Round μ)} (ht : a.trainer = some train)
    (hn : SameTrainings name train a.seeds.list) (hne : a.printFields ≠ []) {gone : Err} {disk : List (List Str)} {d : Store μ}
    {fin : Final π} (h : a.lazyMain name gone disk d = .ok fin) {test : Option μ → Bool × Res ScoreTable} (hat : a.test = some test) :
    ∃ (p : π) (sel : List (Nat × μ × ScoreTable)) (ts : List ScoreTable) (dev t : ScoreTable),
      fin.params = some p ∧ fin.dev = some dev ∧ fin.test = some t ∧ SelectedFor a train p sel ∧
      Together a (sel.map (fun x => x.2.2)) dev ∧ List.Forall₂ (fun x y => (test (some x.2.1)).2 = .ok y) sel ts ∧ Together a ts t := by
  rw [C147_partial a name (fun tr htr => by rw [ht] at htr; injection htr with htr; rw [← htr]; exact hn)] at h
  obtain ⟨b, p, sel, dev, _, h1, h2, h3, h4, _, _, h5, _⟩ := C103_report a disk ht hne h
  obtain ⟨ts, t, k1, k2, k3⟩ := h5 test hat
  exact ⟨p, sel, ts, dev, t, h1, h2, k3, h3, h4, k1, k2⟩

deriving instance DecidableEq for Final

namespace Demo

/-- Two trainings with the same seed, whose best epochs differ. -/
def equalSeeds (delete : Bool) : RunArgs Bool Nat where
  modelDir := ["m".toList]
  deleteAfter := delete
  seeds := .many ["a".toList, "b".toList]
  printFields := ["UPOS".toList]
  cmpFields := ["UPOS".toList]
  cmpMetric := "f1".toList
  devResults := none
  trainer := some fun s _ => if s = "a".toList then [⟨true, true, .ok (some (tab (3 / 4)), 1)⟩, ⟨true, true, .ok (some (tab (1 / 4)), 2)⟩]
    else [⟨true, true, .ok (some (tab (1 / 4)), 3)⟩, ⟨true, true, .ok (some (tab (3 / 4)), 4)⟩]
  testResults := none
  test := some fun m => (true, .ok (tab (if m = some 1 ∨ m = some 4 then 1 else 0)))
  hyperparams := .inl true

end Demo

/-- C147 does not hold for equal seeds whose trainings differ (the data set is shuffled, C146): their models have the same
places.  With `--delete_after` the model of the first one is gone when it is to be tested. -/
theorem C147_equal_refuted : ¬ ∀ (a : RunArgs Bool Nat) (name : Str → Str) (gone : Err) (disk : List (List Str)) (d : Store Nat),
    a.lazyMain name gone disk d = (a.main disk).value := by
  intro h
  have := h (Demo.equalSeeds true) (fun _ => "1".toList) .runtime [] (fun _ => none)
  revert this
  decide +kernel

/-- C147 for equal seeds whose trainings differ: with `--delete_after` the run fails after all trainings, with the exception for
missing files; without it another model is tested than the one selected. -/
theorem C147_equal_outcome : (∀ gone, (Demo.equalSeeds true).lazyMain (fun _ => "1".toList) gone [] (fun _ => none) = .error gone) ∧
    ((Demo.equalSeeds true).main []).value = .ok ⟨some true, some (Demo.tab (3 / 4)), some (Demo.tab 1)⟩ ∧
    ((Demo.equalSeeds false).lazyMain (fun _ => "1".toList) .runtime [] (fun _ => none)) =
      .ok ⟨some true, some (Demo.tab (3 / 4)), some (Demo.tab (1 / 2))⟩ := by
  refine ⟨?_, by decide +kernel, by decide +kernel⟩
  intro gone
  cases gone <;> decide +kernel

/-- Different seeds: what was in the directory before is replaced. -/
example : (Demo.equalSeeds false).lazyMain id .runtime [] (fun _ => some 7) =
    .ok ⟨some true, some (Demo.tab (3 / 4)), some (Demo.tab 1)⟩ := by decide +kernel

end Verif
