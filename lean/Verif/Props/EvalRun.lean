import Verif.Proofs.EvalRun2

/-!
# Properties of evaluation runs: C102, C103
-/

namespace Verif

variable {π τ : Type}

/-! ### C102 -/

theorem hasContent_iff (disk : List (List Str)) (dir : List Str) :
    hasContent disk dir = true ↔ ∃ p ∈ disk, dir <+: p ∧ p ≠ dir := by
  simp only [hasContent, List.any_eq_true, Bool.and_eq_true, List.isPrefixOf_iff_prefix, decide_eq_true_eq]
  constructor
  · rintro ⟨p, h1, h2, h3⟩; exact ⟨p, h1, h2, fun h => h3 h.symm⟩
  · rintro ⟨p, h1, h2, h3⟩; exact ⟨p, h1, h2, fun h => h3 h.symm⟩

/-- C102: with `--delete_after` the program refuses a model directory that has something in it, before
anything else happens. -/
theorem C102_refused (a : RunArgs π τ) (disk : List (List Str)) (hd : a.deleteAfter = true)
    {p : List Str} (hp : p ∈ disk) (hin : a.modelDir <+: p) (hne : p ≠ a.modelDir) :
    a.main disk = ⟨[], .error .value⟩ := by
  rw [RunArgs.main, hd, (hasContent_iff _ _).2 ⟨p, hp, hin, hne⟩]
  rfl

/-- C102: whether the run succeeds or fails, everything that was on the disk before is there afterwards,
except for the model directory itself if `--delete_after` is given (it was empty then). -/
theorem C102_safe (a : RunArgs π τ) (disk : List (List Str)) {p : List Str} (hp : p ∈ disk) :
    p ∈ dirAfter disk (a.main disk).events ∨ a.deleteAfter = true ∧ p = a.modelDir := by
  by_cases hc : a.deleteAfter = true ∧ p = a.modelDir
  · exact .inr hc
  · left
    refine mem_dirAfter_kept hp ?_
    intro q hq hqp
    obtain ⟨hd, hpre⟩ := a.main_effect disk _ hq
    have hin := hpre.trans hqp
    have hne : p ≠ a.modelDir := fun h => hc ⟨hd, h⟩
    rw [C102_refused a disk hd hp hin hne] at hq
    simp at hq

/-- C102: only models of epochs in the model directory and prediction files in the directories for
results are written. -/
theorem C102_writes (a : RunArgs π τ) (disk : List (List Str)) {p : List Str}
    (hp : p ∈ dirAfter disk (a.main disk).events) : p ∈ disk ∨
      ∃ i, ∃ s ∈ a.seeds.list, (∃ e, p = a.modelDir ++ [paramsName i, s, epochName e]) ∨
        (∃ e r, a.devResults = some r ∧ p = r ++ [paramsName i, s, epochDevName e]) ∨
        (∃ r, a.testResults = some r ∧ p = r ++ [paramsName i, s, "best-test.conll".toList]) := by
  rcases mem_dirAfter_origin hp with h | h
  · exact .inl h
  · exact .inr (a.main_effect disk _ h)

/-- C102: without `--delete_after` nothing is ever removed: all that was written is there. -/
theorem C102_kept (a : RunArgs π τ) (disk : List (List Str)) (hd : a.deleteAfter = false) {p : List Str}
    (hp : p ∈ disk ∨ Ev.save p ∈ (a.main disk).events) : p ∈ dirAfter disk (a.main disk).events := by
  have hno : ∀ q, Ev.remove q ∈ (a.main disk).events → ¬ q <+: p := by
    intro q hq
    have := (a.main_effect disk _ hq).1
    rw [hd] at this
    cases this
  rcases hp with hp | hp
  · exact mem_dirAfter_kept hp hno
  · exact mem_dirAfter_saved hp hno

/-- C102: what is written outside of the model directory stays there. -/
theorem C102_results (a : RunArgs π τ) (disk : List (List Str)) {p : List Str}
    (hp : Ev.save p ∈ (a.main disk).events) (hout : ¬ a.modelDir <+: p) :
    p ∈ dirAfter disk (a.main disk).events := by
  refine mem_dirAfter_saved hp ?_
  intro q hq hqp
  exact hout ((a.main_effect disk _ hq).2.trans hqp)

/-- The parts of a run that ends normally. -/
theorem RunArgs.main_ok (a : RunArgs π τ) {disk : List (List Str)} {fin : Final π}
    {train : Str → π → List (Round τ)} (ht : a.trainer = some train) (h : (a.main disk).value = .ok fin) :
    ∃ st t, (Tr.loop (a.paramsStep train) {} (hyperList a.hyperparams)).value = .ok st ∧
      printMetrics a.printFields st.scores = .ok () ∧ (a.testScores st.best).value = .ok t ∧
      fin = ⟨st.best.map Prod.fst, st.scores, t⟩ ∧
      (a.main disk).events = (Tr.loop (a.paramsStep train) {} (hyperList a.hyperparams)).events ++
        ((a.testScores st.best).events ++ if a.deleteAfter then [.remove a.modelDir] else []) := by
  rw [RunArgs.main] at h ⊢
  split at h
  · cases h
  · rename_i hc
    rw [if_neg hc]
    rw [ht] at h ⊢
    simp only at h ⊢
    obtain ⟨st, h1, h2, ev1⟩ := Tr.bind_value h
    obtain ⟨u, h3, h4, ev2⟩ := Tr.bind_value h2
    obtain ⟨t, h5, h6, ev3⟩ := Tr.bind_value h4
    obtain ⟨v, _, h8, ev4⟩ := Tr.bind_value h6
    injection h8 with h8
    refine ⟨st, t, h1, h3, h5, h8.symm, ?_⟩
    rw [ev1, ev2, ev3, ev4]
    by_cases hd : a.deleteAfter = true <;> simp [hd, Tr.lift, Tr.tell, Tr.pure]

theorem RunArgs.main_trainer (a : RunArgs π τ) {disk : List (List Str)} {fin : Final π}
    (h : (a.main disk).value = .ok fin) : ∃ train, a.trainer = some train := by
  rw [RunArgs.main] at h
  split at h
  · cases h
  · cases ht : a.trainer with
    | none => rw [ht] at h; cases h
    | some train => exact ⟨train, rfl⟩

/-- C102 for runs that succeed (what is missing are failing runs, see C102_failure_refuted): after a run with
`--delete_after` nothing is left of the model directory. -/
theorem C102_clean_partial (a : RunArgs π τ) (disk : List (List Str)) (hd : a.deleteAfter = true) {fin : Final π}
    (h : (a.main disk).value = .ok fin) :
    ∀ p ∈ dirAfter disk (a.main disk).events, ¬ a.modelDir <+: p := by
  obtain ⟨train, ht⟩ := a.main_trainer h
  obtain ⟨st, t, _, _, _, _, ev⟩ := a.main_ok ht h
  intro p hp
  rw [ev, hd, if_pos rfl, ← List.append_assoc, dirAfter_append] at hp
  simp only [dirAfter, List.mem_filter, Bool.not_eq_true', ← Bool.not_eq_true,
    List.isPrefixOf_iff_prefix] at hp
  exact hp.2

namespace Demo

/-- A table with one score. -/
def tab (x : Rat) : ScoreTable := Dict.ofList [("UPOS".toList, ⟨x, x, x, some x⟩)]

/-- Three epochs; the last one fails if the parameters say so. -/
def run (del fails : Bool) : RunArgs Bool Nat where
  modelDir := ["data".toList, "models".toList]
  deleteAfter := del
  seeds := .many ["1".toList, "2".toList]
  printFields := ["UPOS".toList]
  cmpFields := ["UPOS".toList]
  cmpMetric := "f1".toList
  devResults := none
  trainer := some (fun _ p => [⟨true, true, .ok (some (tab (1 / 2)), 10)⟩,
    ⟨true, true, .ok (some (tab (3 / 4)), 11)⟩,
    if fails && p then ⟨true, false, .error .runtime⟩ else ⟨true, true, .ok (some (tab (1 / 4)), 12)⟩])
  testResults := some ["data".toList, "results".toList]
  test := some (fun _ => (true, .ok (tab 1)))
  hyperparams := .inr [false, true]

def files : List (List Str) := [["data".toList, "train.conllu".toList], ["data".toList, "models".toList]]

end Demo

/-- C102 does not hold for runs that fail: they leave models behind, and the next run is refused. -/
theorem C102_failure_refuted : ¬ ∀ (a : RunArgs Bool Nat) (disk : List (List Str)), a.deleteAfter = true →
    ¬ hasContent disk a.modelDir → ¬ hasContent (dirAfter disk (a.main disk).events) a.modelDir := by
  intro h
  exact h (Demo.run true true) Demo.files rfl (by decide +kernel) (by decide +kernel)

/-- C102: after a failed run with `--delete_after` the same run is refused iff something is left in the model
directory. -/
theorem C102_again (a : RunArgs π τ) (disk : List (List Str)) (hd : a.deleteAfter = true) {p : List Str}
    (hp : p ∈ dirAfter disk (a.main disk).events) (hin : a.modelDir <+: p) (hne : p ≠ a.modelDir) :
    (∃ e, (a.main disk).value = .error e) ∧
      a.main (dirAfter disk (a.main disk).events) = ⟨[], .error .value⟩ := by
  refine ⟨?_, C102_refused a _ hd hp hin hne⟩
  cases h : (a.main disk).value with
  | error e => exact ⟨e, rfl⟩
  | ok fin => exact absurd hin (C102_clean_partial a disk hd h p hp)

example : ((Demo.run true true).main Demo.files).value.toOption.isNone = true ∧
    (dirAfter Demo.files ((Demo.run true true).main Demo.files).events).length = 6 ∧
    ((Demo.run true true).main (dirAfter Demo.files ((Demo.run true true).main Demo.files).events)).events
      = [] := by decide +kernel

/-- A successful run leaves the files of others and the predictions. -/
example : ((Demo.run true false).main Demo.files).value.toOption.isSome = true ∧
    dirAfter Demo.files ((Demo.run true false).main Demo.files).events =
      [["data".toList, "train.conllu".toList],
       ["data".toList, "results".toList, "params-0".toList, "1".toList, "best-test.conll".toList],
       ["data".toList, "results".toList, "params-0".toList, "2".toList, "best-test.conll".toList]] := by
  decide +kernel

/-! ### C103 -/

theorem params_inc (i j : Nat) (q : List Str) (hi : [paramsName i] <+: q) (hj : [paramsName j] <+: q) :
    i = j := by
  obtain ⟨r, rfl⟩ := hi
  obtain ⟨r', hr⟩ := hj
  simp only [List.cons_append, List.nil_append, List.cons.injEq] at hr
  exact (paramsName_inj hr.1).symm

theorem RunArgs.candidate_local (a : RunArgs π τ) (train : Str → π → List (Round τ)) (i : Nat) (p : π) :
    a.Local (fun i => [paramsName i]) i (a.candidate train i p).events := by
  intro q hq
  have : (a.candidate train i p).All (fun e => ∀ q, e = .remove q → a.modelDir ++ [paramsName i] <+: q) :=
    .bind (a.evaluateParams_local train p _) (fun _ _ => .pure _)
  exact this _ hq q rfl

theorem RunArgs.candidate_value (a : RunArgs π τ) {train : Str → π → List (Round τ)} {i : Nat} {p : π}
    {y : (π × List (List Str × Option τ)) × Option ScoreTable} (h : (a.candidate train i p).value = .ok y) :
    ∃ r, (a.evaluateParams train p [paramsName i]).value = .ok r ∧ y = ((p, r.1), r.2) ∧
      (a.candidate train i p).events = (a.evaluateParams train p [paramsName i]).events := by
  rw [RunArgs.candidate] at h ⊢
  obtain ⟨r, h1, h2, ev⟩ := Tr.bind_value h
  injection h2 with h2
  exact ⟨r, h1, h2.symm, by rw [ev]; simp [Tr.pure]⟩

/-- What the search over the parameters selects. -/
theorem RunArgs.search_best (a : RunArgs π τ) (hne : a.printFields ≠ []) {train : Str → π → List (Round τ)}
    {ps : List π} {st : Pick (π × List (List Str × Option τ))}
    (h : (Tr.loop (a.paramsStep train) {} ps).value = .ok st) (hp : printMetrics a.printFields st.scores = .ok ()) :
    ∃ (b : Nat) (p : π) (sel : List (Nat × τ × ScoreTable)) (dev : ScoreTable), ps[b]? = some p ∧
      st.best = some (p, (a.seeds.list.zip sel).map (fun x => ([paramsName b, x.1], some x.2.2.1))) ∧
      st.scores = some dev ∧ SelectedFor a train p sel ∧ Together a (sel.map (fun x => x.2.2)) dev ∧
      (∀ (i : Nat) (p' : π), ps[i]? = some p' → i ≠ b → ∃ other v w, DevScores a train p' other ∧
        TotalIs a.cmpFields a.cmpMetric other v ∧ TotalIs a.cmpFields a.cmpMetric dev w ∧
        (i < b → v < w) ∧ (b < i → v ≤ w)) ∧
      (a.seeds.list.Nodup → ∀ s x, (s, x) ∈ a.seeds.list.zip sel → ∀ rd, (train s p)[x.1]? = some rd →
        rd.saved = true → ∀ disk, a.modelDir ++ [paramsName b, s, epochName x.1] ∈
          dirAfter disk (Tr.loop (a.paramsStep train) {} ps).events) := by
  obtain ⟨t0, ht0⟩ := printMetrics_some hne hp
  obtain ⟨ys, h1, sl, h2, rfl⟩ := a.search_spec h
  have hys : ∀ c ∈ ys.map (fun y => (y.1, y.2, ([] : List Ev))), c.2.1.isSome := by
    intro c hc
    obtain ⟨y, hy, rfl⟩ := List.mem_map.1 hc
    obtain ⟨i, hi⟩ := List.mem_iff_getElem?.1 hy
    obtain ⟨p, _, hy'⟩ := forall₂_zipIdx_get' h1 hi
    obtain ⟨r, h3, rfl, _⟩ := a.candidate_value hy'
    obtain ⟨_, tb, _, _, h4, _⟩ := a.evaluateParams_best hne h3
    simp [h4]
  have hnil : ys.map (fun y => (y.1, y.2, ([] : List Ev))) ≠ [] := by
    intro hc
    rw [hc] at h2
    rcases h2.stored with ⟨_, rfl⟩ | ⟨e, c, h7, _⟩
    · cases ht0
    · simp at h7
  obtain ⟨b, c, te, h7, h8, h9, h10, h11, h12⟩ := h2.best hys hnil
  rw [List.getElem?_map, Option.map_eq_some_iff] at h7
  obtain ⟨y, hy, rfl⟩ := h7
  obtain ⟨p, hpb, hy'⟩ := forall₂_zipIdx_get' h1 hy
  obtain ⟨r, h13, rfl, ev⟩ := a.candidate_value hy'
  obtain ⟨sel, dev, k1, k2, k3, k4, k5⟩ := a.evaluateParams_best hne h13
  have hdev : dev = te := by
    have h10 : r.2 = some te := h10
    rw [k3] at h10
    injection h10
  subst hdev
  refine ⟨b, p, sel, dev, hpb, ?_, h9, k1, k2, ?_, ?_⟩
  · have : sl.pick.best = some (p, r.1) := h8
    rw [this, k4]
    rfl
  · intro i p' hi hib
    obtain ⟨y', hy2, hy3⟩ := forall₂_zipIdx_get h1 hi
    obtain ⟨r', h14, rfl, _⟩ := a.candidate_value hy3
    obtain ⟨sel', dev', q1, q2, q3, _, _⟩ := a.evaluateParams_best hne h14
    obtain ⟨ti, vi, ve, h15, h16, h17, h18⟩ := h12 i ((p', r'.1), r'.2, [])
      (by rw [List.getElem?_map, hy2]; rfl) hib
    have h15 : r'.2 = some ti := h15
    rw [q3] at h15
    injection h15 with h15
    subst h15
    exact ⟨dev', vi, ve, ⟨sel', q1, q2⟩, h16, h17, h18⟩
  · intro hn s x hx rd hrd hs disk
    refine a.search_kept params_inc (a.candidate_local train) h b p hpb h11 _ (by simp) ?_ disk
    intro disk
    rw [ev]
    exact k5 hn s x hx rd hrd hs disk

/-- What the final test does. -/
theorem RunArgs.testScores_value (a : RunArgs π τ) {p : π} {models : List (List Str × τ)}
    (hl : models.length = a.seeds.list.length) {t : Option ScoreTable}
    (h : (a.testScores (some (p, models.map (fun m => (m.1, some m.2))))).value = .ok t) :
    (a.test = none → t = none) ∧
    ∀ test, a.test = some test → ∃ ts tb,
      List.Forall₂ (fun m x => (test (some m.2)).2 = .ok x) models ts ∧ Together a ts tb ∧ t = some tb ∧
      ∀ m ∈ models, ∀ r, a.testResults = some r → (test (some m.2)).1 = true →
        Ev.save (r ++ (m.1 ++ ["best-test.conll".toList])) ∈
          (a.testScores (some (p, models.map (fun m => (m.1, some m.2))))).events := by
  rw [RunArgs.testScores] at h ⊢
  cases ht : a.test with
  | none =>
    rw [ht] at h
    injection h with h
    exact ⟨fun _ => h.symm, by simp⟩
  | some test =>
    rw [ht] at h
    simp only at h ⊢
    refine ⟨by simp, ?_⟩
    intro test' htt
    injection htt with htt
    subst htt
    obtain ⟨tb, h1, h2, ev⟩ := Tr.bind_value h
    obtain ⟨_, _, h3, _⟩ := Tr.bind_value h2
    injection h3 with h3
    subst h3
    rw [ev]
    have hone : ∀ (m : List Str × τ) x, (a.testOne m.1 (some m.2) test).value = .ok x →
        (test (some m.2)).2 = .ok x ∧ ∀ r, a.testResults = some r → (test (some m.2)).1 = true →
          Ev.save (r ++ (m.1 ++ ["best-test.conll".toList])) ∈ (a.testOne m.1 (some m.2) test).events := by
      intro m x hm
      rw [RunArgs.testOne] at hm ⊢
      obtain ⟨_, _, hm2, ev⟩ := Tr.bind_value hm
      refine ⟨hm2, ?_⟩
      intro r hr hw
      rw [ev, writeFile, hr, hw]
      simp [Tr.tell]
    rw [RunArgs.finalTest] at h1 ⊢
    cases hs : a.seeds with
    | one s =>
      rw [hs] at h1 hl
      cases models with
      | nil => simp [Seeds.list] at hl
      | cons m ms =>
        have : ms = [] := by simpa [Seeds.list] using hl
        subst this
        obtain ⟨h4, h5⟩ := hone m tb h1
        refine ⟨[tb], tb, .cons h4 .nil, by rw [Together, hs], rfl, ?_⟩
        intro m' hm' r hr hw
        simp only [List.mem_singleton] at hm'
        subst hm'
        exact List.mem_append_left _ (h5 r hr hw)
    | many ss =>
      rw [hs] at h1
      simp only at h1 ⊢
      obtain ⟨ts, h4, h5, ev2⟩ := Tr.bind_value h1
      obtain ⟨h6, ev3⟩ := Tr.mapM_value h4
      refine ⟨ts, tb, ?_, by rw [Together, hs]; exact h5, rfl, ?_⟩
      · rw [List.forall₂_map_left_iff] at h6
        exact h6.imp (fun m x hm => (hone m x hm).1)
      · intro m hm r hr hw
        have : ∃ x, (a.testOne m.1 (some m.2) test).value = .ok x := by
          rw [List.forall₂_map_left_iff] at h6
          obtain ⟨i, hi⟩ := List.mem_iff_getElem?.1 hm
          obtain ⟨hlt, hi⟩ := List.getElem?_eq_some_iff.1 hi
          have := h6.get hlt (h6.length_eq ▸ hlt)
          simp only [List.get_eq_getElem, hi] at this
          exact ⟨_, this⟩
        obtain ⟨x, hx⟩ := this
        refine List.mem_append_left _ ?_
        rw [ev2, ev3]
        refine List.mem_append_left _ ?_
        simp only [List.map_map, List.mem_flatten, List.mem_map]
        exact ⟨_, ⟨m, hm, rfl⟩, (hone m x hx).2 r hr hw⟩

/-- C103: what a run reports.  The parameters are the first among those with the greatest comparison score on
the dev set; for each seed the tagger is the one of the first among its best epochs; the test scores are those
of these taggers. -/
theorem C103_report (a : RunArgs π τ) (disk : List (List Str)) {train : Str → π → List (Round τ)}
    (ht : a.trainer = some train) (hne : a.printFields ≠ []) {fin : Final π}
    (h : (a.main disk).value = .ok fin) :
    ∃ (b : Nat) (p : π) (sel : List (Nat × τ × ScoreTable)) (dev : ScoreTable),
      (hyperList a.hyperparams)[b]? = some p ∧ fin.params = some p ∧ fin.dev = some dev ∧
      SelectedFor a train p sel ∧ Together a (sel.map (fun x => x.2.2)) dev ∧
      (∀ (i : Nat) (p' : π), (hyperList a.hyperparams)[i]? = some p' → i ≠ b →
        ∃ other v w, DevScores a train p' other ∧ TotalIs a.cmpFields a.cmpMetric other v ∧
          TotalIs a.cmpFields a.cmpMetric dev w ∧ (i < b → v < w) ∧ (b < i → v ≤ w)) ∧
      (a.test = none → fin.test = none) ∧
      (∀ test, a.test = some test → ∃ ts t, List.Forall₂ (fun x y => (test (some x.2.1)).2 = .ok y) sel ts ∧
        Together a ts t ∧ fin.test = some t) ∧
      -- on the disk
      ∃ before after, (a.main disk).events = before ++ after ∧
        (∀ q, Ev.remove q ∈ after → q = a.modelDir) ∧
        (∀ test, a.test = some test → ∀ s x, (s, x) ∈ a.seeds.list.zip sel →
          ∀ r, a.testResults = some r → (test (some x.2.1)).1 = true →
            Ev.save (r ++ [paramsName b, s, "best-test.conll".toList]) ∈ after) ∧
        (a.seeds.list.Nodup → ∀ s x, (s, x) ∈ a.seeds.list.zip sel → ∀ rd, (train s p)[x.1]? = some rd →
          rd.saved = true → a.modelDir ++ [paramsName b, s, epochName x.1] ∈ dirAfter disk before) := by
  obtain ⟨st, t, h1, h2, h3, rfl, ev⟩ := a.main_ok ht h
  obtain ⟨b, p, sel, dev, k1, k2, k3, k4, k5, k6, k7⟩ := a.search_best hne h1 h2
  have hlen : sel.length = a.seeds.list.length := k4.length_eq.symm
  rw [k2] at h3 ev
  have hm : (a.seeds.list.zip sel).map (fun x => ([paramsName b, x.1], some x.2.2.1)) =
      ((a.seeds.list.zip sel).map (fun x => ([paramsName b, x.1], x.2.2.1))).map (fun m => (m.1, some m.2)) := by
    simp
  rw [hm] at h3
  obtain ⟨h4, h5⟩ := a.testScores_value (by simp [hlen]) h3
  refine ⟨b, p, sel, dev, k1, by simp [k2], k3, k4, k5, k6, h4, ?_, _, _, ev, ?_, ?_, ?_⟩
  · intro test htest
    obtain ⟨ts, tb, h6, h7, h8, _⟩ := h5 test htest
    refine ⟨ts, tb, ?_, h7, h8⟩
    rw [List.forall₂_map_left_iff] at h6
    have : sel = (a.seeds.list.zip sel).map Prod.snd := by
      rw [List.map_snd_zip]; omega
    rw [this, List.forall₂_map_left_iff]
    exact h6
  · intro q hq
    rcases List.mem_append.1 hq with hq | hq
    · have hpl := a.loop_placed h1
      rw [k2] at hpl
      obtain ⟨_, hc, _⟩ := a.testScores_effect hpl _ hq
      cases hc
    · split at hq
      · simpa using hq
      · simp at hq
  · intro test htest s x hx r hr hw
    obtain ⟨_, _, _, _, _, h9⟩ := h5 test htest
    refine List.mem_append_left _ ?_
    rw [hm]
    have := h9 ([paramsName b, s], x.2.1) (List.mem_map.2 ⟨(s, x), hx, rfl⟩) r hr hw
    simpa using this
  · intro hn s x hx rd hrd hs
    exact k7 hn s x hx rd hrd hs disk

/-- C103: an unknown method is an error, and without parameters there is nothing to report. -/
theorem C103_errors (a : RunArgs π τ) (disk : List (List Str)) (hc : a.deleteAfter = false) :
    (a.trainer = none → a.main disk = ⟨[], .error .notImplemented⟩) ∧
    (∀ train, a.trainer = some train → a.printFields ≠ [] → a.hyperparams = .inr [] →
      a.main disk = ⟨[], .error .type⟩) := by
  constructor
  · intro ht
    rw [RunArgs.main, hc, ht]; rfl
  · intro train ht hne hh
    rw [RunArgs.main, hc, ht, hh]
    cases hf : a.printFields with
    | nil => exact absurd hf hne
    | cons m ms => rfl

/-- The first of two equal parameter sets, with the second epoch. -/
example : (((Demo.run true false).main Demo.files).value.toOption.map
    (fun f => (f.params, f.dev, f.test))) = some (some false, some (Demo.tab (3 / 4)), some (Demo.tab 1)) := by
  decide +kernel

/-- The effects of making the candidates are effects of the search. -/
theorem RunArgs.search_events (a : RunArgs π τ) {pathOf : Nat → List Str}
    {make : Nat → α → Tr (μ × Option ScoreTable)} {l : List α} {st : Pick μ}
    (h : (Tr.loop (a.tryOne pathOf make) {} l).value = .ok st) {i : Nat} {x : α} (hi : l[i]? = some x) :
    (∃ y, (make i x).value = .ok y) ∧ ∀ e ∈ (make i x).events, e ∈ (Tr.loop (a.tryOne pathOf make) {} l).events := by
  induction l using List.reverseRecOn generalizing st with
  | nil => simp at hi
  | append_singleton l z ih =>
    obtain ⟨s1, h1, h2, h3⟩ := Tr.loop_snoc h
    rw [h3]
    by_cases hl : i < l.length
    · rw [List.getElem?_append_left hl] at hi
      obtain ⟨h4, h5⟩ := ih h1 hi
      exact ⟨h4, fun e he => List.mem_append_left _ (h5 e he)⟩
    · have hil : i = l.length := by
        have := (List.getElem?_eq_some_iff.1 hi).1
        simp at this
        omega
      subst hil
      simp only [List.getElem?_concat_length, Option.some.injEq] at hi
      subst hi
      obtain ⟨ys, g1, sel, g2, rfl⟩ := a.search_spec h1
      have hix : sel.pick.index = l.length := by
        have := g2.index
        have h9 := g1.length_eq
        simp only [List.length_map, List.length_zipIdx] at this h9
        rw [Sel.pick, this, ← h9]
      rw [RunArgs.tryOne, hix] at h2 ⊢
      obtain ⟨y, h5, _, h6⟩ := Tr.bind_value h2
      refine ⟨⟨y, h5⟩, fun e he => ?_⟩
      rw [h6]
      exact List.mem_append_right _ (List.mem_append_left _ he)

/-- The effects of one training are effects of the evaluation of its parameters. -/
theorem RunArgs.evaluateParams_events (a : RunArgs π τ) {train : Str → π → List (Round τ)} {p : π} {path : List Str}
    {r : List (List Str × Option τ) × Option ScoreTable} (h : (a.evaluateParams train p path).value = .ok r) {s : Str}
    (hs : s ∈ a.seeds.list) : (∃ y, (a.single train p path s).value = .ok y) ∧
      ∀ e ∈ (a.single train p path s).events, e ∈ (a.evaluateParams train p path).events := by
  rw [RunArgs.evaluateParams] at h ⊢
  cases hseeds : a.seeds with
  | one seed =>
    rw [hseeds] at h hs
    simp only [Seeds.list, List.mem_singleton] at h hs
    subst hs
    obtain ⟨y, h1, _, h2⟩ := Tr.bind_value h
    refine ⟨⟨y, h1⟩, fun e he => ?_⟩
    simp only
    rw [h2]
    exact List.mem_append_left _ he
  | many seeds =>
    rw [hseeds] at h hs
    simp only [Seeds.list] at h hs
    obtain ⟨ys, h1, _, h2⟩ := Tr.bind_value h
    obtain ⟨h3, h4⟩ := Tr.mapM_value h1
    constructor
    · obtain ⟨i, hi⟩ := List.mem_iff_getElem?.1 hs
      obtain ⟨hlt, hi⟩ := List.getElem?_eq_some_iff.1 hi
      have := h3.get hlt (h3.length_eq ▸ hlt)
      simp only [List.get_eq_getElem, hi] at this
      exact ⟨_, this⟩
    · intro e he
      simp only
      rw [h2, h4]
      refine List.mem_append_left _ ?_
      simp only [List.mem_flatten, List.mem_map]
      exact ⟨_, ⟨s, hs, rfl⟩, he⟩

theorem RunArgs.main_written (a : RunArgs π τ) (disk : List (List Str)) {train : Str → π → List (Round τ)} (ht : a.trainer = some train)
    {fin : Final π} (h : (a.main disk).value = .ok fin) {r : List Str} (hr : a.devResults = some r)
    (i : Nat) (p : π) (hp : (hyperList a.hyperparams)[i]? = some p) (s : Str) (hs : s ∈ a.seeds.list) (e : Nat) (rd : Round τ)
    (he : (train s p)[e]? = some rd) (hw : rd.written = true) :
    Ev.save (r ++ [paramsName i, s, epochDevName e]) ∈ (a.main disk).events := by
  obtain ⟨st, t, h1, _, _, _, ev⟩ := a.main_ok ht h
  rw [ev]
  refine List.mem_append_left _ ?_
  obtain ⟨⟨y, h2⟩, h3⟩ := a.search_events h1 hp
  refine h3 _ ?_
  obtain ⟨y', h4, _, h5⟩ := a.candidate_value h2
  rw [h5]
  obtain ⟨⟨z, h6⟩, h7⟩ := a.evaluateParams_events h4 hs
  refine h7 _ ?_
  rw [RunArgs.single] at h6 ⊢
  obtain ⟨st', h8, _, h9⟩ := Tr.bind_value h6
  rw [h9]
  refine List.mem_append_left _ ?_
  obtain ⟨⟨w, h10⟩, h11⟩ := a.search_events h8 he
  refine h11 _ ?_
  rw [RunArgs.round] at h10 ⊢
  obtain ⟨_, _, h12, h13⟩ := Tr.bind_value h10
  rw [h13]
  refine List.mem_append_right _ ?_
  obtain ⟨_, _, _, h14⟩ := Tr.bind_value h12
  rw [h14]
  refine List.mem_append_left _ ?_
  simp [writeFile, hw, hr, Tr.tell]

/-- C102: the predictions of every epoch are kept: after a run that succeeds, for all parameters, seeds and epochs with predictions on
the dev set, these are in a file of their own in the directory for predictions (if this file is not below the model directory). -/
theorem C102_predictions (a : RunArgs π τ) (disk : List (List Str)) {train : Str → π → List (Round τ)} (ht : a.trainer = some train)
    {fin : Final π} (h : (a.main disk).value = .ok fin) {r : List Str} (hr : a.devResults = some r)
    (i : Nat) (p : π) (hp : (hyperList a.hyperparams)[i]? = some p) (s : Str) (hs : s ∈ a.seeds.list) (e : Nat) (rd : Round τ)
    (he : (train s p)[e]? = some rd) (hw : rd.written = true)
    (ho : ¬ a.modelDir <+: r ++ ["params-".toList ++ natStr i, s, "epoch-".toList ++ natStr e ++ "-dev.conll".toList]) :
    r ++ ["params-".toList ++ natStr i, s, "epoch-".toList ++ natStr e ++ "-dev.conll".toList] ∈ dirAfter disk (a.main disk).events :=
  C102_results a disk (a.main_written disk ht h hr i p hp s hs e rd he hw) ho

/-- C102: the files of different epochs, seeds or parameters are different. -/
theorem C102_predictions_apart {r : List Str} {i i' e e' : Nat} {s s' : Str}
    (h : r ++ ["params-".toList ++ natStr i, s, "epoch-".toList ++ natStr e ++ "-dev.conll".toList] =
      r ++ ["params-".toList ++ natStr i', s', "epoch-".toList ++ natStr e' ++ "-dev.conll".toList]) : i = i' ∧ s = s' ∧ e = e' := by
  have h := List.append_cancel_left h
  injection h with h1 h
  injection h with h2 h
  injection h with h3
  exact ⟨natStr_inj (List.append_cancel_left h1), h2, natStr_inj (List.append_cancel_left (List.append_cancel_right h3))⟩

example : (({ Demo.run true false with devResults := some ["out".toList] } : RunArgs Bool Nat).main Demo.files).value.toOption.isSome =
      true ∧ ¬ (Demo.run true false).modelDir <+: ["out".toList, "params-1".toList, "2".toList, "epoch-2-dev.conll".toList] := by
  decide +kernel

end Verif
