import Verif.Proofs.PrintFields
import Verif.Props.EvalRun

/-!
# The fields that are printed: C52, C121
-/

namespace Verif

variable {π τ μ : Type}

/-! ### C52: averages in full -/

/-- C52: when averaging succeeds.  Every table has all metrics, and each metric has an aligned accuracy in some
table; nothing is required if there are no metrics. -/
theorem C52_succeeds_iff (metrics : List Str) (scores : List (Option ScoreTable)) :
    (∃ res, averageScores metrics scores = .ok res) ↔ metrics = [] ∨
      ((∀ sc ∈ scores, ∃ t, sc = some t ∧ ∀ m ∈ metrics, ∃ x, t.get? m = some x) ∧
        ∀ m ∈ metrics, ∃ t x, some t ∈ scores ∧ t.get? m = some x ∧ x.aligned ≠ none) := by
  by_cases hm : metrics = []
  · subst hm
    refine ⟨fun _ => .inl rfl, ?_⟩
    rintro -
    have : ∀ sums, forM' (addScores []) sums scores = .ok sums := by
      intro sums
      induction scores with
      | nil => rfl
      | cons sc scs ih => simp only [forM', addScores]; exact ih
    exact ⟨Dict.ofList [], by simp only [averageScores, this, mapM']⟩
  · rw [or_iff_right hm]
    simp only [average_full hm, exists_and_left, exists_eq, and_true]
    refine and_congr ?_ ?_
    · simp only [Option.isSome_iff_exists]
    · refine forall_congr' fun m => forall_congr' fun _ => ?_
      rw [Ne, List.filterMap_eq_nil_iff]
      push Not
      simp only [valuesOf, List.mem_filterMap, Option.bind_eq_some_iff]
      constructor
      · rintro ⟨x, ⟨sc, hsc, t, rfl, ht⟩, ha⟩
        exact ⟨t, hsc, x, ht, ha⟩
      · rintro ⟨t, hsc, x, ht, ha⟩
        exact ⟨x, ⟨some t, hsc, t, rfl, ht⟩, ha⟩

/-- C52 in general (what is missing of the claim: metrics that are listed more than once, and aligned accuracies
that are missing in some tables): each number is the mean times the number of times the metric is listed, and
missing aligned accuracies count as 0. -/
theorem C52_value_partial {metrics : List Str} {scores : List (Option ScoreTable)} {res : ScoreTable}
    (h : averageScores metrics scores = .ok res) (m : Str) :
    (m ∉ metrics → res.get? m = none) ∧
    (m ∈ metrics → ∃ values r, List.Forall₂ (fun sc v => ∃ t : ScoreTable, sc = some t ∧ t.get? m = some v)
        scores values ∧ res.get? m = some r ∧
      r.precision = metrics.count m * mean (values.map Score.precision) ∧
      r.recall = metrics.count m * mean (values.map Score.recall) ∧
      r.f1 = metrics.count m * mean (values.map Score.f1) ∧
      r.aligned = some (metrics.count m * mean (values.map (fun v => v.aligned.getD 0)))) := by
  by_cases hm : metrics = []
  · subst hm
    refine ⟨fun _ => ?_, by simp⟩
    unfold averageScores at h
    split at h
    · cases h
    · simp only [mapM'] at h
      injection h with h
      rw [← h]; rfl
  · rw [average_full hm] at h
    obtain ⟨⟨h1, h2⟩, rfl⟩ := h
    rw [get?_ofList_map metrics (fun m => timesMean (metrics.count m) scores.length (valuesOf m scores))]
    refine ⟨fun hn => if_neg hn, fun hmm => ?_⟩
    rw [if_pos hmm]
    have hv : List.Forall₂ (fun sc v => ∃ t : ScoreTable, sc = some t ∧ t.get? m = some v) scores
        (valuesOf m scores) := by
      unfold valuesOf
      clear h2
      induction scores with
      | nil => exact .nil
      | cons sc scs ih =>
        obtain ⟨t, rfl, ht⟩ := h1 sc (by simp)
        obtain ⟨v, hv⟩ := Option.isSome_iff_exists.1 (ht m hmm)
        rw [List.filterMap_cons_some (b := v) (by simpa using hv)]
        exact .cons ⟨t, rfl, hv⟩ (ih (fun sc hsc => h1 sc (by simp [hsc])))
    refine ⟨_, _, hv, rfl, ?_, ?_, ?_, ?_⟩ <;>
      simp only [timesMean, mean, List.length_map, hv.length_eq, mul_div_assoc]
    have : ∀ vs : List Score, (vs.filterMap Score.aligned).sum = (vs.map (fun v => v.aligned.getD 0)).sum := by
      intro vs
      induction vs with
      | nil => rfl
      | cons v vs ih =>
        obtain ⟨_, _, _, a⟩ := v
        cases a <;> simp [ih]
    rw [this]

example : averageScores ["UPOS".toList, "UPOS".toList] [some (Demo.tab (1 / 2)), some (Demo.tab (1 / 4))] =
    .ok (Demo.tab (3 / 4)) := by decide +kernel

/-! ### C121 -/

theorem agree_average {fs fs' : List Str} (hn : fs.Nodup) (hn' : fs'.Nodup) {rs : List (Option ScoreTable)}
    {x y : ScoreTable} (hx : averageScores fs rs = .ok x) (hy : averageScores fs' rs = .ok y) :
    Agree (some x) (some y) := by
  have hval : ∀ {fs : List Str} {x : ScoreTable}, fs.Nodup → averageScores fs rs = .ok x → ∀ m s,
      x.get? m = some s → s = timesMean 1 rs.length (valuesOf m rs) := by
    intro fs x hn hx m s hs
    by_cases hm : fs = []
    · subst hm
      rw [(C52_value_partial hx m).1 (by simp)] at hs
      cases hs
    · obtain ⟨_, rfl⟩ := (average_full hm _ _).1 hx
      rw [get?_ofList_map fs (fun m => timesMean (fs.count m) rs.length (valuesOf m rs))] at hs
      by_cases hmm : m ∈ fs
      · rw [if_pos hmm, List.count_eq_one_of_mem hn hmm] at hs
        injection hs with hs
        exact hs.symm
      · rw [if_neg hmm] at hs
        cases hs
  intro m s s' h h'
  rw [hval hn hx m s h, hval hn' hy m s' h']

theorem Agree.rfl' : ∀ t : Option ScoreTable, Agree t t
  | none => trivial
  | some _ => fun _ _ _ h h' => by rw [h] at h'; injection h'

theorem Agree.scoreSum {fields : List Str} {metric : Str} {t t' : Option ScoreTable} (h : Agree t t') {v v' : Rat}
    (hv : scoreSum fields metric t = .ok v) (hv' : scoreSum fields metric t' = .ok v') : v = v' := by
  match t, t', h with
  | none, none, _ => rw [hv] at hv'; injection hv'
  | some t, some t', h =>
    simp only [Verif.scoreSum] at hv hv'
    generalize (0 : Rat) = z at hv hv'
    induction fields generalizing z with
    | nil => simp only [forM'] at hv hv'; injection hv with hv; injection hv' with hv'; rw [← hv, hv']
    | cons f fs ih =>
      simp only [forM'] at hv hv'
      cases h1 : scoreAdd metric t z f with
      | error e => rw [h1] at hv; cases hv
      | ok z1 =>
        cases h2 : scoreAdd metric t' z f with
        | error e => rw [h2] at hv'; cases hv'
        | ok z2 =>
          rw [h1] at hv; rw [h2] at hv'
          have : z1 = z2 := by
            unfold scoreAdd at h1 h2
            cases g1 : t.get? f with
            | none => rw [g1] at h1; cases h1
            | some s =>
              cases g2 : t'.get? f with
              | none => rw [g2] at h2; cases h2
              | some s' =>
                rw [g1] at h1; rw [g2] at h2
                rw [h f s s' g1 g2] at h1
                rw [h1] at h2
                injection h2
          subst this
          exact ih z1 hv hv'

/-- The variables of two searches. -/
def PickAgree (st st' : Pick μ) : Prop :=
  st.index = st'.index ∧ st.best = st'.best ∧ st.path = st'.path ∧ Agree st.scores st'.scores

/-- The run with other fields printed. -/
def RunArgs.printing (a : RunArgs π τ) (fields : List Str) : RunArgs π τ := { a with printFields := fields }

theorem isBetter_agree {fields : List Str} {metric : Str} {new new' old old' : Option ScoreTable}
    (hn : Agree new new') (ho : Agree old old') {u v : Bool}
    (hu : isBetter (scoreBetter fields metric) new old = .ok u)
    (hv : isBetter (scoreBetter fields metric) new' old' = .ok v) : u = v := by
  match old, old', ho with
  | none, none, _ => rw [isBetter] at hu hv; injection hu with hu; injection hv with hv; rw [← hu, hv]
  | some o, some o', ho =>
    simp only [isBetter, scoreBetter] at hu hv
    cases h1 : scoreSum fields metric new with
    | error e => rw [h1] at hu; cases hu
    | ok x =>
      cases h2 : scoreSum fields metric (some o) with
      | error e => rw [h1, h2] at hu; cases hu
      | ok y =>
        cases h3 : scoreSum fields metric new' with
        | error e => rw [h3] at hv; cases hv
        | ok x' =>
          cases h4 : scoreSum fields metric (some o') with
          | error e => rw [h3, h4] at hv; cases hv
          | ok y' =>
            rw [h1, h2] at hu; rw [h3, h4] at hv
            have e1 := hn.scoreSum h1 h3
            have e2 := Agree.scoreSum (t := some o) (t' := some o') ho h2 h4
            subst e1; subst e2
            simp only at hu hv
            injection hu with hu; injection hv with hv
            rw [← hu, hv]

theorem RunArgs.choose_sim (a : RunArgs π τ) (fs : List Str) (pathOf : Nat → List Str) {st st' : Pick μ}
    (h : PickAgree st st') (cand : μ) {scores scores' : Option ScoreTable} (hs : Agree scores scores') :
    (a.choose pathOf st cand scores).Sim PickAgree ((a.printing fs).choose pathOf st' cand scores') := by
  obtain ⟨h1, h2, h3, h4⟩ := h
  obtain ⟨i, b, sc, p⟩ := st
  obtain ⟨i', b', sc', p'⟩ := st'
  simp only at h1 h2 h3 h4
  subst h1; subst h2; subst h3
  refine .bind (R := Eq) (.lift (fun u v hu hv => isBetter_agree hs h4 hu hv)) ?_
  rintro u _ rfl
  split
  · exact .bind (R := fun _ _ => True) (.same _ (fun _ _ => trivial))
      (fun _ _ _ => .pure ⟨rfl, rfl, rfl, hs⟩)
  · exact .bind (R := fun _ _ => True) (.same _ (fun _ _ => trivial))
      (fun _ _ _ => .pure ⟨rfl, rfl, rfl, h4⟩)

theorem RunArgs.single_sim (a : RunArgs π τ) (fs : List Str) (train : Str → π → List (Round τ)) (params : π)
    (path : List Str) (seed : Str) :
    (a.single train params path seed).Sim Eq ((a.printing fs).single train params path seed) := by
  refine .bind (R := Eq) (.loop ?_ rfl _) ?_
  · rintro st _ r rfl
    refine .bind (R := Eq) ?_ ?_
    · exact .bind (R := Eq) (.same _ (fun _ _ => rfl)) (fun _ _ _ => .bind (R := Eq) (.same _ (fun _ _ => rfl))
        (fun _ _ _ => .bind (R := Eq) (.same _ (fun _ _ => rfl)) (fun x y hxy => .bind (R := fun _ _ => True)
          (.lift (fun _ _ _ _ => trivial)) (fun _ _ _ => .pure (by rw [hxy])))))
    · rintro y _ rfl
      exact .same _ (fun _ _ => rfl)
  · rintro st _ rfl
    exact .bind (R := fun _ _ => True) (.lift (fun _ _ _ _ => trivial)) (fun _ _ _ => .pure rfl)

/-- What is needed of the fields: nothing with one seed. -/
def RunArgs.Distinct (a : RunArgs π τ) (fs : List Str) : Prop :=
  ∀ seeds, a.seeds = .many seeds → a.printFields.Nodup ∧ fs.Nodup

theorem RunArgs.evaluateParams_sim (a : RunArgs π τ) {fs : List Str} (hd : a.Distinct fs)
    (train : Str → π → List (Round τ)) (params : π) (path : List Str) :
    (a.evaluateParams train params path).Sim (fun x y => x.1 = y.1 ∧ Agree x.2 y.2)
      ((a.printing fs).evaluateParams train params path) := by
  unfold RunArgs.evaluateParams
  have : (a.printing fs).seeds = a.seeds := rfl
  rw [this]
  cases hs : a.seeds with
  | one s =>
    refine .bind (a.single_sim fs train params path s) ?_
    rintro x _ rfl
    exact .pure ⟨rfl, .rfl' _⟩
  | many ss =>
    refine .bind (.mapM (a.single_sim fs train params path) ss) ?_
    rintro rs _ rfl
    refine .bind (R := fun x y => Agree (some x) (some y)) (.lift ?_) ?_
    · intro x y hx hy
      exact agree_average (hd ss hs).1 (hd ss hs).2 hx hy
    · intro x y hxy
      exact .bind (R := fun _ _ => True) (.lift (fun _ _ _ _ => trivial)) (fun _ _ _ => .pure ⟨rfl, hxy⟩)

theorem RunArgs.testScores_sim (a : RunArgs π τ) {fs : List Str} (hd : a.Distinct fs)
    (best : Option (π × List (List Str × Option τ))) :
    (a.testScores best).Sim Agree ((a.printing fs).testScores best) := by
  unfold RunArgs.testScores
  have : (a.printing fs).test = a.test := rfl
  rw [this]
  cases ht : a.test with
  | none => exact .pure trivial
  | some test =>
    refine .bind (R := fun x y => Agree (some x) (some y)) ?_ (fun x y hxy => .bind (R := fun _ _ => True)
      (.lift (fun _ _ _ _ => trivial)) (fun _ _ _ => .pure hxy))
    unfold RunArgs.finalTest
    cases best with
    | none => exact .lift (fun _ _ h => by cases h)
    | some b =>
      have : (a.printing fs).seeds = a.seeds := rfl
      simp only [this]
      cases hs : a.seeds with
      | one s =>
        cases b.2 with
        | nil => exact .lift (fun _ _ h => by cases h)
        | cons m ms => exact .same _ (fun u _ => .rfl' (some u))
      | many ss =>
        refine .bind (R := Eq) (.same _ (fun _ _ => rfl)) ?_
        rintro ts _ rfl
        exact .lift (fun x y hx hy => agree_average (hd ss hs).1 (hd ss hs).2 hx hy)

/-- C121, for fields that are listed once if there are several seeds, if both runs succeed (what is missing: see
C121_refuted and C121_refuted_repeated): which fields are printed has no influence on the parameters that are
reported, on the scores of a metric, or on what is written and removed. -/
theorem C121_partial (a : RunArgs π τ) (disk : List (List Str)) (fields : List Str)
    (hd : ∀ seeds, a.seeds = .many seeds → a.printFields.Nodup ∧ fields.Nodup) {fin fin' : Final π}
    (h : (a.main disk).value = .ok fin)
    (h' : (({ a with printFields := fields } : RunArgs π τ).main disk).value = .ok fin') :
    fin.params = fin'.params ∧ Agree fin.dev fin'.dev ∧ Agree fin.test fin'.test ∧
      (a.main disk).events = (({ a with printFields := fields } : RunArgs π τ).main disk).events := by
  obtain ⟨train, ht⟩ := a.main_trainer h
  have key : (a.main disk).Sim (fun x y => x.params = y.params ∧ Agree x.dev y.dev ∧ Agree x.test y.test)
      ((a.printing fields).main disk) := by
    unfold RunArgs.main
    have e1 : (a.printing fields).trainer = a.trainer := rfl
    have e2 : (a.printing fields).deleteAfter = a.deleteAfter := rfl
    have e3 : (a.printing fields).modelDir = a.modelDir := rfl
    have e4 : (a.printing fields).hyperparams = a.hyperparams := rfl
    rw [e1, e2, e3, e4, ht]
    split
    · exact .lift (fun _ _ h => by cases h)
    · refine .bind (R := PickAgree) (.loop ?_ ⟨rfl, rfl, rfl, trivial⟩ _) ?_
      · intro st st' p hst
        refine .bind (R := fun x y => x.1 = y.1 ∧ Agree x.2 y.2) ?_ ?_
        · unfold RunArgs.candidate
          rw [hst.1]
          refine .bind (a.evaluateParams_sim hd train p _) ?_
          intro x y hxy
          exact .pure ⟨by rw [hxy.1], hxy.2⟩
        · rintro ⟨c, s⟩ ⟨c', s'⟩ ⟨rfl, hs⟩
          exact a.choose_sim fields _ hst c hs
      · intro st st' hst
        refine .bind (R := fun _ _ => True) (.lift (fun _ _ _ _ => trivial)) (fun _ _ _ => ?_)
        rw [← hst.2.1]
        refine .bind (a.testScores_sim hd _) ?_
        intro t t' htt
        refine .bind (R := fun _ _ => True) (.same _ (fun _ _ => trivial)) (fun _ _ _ => ?_)
        exact .pure ⟨rfl, hst.2.2.2, htt⟩
  obtain ⟨⟨k1, k2, k3⟩, k4⟩ := key fin fin' h h'
  exact ⟨k1, k2, k3, k4⟩

/-- The metrics of a list have the same scores, or are missing in both. -/
def AgreeOn (ms : List Str) : Option ScoreTable → Option ScoreTable → Prop
  | none, none => True
  | some t, some t' => ∀ m ∈ ms, t'.get? m = t.get? m
  | _, _ => False

theorem AgreeOn.rfl' (ms : List Str) : ∀ t : Option ScoreTable, AgreeOn ms t t
  | none => trivial
  | some _ => fun _ _ => rfl

theorem AgreeOn.mono {ms ms' : List Str} (hsub : ms' ⊆ ms) {t t' : Option ScoreTable} (h : AgreeOn ms t t') :
    AgreeOn ms' t t' := by
  match t, t', h with
  | none, none, _ => trivial
  | some _, some _, h => exact fun m hm => h m (hsub hm)

theorem AgreeOn.scoreSum {fields : List Str} {metric : Str} {t t' : Option ScoreTable} (h : AgreeOn fields t t') :
    scoreSum fields metric t' = scoreSum fields metric t := by
  match t, t', h with
  | none, none, _ => rfl
  | some t, some t', (h : ∀ m ∈ fields, t'.get? m = t.get? m) =>
    simp only [Verif.scoreSum]
    generalize (0 : Rat) = z
    rename_i h0
    clear h0
    induction fields generalizing z with
    | nil => rfl
    | cons f fs ih =>
      have h1 : scoreAdd metric t' z f = scoreAdd metric t z f := by
        unfold scoreAdd; rw [h f (by simp)]
      simp only [forM', h1]
      cases scoreAdd metric t z f with
      | error e => rfl
      | ok z1 => exact ih (fun m hm => h m (by simp [hm])) z1

theorem AgreeOn.isBetter {fields : List Str} {metric : Str} {new new' old old' : Option ScoreTable}
    (hn : AgreeOn fields new new') (ho : AgreeOn fields old old') :
    isBetter (scoreBetter fields metric) new' old' = isBetter (scoreBetter fields metric) new old := by
  match old, old', ho with
  | none, none, _ => rfl
  | some o, some o', ho =>
    simp only [Verif.isBetter, scoreBetter, hn.scoreSum, AgreeOn.scoreSum (t := some o) (t' := some o') ho]

theorem printMetrics_ok_iff {fields : List Str} {t : Option ScoreTable} : printMetrics fields t = .ok () ↔
    ∀ m ∈ fields, ∃ x, t = some x ∧ (x.get? m).isSome := by
  unfold printMetrics
  induction fields with
  | nil => simp [forM']
  | cons f fs ih =>
    have h1 : printMetric t () f = .ok () ↔ ∃ x, t = some x ∧ (x.get? f).isSome := by
      unfold printMetric
      cases t with
      | none => simp
      | some x =>
        unfold Dict.getItem
        cases hx : x.get? f <;> simp [hx]
    simp only [forM', List.forall_mem_cons, ← h1, ← ih]
    cases printMetric t () f with
    | error e => simp
    | ok u => simp

theorem print_fwd {ps fs : List Str} (hsub : fs ⊆ ps) {t t' : Option ScoreTable} (h : AgreeOn fs t t') :
    (Tr.lift (printMetrics ps t)).Fwd (fun _ _ => True) (Tr.lift (printMetrics fs t')) := by
  refine .lift (fun u hu => ⟨(), ?_, trivial⟩)
  rw [printMetrics_ok_iff] at hu ⊢
  intro m hm
  obtain ⟨x, rfl, hx⟩ := hu m (hsub hm)
  match t', h with
  | some y, h => exact ⟨y, rfl, by rw [h m hm]; exact hx⟩

theorem average_fwd {ps fs : List Str} (hsub : fs ⊆ ps) (hn : ps.Nodup) (hn' : fs.Nodup)
    {rs : List (Option ScoreTable)} {x : ScoreTable} (hx : averageScores ps rs = .ok x) :
    ∃ y, averageScores fs rs = .ok y ∧ AgreeOn fs (some x) (some y) := by
  have hex : ∃ y, averageScores fs rs = .ok y := by
    rw [C52_succeeds_iff]
    rcases (C52_succeeds_iff ps rs).1 ⟨x, hx⟩ with rfl | ⟨h1, h2⟩
    · exact .inl (List.subset_nil.1 hsub)
    · right
      refine ⟨fun sc hsc => ?_, fun m hm => h2 m (hsub hm)⟩
      obtain ⟨t, ht, h3⟩ := h1 sc hsc
      exact ⟨t, ht, fun m hm => h3 m (hsub hm)⟩
  obtain ⟨y, hy⟩ := hex
  refine ⟨y, hy, fun m hm => ?_⟩
  obtain ⟨_, r, _, h1, _⟩ := (C52_value_partial hx m).2 (hsub hm)
  obtain ⟨_, r', _, h2, _⟩ := (C52_value_partial hy m).2 hm
  rw [h1, h2, agree_average hn hn' hx hy m r r' h1 h2]

theorem RunArgs.choose_fwd (a : RunArgs π τ) (fs : List Str) {ms : List Str} (hc : a.cmpFields ⊆ ms)
    (pathOf : Nat → List Str) {st st' : Pick μ}
    (h : st.index = st'.index ∧ st.best = st'.best ∧ st.path = st'.path ∧ AgreeOn ms st.scores st'.scores)
    (cand : μ) {scores scores' : Option ScoreTable} (hs : AgreeOn ms scores scores') :
    (a.choose pathOf st cand scores).Fwd (fun st st' => st.index = st'.index ∧ st.best = st'.best ∧
      st.path = st'.path ∧ AgreeOn ms st.scores st'.scores)
      ((a.printing fs).choose pathOf st' cand scores') := by
  obtain ⟨h1, h2, h3, h4⟩ := h
  obtain ⟨i, b, sc, p⟩ := st
  obtain ⟨i', b', sc', p'⟩ := st'
  simp only at h1 h2 h3 h4
  subst h1; subst h2; subst h3
  refine .bind (R := Eq) (.lift (fun u hu => ⟨u, ?_, rfl⟩)) ?_
  · exact ((hs.mono hc).isBetter (h4.mono hc)).trans hu
  rintro u _ rfl
  split
  · exact .bind (R := fun _ _ => True) (.same _ (fun _ _ => trivial))
      (fun _ _ _ => .pure ⟨rfl, rfl, rfl, hs⟩)
  · exact .bind (R := fun _ _ => True) (.same _ (fun _ _ => trivial))
      (fun _ _ _ => .pure ⟨rfl, rfl, rfl, h4⟩)

theorem RunArgs.single_fwd (a : RunArgs π τ) {fs : List Str} (hsub : fs ⊆ a.printFields)
    (train : Str → π → List (Round τ)) (params : π) (path : List Str) (seed : Str) :
    (a.single train params path seed).Fwd Eq ((a.printing fs).single train params path seed) := by
  refine .bind (R := Eq) (.loop ?_ rfl _) ?_
  · rintro st _ r rfl
    refine .bind (R := Eq) ?_ ?_
    · refine .bind (R := Eq) (.same _ (fun _ _ => rfl)) (fun _ _ _ => .bind (R := Eq) (.same _ (fun _ _ => rfl))
        (fun _ _ _ => .bind (R := Eq) (.same _ (fun _ _ => rfl)) ?_))
      rintro x _ rfl
      exact .bind (print_fwd hsub (.rfl' fs _)) (fun _ _ _ => .pure rfl)
    · rintro y _ rfl
      exact .same _ (fun _ _ => rfl)
  · rintro st _ rfl
    exact .bind (print_fwd hsub (.rfl' fs _)) (fun _ _ _ => .pure rfl)

/-- C121: leaving out fields never makes a run fail if the fields that are compared are still printed (with a
single seed they need not be); the report and the effects are the same. -/
theorem C121_fewer_partial (a : RunArgs π τ) (disk : List (List Str)) {fields : List Str}
    (hsub : fields ⊆ a.printFields)
    (hd : ∀ seeds, a.seeds = .many seeds → a.printFields.Nodup ∧ fields.Nodup ∧ a.cmpFields ⊆ fields)
    {fin : Final π} (h : (a.main disk).value = .ok fin) :
    ∃ fin', (({ a with printFields := fields } : RunArgs π τ).main disk).value = .ok fin' ∧
      fin'.params = fin.params ∧ Agree fin.dev fin'.dev ∧ Agree fin.test fin'.test ∧
      (({ a with printFields := fields } : RunArgs π τ).main disk).events = (a.main disk).events := by
  suffices hs : ∃ fin', ((a.printing fields).main disk).value = .ok fin' by
    obtain ⟨fin', h'⟩ := hs
    obtain ⟨k1, k2, k3, k4⟩ := C121_partial a disk fields (fun s hs => ⟨(hd s hs).1, (hd s hs).2.1⟩) h h'
    exact ⟨fin', h', k1.symm, k2, k3, k4.symm⟩
  obtain ⟨train, ht⟩ := a.main_trainer h
  suffices key : (a.main disk).Fwd (fun _ _ => True) ((a.printing fields).main disk) by
    obtain ⟨v, hv, _⟩ := key fin h
    exact ⟨v, hv⟩
  unfold RunArgs.main
  have e1 : (a.printing fields).trainer = a.trainer := rfl
  have e2 : (a.printing fields).deleteAfter = a.deleteAfter := rfl
  have e3 : (a.printing fields).modelDir = a.modelDir := rfl
  have e4 : (a.printing fields).hyperparams = a.hyperparams := rfl
  have e5 : (a.printing fields).seeds = a.seeds := rfl
  have e6 : (a.printing fields).test = a.test := rfl
  rw [e1, e2, e3, e4, ht]
  split
  · exact .lift (fun _ h => by cases h)
  · refine .bind (R := fun st st' => st.index = st'.index ∧ st.best = st'.best ∧
      st.path = st'.path ∧ AgreeOn (fields ++ a.cmpFields) st.scores st'.scores)
      (.loop ?_ ⟨rfl, rfl, rfl, trivial⟩ _) ?_
    · intro st st' p hst
      refine .bind (R := fun x y => x.1 = y.1 ∧ AgreeOn (fields ++ a.cmpFields) x.2 y.2) ?_ ?_
      · unfold RunArgs.candidate
        rw [hst.1]
        refine .bind (R := fun x y => x.1 = y.1 ∧ AgreeOn (fields ++ a.cmpFields) x.2 y.2) ?_ ?_
        · unfold RunArgs.evaluateParams
          rw [e5]
          cases hs : a.seeds with
          | one s =>
            refine .bind (a.single_fwd hsub train p _ s) ?_
            rintro x _ rfl
            exact .pure ⟨rfl, .rfl' _ _⟩
          | many ss =>
            obtain ⟨d1, d2, d3⟩ := hd ss hs
            refine .bind (.mapM (a.single_fwd hsub train p _) ss) ?_
            rintro rs _ rfl
            refine .bind (R := fun x y => AgreeOn (fields ++ a.cmpFields) (some x) (some y)) (.lift ?_) ?_
            · intro x hx
              obtain ⟨y, hy, hxy⟩ := average_fwd hsub d1 d2 hx
              exact ⟨y, hy, hxy.mono (List.append_subset.2 ⟨List.Subset.refl _, d3⟩)⟩
            · intro x y hxy
              exact .bind (print_fwd hsub (hxy.mono (List.subset_append_left _ _)))
                (fun _ _ _ => .pure ⟨rfl, hxy⟩)
        · intro x y hxy
          exact .pure ⟨by rw [hxy.1], hxy.2⟩
      · rintro ⟨c, s⟩ ⟨c', s'⟩ ⟨rfl, hs⟩
        exact a.choose_fwd fields (List.subset_append_right _ _) _ hst c hs
    · intro st st' hst
      refine .bind (print_fwd hsub (hst.2.2.2.mono (List.subset_append_left _ _))) (fun _ _ _ => ?_)
      rw [← hst.2.1]
      refine .bind (R := fun _ _ => True) ?_ ?_
      · unfold RunArgs.testScores
        rw [e6]
        cases ht : a.test with
        | none => exact .pure trivial
        | some test =>
          refine .bind (R := fun x y => AgreeOn fields (some x) (some y)) ?_ (fun x y hxy =>
            .bind (print_fwd hsub hxy) (fun _ _ _ => .pure trivial))
          unfold RunArgs.finalTest
          cases st.best with
          | none => exact .lift (fun _ h => by cases h)
          | some b =>
            simp only [e5]
            cases hs : a.seeds with
            | one s =>
              cases b.2 with
              | nil => exact .lift (fun _ h => by cases h)
              | cons m ms => exact .same _ (fun u _ => .rfl' _ (some u))
            | many ss =>
              obtain ⟨d1, d2, d3⟩ := hd ss hs
              refine .bind (R := Eq) (.same _ (fun _ _ => rfl)) ?_
              rintro ts _ rfl
              exact .lift (fun x hx => average_fwd hsub d1 d2 hx)
      · intro t t' _
        exact .bind (R := fun _ _ => True) (.same _ (fun _ _ => trivial)) (fun _ _ _ => .pure trivial)

namespace Demo

/-- A table with two scores. -/
def tab2 (x y : Rat) : ScoreTable :=
  Dict.ofList [("UPOS".toList, ⟨x, x, x, some x⟩), ("Lemmas".toList, ⟨y, y, y, some y⟩)]

/-- Two parameter sets, the second with better lemmas and worse tags. -/
def printRun (seeds : Seeds) (fields cmp : List Str) : RunArgs Bool Nat where
  modelDir := ["models".toList]
  deleteAfter := true
  seeds := seeds
  printFields := fields
  cmpFields := cmp
  cmpMetric := "f1".toList
  devResults := none
  trainer := some (fun _ p => [⟨true, true, .ok (some (if p then tab2 (1 / 2) (3 / 4) else tab2 (5 / 8) (1 / 2)), 10)⟩])
  testResults := none
  test := some (fun _ => (true, .ok (tab2 1 1)))
  hyperparams := .inr [false, true]

end Demo

/-- C121 is false in general: with several seeds a field that is compared but not printed makes the search fail
after the second parameter set has been trained; printing it as well, or a single seed, avoids that. -/
theorem C121_refuted : ∃ a : RunArgs Bool Nat, ∃ fields : List Str,
    (a.main []).value.map (·.params) = .error .attribute ∧ a.cmpFields ≠ [] ∧
    ((({ a with printFields := fields } : RunArgs Bool Nat).main []).value.toOption.map (·.params)) =
      some (some true) ∧
    ((({ a with seeds := .one "1".toList } : RunArgs Bool Nat).main []).value.toOption.map (·.params)) =
      some (some true) :=
  ⟨Demo.printRun (.many ["1".toList, "2".toList]) ["UPOS".toList] ["Lemmas".toList],
    ["UPOS".toList, "Lemmas".toList], by decide +kernel⟩

/-- C121 is false also for runs that succeed: a field that is listed twice for printing counts twice when the
parameter sets are compared, so other parameters are reported. -/
theorem C121_refuted_repeated : ∃ a : RunArgs Bool Nat, ∃ fields : List Str,
    ((a.main []).value.toOption.map (·.params)) = some (some true) ∧
    ((({ a with printFields := fields } : RunArgs Bool Nat).main []).value.toOption.map (·.params)) =
      some (some false) ∧ (∀ m, m ∈ fields ↔ m ∈ a.printFields) := by
  refine ⟨Demo.printRun (.many ["1".toList, "2".toList]) ["UPOS".toList, "Lemmas".toList]
    ["UPOS".toList, "Lemmas".toList], ["UPOS".toList, "UPOS".toList, "UPOS".toList, "Lemmas".toList],
    by decide +kernel, by decide +kernel, ?_⟩
  intro m
  simp [Demo.printRun]

/-- The hypotheses can be met: both runs succeed, one prints less. -/
example : ((Demo.printRun (.many ["1".toList, "2".toList]) ["UPOS".toList, "Lemmas".toList]
      ["Lemmas".toList]).main []).value.toOption.isSome = true ∧
    ((Demo.printRun (.many ["1".toList, "2".toList]) ["Lemmas".toList] ["Lemmas".toList]).main []).value.toOption.map
      (fun f => (f.params, f.dev)) = some (some true,
        some (Dict.ofList [("Lemmas".toList, ⟨3 / 4, 3 / 4, 3 / 4, some (3 / 4)⟩)])) := by decide +kernel

end Verif
