import Verif.Spec.RunSucceeds
import Verif.Props.EvalRun
import Verif.Props.Evaluation
import Verif.Props.WrapperState

/-!
# Property C143: when an evaluation run ends with a report
-/

namespace Verif

variable {π τ α β : Type}

/-- The computation does not raise, and its value has the property. -/
def Tr.Ends (P : α → Prop) (x : Tr α) : Prop := ∃ a, x.value = .ok a ∧ P a

theorem Tr.Ends.pure {P : α → Prop} {a : α} (h : P a) : (Tr.pure a).Ends P := ⟨a, rfl, h⟩

theorem Tr.Ends.lift {P : α → Prop} {r : Res α} {a : α} (hr : r = .ok a) (h : P a) : (Tr.lift r).Ends P := ⟨a, hr, h⟩

theorem Tr.Ends.tell {P : Unit → Prop} {evs : List Ev} (h : P ()) : (Tr.tell evs).Ends P := ⟨(), rfl, h⟩

theorem Tr.Ends.bind {P : α → Prop} {Q : β → Prop} {x : Tr α} {f : α → Tr β} (hx : x.Ends P)
    (hf : ∀ a, P a → (f a).Ends Q) : (x.bind f).Ends Q := by
  obtain ⟨a, h1, h2⟩ := hx
  obtain ⟨b, h3, h4⟩ := hf a h2
  exact ⟨b, by rw [Tr.bind_ok h1]; exact h3, h4⟩

theorem Tr.Ends.mapM {P : α → β → Prop} {f : α → Tr β} {l : List α} (hf : ∀ a ∈ l, (f a).Ends (P a)) :
    (Tr.mapM f l).Ends (List.Forall₂ P l) := by
  induction l with
  | nil => exact .pure .nil
  | cons a l ih =>
    refine .bind (hf a (by simp)) (fun b hb => .bind (ih (fun x hx => hf x (by simp [hx]))) (fun bs hbs => ?_))
    exact .pure (.cons hb hbs)

theorem RunArgs.dispose_ends (a : RunArgs π τ) (paths : List (List Str)) : (a.dispose paths).Ends (fun _ => True) := by
  unfold RunArgs.dispose
  split
  · exact .tell trivial
  · exact .pure trivial

theorem writeFile_ends (results : Option (List Str)) (did : Bool) (path : List Str) :
    (writeFile results did path).Ends (fun _ => True) := .tell trivial

/-- The search has a candidate. -/
def HasPick {μ : Type} (G : μ → Prop) (T : ScoreTable → Prop) (st : Pick μ) : Prop :=
  ∃ m t, st.best = some m ∧ G m ∧ st.scores = some t ∧ T t

theorem RunArgs.choose_first (a : RunArgs π τ) {μ : Type} {G : μ → Prop} {T : ScoreTable → Prop}
    {pathOf : Nat → List Str} {st : Pick μ} (hst : st.scores = none) {m : μ} {t : ScoreTable} (hm : G m) (ht : T t) :
    (a.choose pathOf st m (some t)).Ends (HasPick G T) := by
  unfold RunArgs.choose
  rw [hst]
  refine .bind (.lift (P := fun b => b = true) rfl rfl) (fun b hb => ?_)
  subst hb
  rw [if_pos rfl]
  exact .bind (a.dispose_ends _) (fun _ _ => .pure ⟨m, t, rfl, hm, rfl, ht⟩)

theorem scoreBetter_total {fields : List Str} {metric : Str} {t t' : ScoreTable} (h : HasTotal fields metric t)
    (h' : HasTotal fields metric t') : ∃ b, scoreBetter fields metric (some t) (some t') = .ok b := by
  obtain ⟨v, hv⟩ := h
  obtain ⟨w, hw⟩ := h'
  refine ⟨decide (w < v), ?_⟩
  unfold scoreBetter
  rw [(scoreSum_ok).2 hv, (scoreSum_ok).2 hw]

theorem RunArgs.choose_next (a : RunArgs π τ) {μ : Type} {G : μ → Prop} {T : ScoreTable → Prop}
    (hT : ∀ t, T t → HasTotal a.cmpFields a.cmpMetric t)
    {pathOf : Nat → List Str} {st : Pick μ} (hst : HasPick G T st) {m : μ} {t : ScoreTable} (hm : G m) (ht : T t) :
    (a.choose pathOf st m (some t)).Ends (HasPick G T) := by
  obtain ⟨m0, t0, h1, h2, h3, h4⟩ := hst
  unfold RunArgs.choose
  rw [h3]
  obtain ⟨b, hb⟩ := scoreBetter_total (hT t ht) (hT t0 h4)
  refine .bind (.lift (P := fun _ => True) hb trivial) (fun b _ => ?_)
  split
  · exact .bind (a.dispose_ends _) (fun _ _ => .pure ⟨m, t, rfl, hm, rfl, ht⟩)
  · exact .bind (a.dispose_ends _) (fun _ _ => .pure ⟨m0, t0, h1, h2, rfl, h4⟩)

/-- A search succeeds if every candidate can be made, and any two can be compared. -/
theorem RunArgs.search_ends (a : RunArgs π τ) {μ α : Type} {G : μ → Prop} {T : ScoreTable → Prop}
    {pathOf : Nat → List Str} {make : Nat → α → Tr (μ × Option ScoreTable)} {l : List α} (hne : l ≠ [])
    (hmake : ∀ i, ∀ x ∈ l, (make i x).Ends (fun y => G y.1 ∧ ∃ t, y.2 = some t ∧ T t))
    (hT : 2 ≤ l.length → ∀ t, T t → HasTotal a.cmpFields a.cmpMetric t) :
    (Tr.loop (a.tryOne pathOf make) {} l).Ends (HasPick G T) := by
  cases l with
  | nil => exact absurd rfl hne
  | cons x l =>
    rw [Tr.loop]
    refine .bind (P := HasPick G T) ?_ ?_
    · unfold RunArgs.tryOne
      refine .bind (hmake _ x (by simp)) (fun y hy => ?_)
      obtain ⟨h1, t, h2, h3⟩ := hy
      rw [h2]
      exact a.choose_first rfl h1 h3
    · intro st hst
      cases l with
      | nil => exact .pure hst
      | cons x' l' =>
        have hT' := hT (by simp)
        have key : ∀ l2 : List α, (∀ z ∈ l2, z ∈ x' :: l') → ∀ st, HasPick G T st →
            (Tr.loop (a.tryOne pathOf make) st l2).Ends (HasPick G T) := by
          intro l2
          induction l2 with
          | nil => exact fun _ st hst => .pure hst
          | cons z l2 ih =>
            intro hz st hst
            rw [Tr.loop]
            refine .bind (P := HasPick G T) ?_ (fun st' h' => ih (fun y hy => hz y (by simp [hy])) st' h')
            unfold RunArgs.tryOne
            refine .bind (hmake _ z (List.mem_cons_of_mem _ (hz z (by simp)))) (fun y hy => ?_)
            obtain ⟨h1, t, h2, h3⟩ := hy
            rw [h2]
            exact a.choose_next hT' hst h1 h3
        exact key _ (fun z h => h) st hst

/-! ### The tables of testers -/

theorem FromTester.get {t : ScoreTable} (h : FromTester t) {f : Str} (hf : f ∈ reported) :
    ∃ s, t.get? f = some s ∧ (f ∈ withAccuracy → ∃ v, s.aligned = some v) ∧ (f ∉ withAccuracy → s.aligned = none) := by
  obtain ⟨lower, gold, sys, m, h, rfl⟩ := h
  have hm : ∃ matched, m = metricsOf gold sys matched none := by
    unfold evaluate at h
    split at h
    · cases h
    · split at h
      · cases h
      · split at h
        · cases h
        · injection h with h
          exact ⟨_, h.symm⟩
  obtain ⟨matched, rfl⟩ := hm
  rw [table_assoc]
  have n1 : "Tokens".toList ∉ withAccuracy := by decide +kernel
  have n2 : "Sentences".toList ∉ withAccuracy := by decide +kernel
  have n3 : "Words".toList ∉ withAccuracy := by decide +kernel
  have y1 : "UPOS".toList ∈ withAccuracy := by decide +kernel
  have y2 : "XPOS".toList ∈ withAccuracy := by decide +kernel
  have y3 : "Feats".toList ∈ withAccuracy := by decide +kernel
  have y4 : "AllTags".toList ∈ withAccuracy := by decide +kernel
  have y5 : "Lemmas".toList ∈ withAccuracy := by decide +kernel
  have y6 : "UAS".toList ∈ withAccuracy := by decide +kernel
  have y7 : "LAS".toList ∈ withAccuracy := by decide +kernel
  have y8 : "CLAS".toList ∈ withAccuracy := by decide +kernel
  simp only [reported, List.map_cons, List.map_nil, List.mem_cons, List.not_mem_nil, or_false] at hf
  rcases hf with rfl | rfl | rfl | rfl | rfl | rfl | rfl | rfl | rfl | rfl | rfl
  · exact ⟨_, rfl, fun h => absurd h n1, fun _ => rfl⟩
  · exact ⟨_, rfl, fun h => absurd h n2, fun _ => rfl⟩
  · exact ⟨_, rfl, fun h => absurd h n3, fun _ => rfl⟩
  · exact ⟨_, rfl, fun _ => ⟨_, rfl⟩, fun h => absurd y1 h⟩
  · exact ⟨_, rfl, fun _ => ⟨_, rfl⟩, fun h => absurd y2 h⟩
  · exact ⟨_, rfl, fun _ => ⟨_, rfl⟩, fun h => absurd y3 h⟩
  · exact ⟨_, rfl, fun _ => ⟨_, rfl⟩, fun h => absurd y4 h⟩
  · exact ⟨_, rfl, fun _ => ⟨_, rfl⟩, fun h => absurd y5 h⟩
  · exact ⟨_, rfl, fun _ => ⟨_, rfl⟩, fun h => absurd y6 h⟩
  · exact ⟨_, rfl, fun _ => ⟨_, rfl⟩, fun h => absurd y7 h⟩
  · exact ⟨_, rfl, fun _ => ⟨_, rfl⟩, fun h => absurd y8 h⟩

theorem total_of {fields : List Str} {metric : Str} {t : ScoreTable}
    (h : ∀ f ∈ fields, ∃ s v, t.get? f = some s ∧ AttrIs metric s v) : HasTotal fields metric t := by
  induction fields with
  | nil => exact ⟨0, [], .nil, rfl⟩
  | cons f fs ih =>
    obtain ⟨v, vs, h1, _⟩ := ih (fun g hg => h g (by simp [hg]))
    obtain ⟨s, w, h2, h3⟩ := h f (by simp)
    exact ⟨(w :: vs).sum, w :: vs, .cons ⟨s, h2, h3⟩ h1, rfl⟩

theorem accuracy_reported : ∀ f ∈ withAccuracy, f ∈ reported := by decide +kernel

/-- The number that is compared exists in a score that has an aligned accuracy. -/
theorem RunArgs.Named.attr {a : RunArgs π τ} (h : a.Named) {s : Score} {v : Rat} (hs : s.aligned = some v) :
    ∃ w, AttrIs a.cmpMetric s w := by
  rcases h.compared with ⟨_, h⟩ | ⟨_, h⟩
  · simp only [List.map_cons, List.map_nil, List.mem_cons, List.not_mem_nil, or_false] at h
    rcases h with h | h | h <;> rw [h]
    · exact ⟨_, .precision s⟩
    · exact ⟨_, .recall s⟩
    · exact ⟨_, .f1 s⟩
  · rw [h]
    exact ⟨v, .aligned s v hs⟩

theorem FromTester.total {a : RunArgs π τ} (hn : a.Named) {t : ScoreTable} (ht : FromTester t) :
    HasTotal a.cmpFields a.cmpMetric t := by
  refine total_of (fun f hf => ?_)
  rcases hn.compared with ⟨h1, h2⟩ | ⟨h1, h2⟩
  · obtain ⟨s, hs, _⟩ := ht.get (h1 f hf)
    simp only [List.map_cons, List.map_nil, List.mem_cons, List.not_mem_nil, or_false] at h2
    rcases h2 with h2 | h2 | h2 <;> rw [h2]
    · exact ⟨s, _, hs, .precision s⟩
    · exact ⟨s, _, hs, .recall s⟩
    · exact ⟨s, _, hs, .f1 s⟩
  · obtain ⟨s, hs, hv, _⟩ := ht.get (accuracy_reported f (h1 f hf))
    obtain ⟨v, hv⟩ := hv (h1 f hf)
    rw [h2]
    exact ⟨s, v, hs, .aligned s v hv⟩

theorem FromTester.prints {a : RunArgs π τ} (hn : a.Named) {t : ScoreTable} (ht : FromTester t) :
    printMetrics a.printFields (some t) = .ok () := by
  rw [printMetrics_ok]
  intro f hf
  obtain ⟨s, hs, _⟩ := ht.get (hn.printed f hf)
  exact ⟨t, s, rfl, hs⟩

/-- Averages of the tables of testers exist iff all printed metrics have an aligned accuracy. -/
theorem average_tester {a : RunArgs π τ} (hn : a.Named) {ts : List ScoreTable} (hne : ts ≠ [])
    (hts : ∀ t ∈ ts, FromTester t) :
    ((∀ f ∈ a.printFields, f ∈ withAccuracy) → ∃ res, averageScores a.printFields (ts.map some) = .ok res ∧
      res.keys = a.printFields ∧ ∀ f ∈ a.printFields, ∃ s v, res.get? f = some s ∧ s.aligned = some v) ∧
    ((∃ f ∈ a.printFields, f ∉ withAccuracy) → averageScores a.printFields (ts.map some) = .error .type) := by
  have hx : List.Forall₂ (fun (sc : Option ScoreTable) (x : Str → Score) => ∃ t, sc = some t ∧
      ∀ m ∈ a.printFields, t.get? m = some (x m)) (ts.map some)
      (ts.map (fun t k => (t.get? k).getD ⟨0, 0, 0, none⟩)) := by
    rw [List.forall₂_map_left_iff, List.forall₂_map_right_iff, List.forall₂_same]
    intro t ht
    refine ⟨t, rfl, fun k hk => ?_⟩
    obtain ⟨s, hs, _⟩ := (hts t ht).get (hn.printed k hk)
    simp only [hs, Option.getD_some]
  obtain ⟨h1, h2⟩ := averageScores_cases hn.once (by simpa using hne) hx
  constructor
  · intro hal
    obtain ⟨res, h3, h4, h5⟩ := h1 (by
      intro m hm h0
      rw [List.filterMap_eq_nil_iff] at h0
      obtain ⟨t, ht⟩ := List.exists_mem_of_ne_nil _ hne
      have := h0 ((t.get? m).getD ⟨0, 0, 0, none⟩) (by
        rw [List.map_map]
        exact List.mem_map.2 ⟨t, ht, rfl⟩)
      obtain ⟨s, hs, hv, _⟩ := (hts t ht).get (hn.printed m hm)
      obtain ⟨v, hv⟩ := hv (hal m hm)
      rw [hs] at this
      change s.aligned = none at this
      rw [hv] at this
      cases this)
    exact ⟨res, h3, h4, fun f hf => ⟨_, _, h5 f hf, rfl⟩⟩
  · rintro ⟨m, hm, hno⟩
    refine h2 ⟨m, hm, ?_⟩
    rw [List.filterMap_eq_nil_iff]
    intro v hv
    rw [List.map_map] at hv
    obtain ⟨t, ht, rfl⟩ := List.mem_map.1 hv
    obtain ⟨s, hs, _, hv⟩ := (hts t ht).get (hn.printed m hm)
    change ((t.get? m).getD _).aligned = none
    rw [hs]
    exact hv hno

/-! ### The run -/

theorem RunArgs.single_ends {a : RunArgs π τ} (hn : a.Named) {train : Str → π → List (Round τ)} {p : π} {path : List Str}
    {s : Str} (hne : train s p ≠ [])
    (hy : ∀ r ∈ train s p, ∃ t tagger, r.outcome = .ok (some t, tagger) ∧ FromTester t) :
    (a.single train p path s).Ends (fun y => ∃ t, y.2 = some t ∧ FromTester t) := by
  unfold RunArgs.single
  refine .bind (P := HasPick (fun _ => True) FromTester) ?_ ?_
  · refine a.search_ends hne (fun i r hr => ?_) (fun _ t ht => ht.total hn)
    obtain ⟨t, tagger, h1, h2⟩ := hy r hr
    unfold RunArgs.round
    refine .bind (P := fun _ => True) (.tell trivial) (fun _ _ => .bind (writeFile_ends _ _ _) (fun _ _ => ?_))
    refine .bind (P := fun y => y = (some t, tagger)) (.lift h1 rfl) (fun y hy => ?_)
    subst hy
    exact .bind (P := fun _ => True) (.lift (h2.prints hn) trivial) (fun _ _ => .pure ⟨trivial, t, rfl, h2⟩)
  · rintro st ⟨m, t, _, _, h3, h4⟩
    rw [h3]
    exact .bind (P := fun _ => True) (.lift (h4.prints hn) trivial) (fun _ _ => .pure ⟨t, rfl, h4⟩)

/-- A table that the estimator compares. -/
def RunArgs.Shown (a : RunArgs π τ) (t : ScoreTable) : Prop :=
  match a.seeds with
  | .one _ => FromTester t
  | .many _ => t.keys = a.printFields ∧ ∀ f ∈ a.printFields, ∃ s v, t.get? f = some s ∧ s.aligned = some v

theorem RunArgs.shown_one {a : RunArgs π τ} {seed : Str} (h : a.seeds = .one seed) {t : ScoreTable} (ht : FromTester t) :
    a.Shown t := by
  unfold RunArgs.Shown
  rw [h]
  exact ht

theorem RunArgs.shown_many {a : RunArgs π τ} {ss : List Str} (h : a.seeds = .many ss) {t : ScoreTable}
    (ht : t.keys = a.printFields ∧ ∀ f ∈ a.printFields, ∃ s v, t.get? f = some s ∧ s.aligned = some v) : a.Shown t := by
  unfold RunArgs.Shown
  rw [h]
  exact ht

theorem RunArgs.Shown.prints {a : RunArgs π τ} (hn : a.Named) {t : ScoreTable} (ht : a.Shown t) :
    printMetrics a.printFields (some t) = .ok () := by
  unfold RunArgs.Shown at ht
  split at ht
  · exact ht.prints hn
  · rw [printMetrics_ok]
    intro f hf
    obtain ⟨s, _, hs, _⟩ := ht.2 f hf
    exact ⟨t, s, rfl, hs⟩

/-- The settings for several seeds: averages exist, and whatever is compared is in them. -/
def RunArgs.Averages (a : RunArgs π τ) : Prop :=
  (∀ f ∈ a.printFields, f ∈ withAccuracy) ∧
    (2 ≤ (hyperList a.hyperparams).length → ∀ f ∈ a.cmpFields, f ∈ a.printFields)

theorem forall₂_tables {l : List α} {ys : List (β × Option ScoreTable)} {P : ScoreTable → Prop}
    (h : List.Forall₂ (fun _ (y : β × Option ScoreTable) => ∃ t, y.2 = some t ∧ P t) l ys) :
    ∃ ts : List ScoreTable, ys.map Prod.snd = ts.map some ∧ (∀ t ∈ ts, P t) ∧ ts.length = l.length := by
  induction h with
  | nil => exact ⟨[], rfl, by simp, rfl⟩
  | cons h1 _ ih =>
    obtain ⟨t, h2, h3⟩ := h1
    obtain ⟨ts, h4, h5, h6⟩ := ih
    refine ⟨t :: ts, by simp [h2, h4], ?_, by simp [h6]⟩
    intro x hx
    rcases List.mem_cons.1 hx with rfl | hx
    · exact h3
    · exact h5 x hx

theorem RunArgs.candidate_ends {a : RunArgs π τ} (hn : a.Named) {disk : List (List Str)}
    {train : Str → π → List (Round τ)} (hw : a.Works disk train) (hav : ∀ ss, a.seeds = .many ss → a.Averages) (i : Nat)
    {p : π} (hp : p ∈ hyperList a.hyperparams) :
    (a.candidate train i p).Ends (fun y => y.1.2 ≠ [] ∧ ∃ t, y.2 = some t ∧ a.Shown t) := by
  unfold RunArgs.candidate
  refine .bind (P := fun y => y.1 ≠ [] ∧ ∃ t, y.2 = some t ∧ a.Shown t) ?_ (fun y hy => .pure hy)
  have hsingle : ∀ s ∈ a.seeds.list, (a.single train p [paramsName i] s).Ends (fun y => ∃ t, y.2 = some t ∧ FromTester t) :=
    fun s hs => a.single_ends hn (hw.epochs s hs p hp) (hw.yields s hs p hp)
  rcases hss : a.seeds with seed | ss
  · simp only [RunArgs.evaluateParams, RunArgs.Shown, hss]
    have hseed := hss
    refine .bind (hsingle seed (by rw [hseed]; exact .head _)) (fun y hy => ?_)
    obtain ⟨t, h1, h2⟩ := hy
    exact .pure ⟨by simp, t, h1, h2⟩
  · simp only [RunArgs.evaluateParams, RunArgs.Shown, hss]
    have hlist : a.seeds.list = ss := by rw [hss]; rfl
    have hne := hw.seeds
    rw [hlist] at hsingle hne
    refine .bind (.mapM hsingle) (fun ys hys => ?_)
    obtain ⟨ts, h1, h2, h3⟩ := forall₂_tables hys
    have hts : ts ≠ [] := fun h0 => hne (by rw [h0] at h3; exact List.eq_nil_of_length_eq_zero h3.symm)
    obtain ⟨res, h4, h5, h6⟩ := (average_tester hn hts h2).1 (hav ss hss).1
    refine .bind (P := fun t => t = res) (.lift (by rw [h1]; exact h4) rfl) (fun t ht => ?_)
    subst ht
    refine .bind (P := fun _ => True) (.lift (a := ()) ?_ trivial) (fun _ _ => .pure ⟨?_, t, rfl, h5, h6⟩)
    · rw [printMetrics_ok]
      intro f hf
      obtain ⟨s, _, hs, _⟩ := h6 f hf
      exact ⟨t, s, rfl, hs⟩
    · intro h0
      have := hys.length_eq
      rw [List.map_eq_nil_iff.1 h0] at this
      exact hne (List.eq_nil_of_length_eq_zero this)

theorem testOne_ends {a : RunArgs π τ} {test : Option τ → Bool × Res ScoreTable}
    (ht : ∀ tagger, ∃ t, (test tagger).2 = .ok t ∧ FromTester t) (base : List Str) (tagger : Option τ) :
    (a.testOne base tagger test).Ends FromTester := by
  unfold RunArgs.testOne
  refine .bind (writeFile_ends _ _ _) (fun _ _ => ?_)
  obtain ⟨t, h1, h2⟩ := ht tagger
  exact .lift h1 h2

/-- Success, with the condition for several seeds. -/
theorem RunArgs.main_ends {a : RunArgs π τ} (hn : a.Named) {disk : List (List Str)}
    {train : Str → π → List (Round τ)} (hw : a.Works disk train) (hav : ∀ ss, a.seeds = .many ss → a.Averages) :
    (a.main disk).Ends (fun _ => True) := by
  have hno : (a.deleteAfter && hasContent disk a.modelDir) = false := by
    rw [Bool.and_eq_false_iff]
    cases hd : a.deleteAfter with
    | false => exact .inl rfl
    | true =>
      right
      rw [← Bool.not_eq_true, hasContent_iff]
      rintro ⟨p, h1, h2, h3⟩
      exact h3 (hw.folder hd p h1 h2)
  rw [RunArgs.main, if_neg (by simp [hno]), hw.trainer]
  refine .bind (P := HasPick (fun m => m.2 ≠ []) a.Shown) ?_ ?_
  · refine a.search_ends hw.params (fun i p hp => a.candidate_ends hn hw hav i hp) (fun h2 t ht => ?_)
    unfold RunArgs.Shown at ht
    split at ht
    · exact ht.total hn
    · rename_i ss hss
      refine total_of (fun f hf => ?_)
      obtain ⟨s, v, h3, h4⟩ := ht.2 f ((hav ss hss).2 h2 f hf)
      obtain ⟨w, hw⟩ := hn.attr h4
      exact ⟨s, w, h3, hw⟩
  · rintro st ⟨m, t, h1, h2, h3, h4⟩
    rw [h3, h1]
    refine .bind (P := fun _ => True) (.lift (h4.prints hn) trivial) (fun _ _ => ?_)
    refine .bind (P := fun _ => True) ?_ (fun _ _ => .bind (P := fun _ => True) ?_ (fun _ _ => .pure trivial))
    · unfold RunArgs.testScores
      cases htest : a.test with
      | none => exact .pure trivial
      | some test =>
        have ht := hw.tests test htest
        refine .bind (P := a.Shown) ?_ (fun t ht => .bind (P := fun _ => True) (.lift (ht.prints hn) trivial)
          (fun _ _ => .pure trivial))
        obtain ⟨mp, ml⟩ := m
        change ml ≠ [] at h2
        rcases hss : a.seeds with seed | ss
        · cases ml with
          | nil => exact absurd rfl h2
          | cons x xs =>
            simp only [RunArgs.finalTest, hss]
            obtain ⟨t, h5, h6⟩ := testOne_ends (a := a) ht x.1 x.2
            exact ⟨t, h5, a.shown_one hss h6⟩
        · simp only [RunArgs.finalTest, hss]
          refine .bind (.mapM (P := fun _ => FromTester) (fun m _ => testOne_ends ht _ _)) (fun ts hts => ?_)
          have hne : ts ≠ [] := fun h0 => by
            rw [h0] at hts
            exact h2 (List.forall₂_nil_right_iff.1 hts)
          have hall : ∀ t ∈ ts, FromTester t := by
            intro t ht
            obtain ⟨_, _, h⟩ := forall₂_mem_right hts ht
            exact h
          obtain ⟨res, h5, h6, h7⟩ := (average_tester hn hne hall).1 (hav ss hss).1
          exact .lift h5 (a.shown_many hss ⟨h6, h7⟩)
    · split
      · exact .tell trivial
      · exact .pure trivial

/-- Failure with several seeds, otherwise. -/
theorem RunArgs.main_averages {a : RunArgs π τ} (hn : a.Named) {disk : List (List Str)}
    {train : Str → π → List (Round τ)} (hw : a.Works disk train) {ss : List Str} (hss : a.seeds = .many ss) {fin : Final π}
    (h : (a.main disk).value = .ok fin) : a.Averages := by
  obtain ⟨st, _, hloop, _⟩ := a.main_ok hw.trainer h
  have hlist : a.seeds.list = ss := by rw [hss]; rfl
  have hne := hw.seeds
  rw [hlist] at hne
  -- what a candidate says
  have hcand : ∀ i, ∀ p ∈ hyperList a.hyperparams, ∀ y, (a.candidate train i p).value = .ok y →
      (∀ f ∈ a.printFields, f ∈ withAccuracy) ∧ ∃ t, y.2 = some t ∧ t.keys = a.printFields := by
    intro i p hp y hy
    obtain ⟨r, h1, rfl, _⟩ := a.candidate_value hy
    rw [RunArgs.evaluateParams, hss] at h1
    obtain ⟨ys, h2, h3, _⟩ := Tr.bind_value h1
    obtain ⟨ys', h4, h5⟩ := Tr.Ends.mapM (l := ss) (f := a.single train p [paramsName i])
      (P := fun _ y => ∃ t, y.2 = some t ∧ FromTester t)
      (fun s hs => a.single_ends hn (hw.epochs s (by rw [hlist]; exact hs) p hp) (hw.yields s (by rw [hlist]; exact hs) p hp))
    rw [h2] at h4
    injection h4 with h4
    subst h4
    obtain ⟨ts, k1, k2, k3⟩ := forall₂_tables h5
    have hts : ts ≠ [] := fun h0 => hne (by rw [h0] at k3; exact List.eq_nil_of_length_eq_zero k3.symm)
    obtain ⟨avg, h6, h7, _⟩ := Tr.bind_value h3
    obtain ⟨_, _, h8, _⟩ := Tr.bind_value h7
    injection h8 with h8
    subst h8
    change averageScores a.printFields (ys.map Prod.snd) = .ok avg at h6
    rw [k1] at h6
    obtain ⟨g1, g2⟩ := average_tester hn hts k2
    have hall : ∀ f ∈ a.printFields, f ∈ withAccuracy := by
      intro f hf
      by_contra hno
      rw [g2 ⟨f, hf, hno⟩] at h6
      cases h6
    obtain ⟨res, h9, h10, _⟩ := g1 hall
    rw [h6] at h9
    injection h9 with h9
    subst h9
    exact ⟨hall, avg, rfl, h10⟩
  cases hl : hyperList a.hyperparams with
  | nil => exact absurd hl hw.params
  | cons p ps =>
    rw [hl] at hloop
    rw [Tr.loop] at hloop
    obtain ⟨st1, h1, h2, _⟩ := Tr.bind_value hloop
    unfold RunArgs.paramsStep RunArgs.tryOne at h1
    obtain ⟨y, h3, h4, _⟩ := Tr.bind_value h1
    obtain ⟨hall, t, h5, h6⟩ := hcand _ p (by rw [hl]; simp) y h3
    refine ⟨hall, fun h2' => ?_⟩
    cases ps with
    | nil => rw [hl] at h2'; simp at h2'
    | cons p' ps =>
      have hst1 : st1.scores = some t := by
        unfold RunArgs.choose at h4
        obtain ⟨b, h7, h8, _⟩ := Tr.bind_value h4
        injection h7 with h7
        subst h7
        rw [if_pos rfl] at h8
        obtain ⟨_, _, h9, _⟩ := Tr.bind_value h8
        injection h9 with h9
        rw [← h9]
        exact h5
      rw [Tr.loop] at h2
      obtain ⟨st2, h7, _, _⟩ := Tr.bind_value h2
      unfold RunArgs.paramsStep RunArgs.tryOne at h7
      obtain ⟨y', h8, h9, _⟩ := Tr.bind_value h7
      obtain ⟨_, t', h10, h11⟩ := hcand _ p' (by rw [hl]; simp) y' h8
      unfold RunArgs.choose at h9
      obtain ⟨b, h12, _, _⟩ := Tr.bind_value h9
      change isBetter _ _ _ = .ok b at h12
      rw [hst1, h10] at h12
      obtain ⟨v, v', hv, _⟩ := scoreBetter_ok.1 h12
      obtain ⟨vs, hvs, _⟩ := hv
      intro f hf
      obtain ⟨_, _, s, hs, _⟩ := forall₂_mem_left hvs hf
      rw [← h11]
      exact Dict.get?_isSome.1 (by rw [hs]; rfl)

/-- C143: both testers report such tables. -/
theorem C143_testers {lower : Str → Str} {depth : Nat} {tag : List Document → Res (List Document)} {t : ScoreTable} :
    (∀ text, testFile lower depth text tag = .ok t → FromTester t) ∧
    ∀ cols gold, testDataSet lower cols depth gold tag = .ok t → FromTester t := by
  have key : ∀ cols docs internal, testTagger lower cols depth docs internal tag = .ok t → FromTester t := by
    intro cols docs internal h
    unfold testTagger at h
    repeat' split at h
    all_goals cases h
    rename_i m hm
    exact ⟨_, _, _, _, hm, rfl⟩
  constructor
  · intro text h
    unfold testFile at h
    split at h
    · cases h
    · exact key _ _ _ h
  · intro cols gold h
    exact key _ _ _ h

/-- C143: if everything the program calls succeeds and the settings name metrics that exist, a run with one seed ends with a
report. -/
theorem C143_one (a : RunArgs π τ) (disk : List (List Str)) {train : Str → π → List (Round τ)} (hn : a.Named)
    (hw : a.Works disk train) {seed : Str} (hs : a.seeds = .one seed) : ∃ fin, (a.main disk).value = .ok fin := by
  obtain ⟨fin, h, _⟩ := a.main_ends hn hw (fun ss hss => by rw [hs] at hss; cases hss)
  exact ⟨fin, h⟩

/-- C143, with what is missing for a list of seeds (see C143_refuted): it ends with a report iff every printed metric has an
aligned accuracy and, if several parameter sets are to be compared, every metric that is compared is also printed. -/
theorem C143_partial (a : RunArgs π τ) (disk : List (List Str)) {train : Str → π → List (Round τ)} (hn : a.Named)
    (hw : a.Works disk train) {seeds : List Str} (hs : a.seeds = .many seeds) :
    (∃ fin, (a.main disk).value = .ok fin) ↔ (∀ f ∈ a.printFields, f ∈ withAccuracy) ∧
      (2 ≤ (hyperList a.hyperparams).length → ∀ f ∈ a.cmpFields, f ∈ a.printFields) := by
  constructor
  · rintro ⟨fin, h⟩
    exact a.main_averages hn hw hs h
  · intro h
    obtain ⟨fin, h, _⟩ := a.main_ends hn hw (fun _ _ => h)
    exact ⟨fin, h⟩

namespace Demo

/-- What a tester reports on a perfect tagger. -/
def perfect : ScoreTable :=
  match evaluate id udLoaded udLoaded none with
  | .ok m => m.table
  | .error _ => Dict.ofList []

theorem perfect_tester : FromTester perfect := by
  obtain ⟨m, h, _⟩ := C31_self id none ⟨_, _, udLoads⟩
  exact ⟨id, _, _, m, h, by unfold perfect; rw [h]⟩

/-- Two parameter sets, one epoch each; `UPOS` is compared. -/
def simple (seeds : Seeds) (print : List Str) : RunArgs Bool Nat where
  modelDir := ["models".toList]
  deleteAfter := true
  seeds := seeds
  printFields := print
  cmpFields := ["UPOS".toList]
  cmpMetric := "f1".toList
  devResults := none
  trainer := some (fun _ _ => [⟨true, true, .ok (some perfect, 7)⟩])
  testResults := none
  test := some (fun _ => (true, .ok perfect))
  hyperparams := .inr [false, true]

theorem simple_works (seeds : Seeds) (hs : seeds.list ≠ []) (print : List Str) :
    (simple seeds print).Works [] (fun _ _ => [⟨true, true, .ok (some perfect, 7)⟩]) where
  trainer := rfl
  folder := by simp
  params := by simp [simple, hyperList]
  seeds := hs
  epochs := by simp
  yields := fun _ _ _ _ r hr => by
    rw [List.mem_singleton] at hr
    subst hr
    exact ⟨_, _, rfl, perfect_tester⟩
  tests := by
    intro test h tagger
    injection h with h
    subst h
    exact ⟨_, rfl, perfect_tester⟩

theorem simple_named (seeds : Seeds) {print : List Str} (h1 : ∀ f ∈ print, f ∈ reported) (h2 : print.Nodup) :
    (simple seeds print).Named where
  printed := h1
  once := h2
  compared := .inl ⟨by change ∀ f ∈ ["UPOS".toList], _; decide +kernel, by
    change "f1".toList ∈ _; decide +kernel⟩

end Demo

/-- C143 is false for lists of seeds: averaging a metric without an aligned accuracy is a `TypeError`. -/
theorem C143_refuted : ¬ ∀ (a : RunArgs Bool Nat) (disk : List (List Str)) (train : Str → Bool → List (Round Nat)),
    a.Named → a.Works disk train → ∃ fin, (a.main disk).value = .ok fin := by
  intro h
  have hn := Demo.simple_named (.many ["1".toList]) (print := ["Words".toList, "UPOS".toList])
    (by decide +kernel) (by decide +kernel)
  have hw := Demo.simple_works (.many ["1".toList]) (by simp [Seeds.list]) ["Words".toList, "UPOS".toList]
  have := (C143_partial _ _ hn hw rfl).1 (h _ _ _ hn hw)
  exact absurd (this.1 "Words".toList (.head _)) (by decide +kernel)

/-- C143 is false for lists of seeds also because averages contain the printed metrics only: no other metric can be compared. -/
theorem C143_compared_refuted : ¬ ∀ (a : RunArgs Bool Nat) (disk : List (List Str)) (train : Str → Bool → List (Round Nat)),
    a.Named → a.Works disk train → (∀ f ∈ a.printFields, f ∈ withAccuracy) → ∃ fin, (a.main disk).value = .ok fin := by
  intro h
  have hn := Demo.simple_named (.many ["1".toList, "2".toList]) (print := ["LAS".toList]) (by decide +kernel)
    (by decide +kernel)
  have hw := Demo.simple_works (.many ["1".toList, "2".toList]) (by simp [Seeds.list]) ["LAS".toList]
  have := (C143_partial _ _ hn hw rfl).1 (h _ _ _ hn hw (by change ∀ f ∈ ["LAS".toList], _; decide +kernel))
  exact absurd (this.2 (by simp [Demo.simple, hyperList]) "UPOS".toList (.head _))
    (by change _ ∉ ["LAS".toList]; decide +kernel)

/-- With one seed the same settings do no harm. -/
example : ∃ fin, ((Demo.simple (.one "1".toList) ["Words".toList, "LAS".toList]).main []).value = .ok fin :=
  C143_one _ _ (Demo.simple_named _ (by decide +kernel) (by decide +kernel))
    (Demo.simple_works _ (by simp [Seeds.list]) _) rfl

/-- Two seeds, two parameter sets. -/
example : ∃ fin, ((Demo.simple (.many ["1".toList, "2".toList]) ["LAS".toList, "UPOS".toList]).main []).value = .ok fin :=
  (C143_partial _ _ (Demo.simple_named _ (by decide +kernel) (by decide +kernel))
    (Demo.simple_works _ (by simp [Seeds.list]) _) rfl).2
    ⟨by change ∀ f ∈ ["LAS".toList, "UPOS".toList], _; decide +kernel,
     fun _ => by change ∀ f ∈ ["UPOS".toList], f ∈ ["LAS".toList, "UPOS".toList]; decide +kernel⟩

end Verif
