import Verif.Proofs.EvalRun

/-!
# What the printed fields have an influence on
-/

namespace Verif

variable {α β γ δ σ ρ π τ μ : Type}

/-! ### Averages with repeated metrics -/

/-- Adding the same score several times. -/
def Sums.addTimes (s : Sums) (n : Nat) (x : Score) : Sums := (List.replicate n x).foldl Sums.add s

theorem addScores_gen {metrics : List Str} {sums : Dict Str Sums} {t : ScoreTable} {s : Str → Sums}
    {x : Str → Score} (hs : ∀ m ∈ metrics, sums.get? m = some (s m))
    (ht : ∀ m ∈ metrics, t.get? m = some (x m)) :
    ∃ sums', addScores metrics sums (some t) = .ok sums' ∧
      ∀ k ∈ metrics, sums'.get? k = some ((s k).addTimes (metrics.count k) (x k)) := by
  suffices h : ∀ (all : List Str), metrics ⊆ all → (∀ m ∈ all, sums.get? m = some (s m)) →
      ∃ sums', addScores metrics sums (some t) = .ok sums' ∧
        ∀ k ∈ all, sums'.get? k = some ((s k).addTimes (metrics.count k) (x k)) from
    h metrics (List.Subset.refl _) hs
  intro all hsub hall
  clear hs
  unfold addScores
  induction metrics generalizing sums s with
  | nil => exact ⟨sums, rfl, by simpa [Sums.addTimes] using hall⟩
  | cons m ms ih =>
    have hm : m ∈ all := hsub (by simp)
    have h1 : addMetric (some t) sums m = .ok (sums.set m ((s m).add (x m))) := by
      simp [addMetric, Dict.getItem, hall m hm, ht m (by simp)]
    obtain ⟨sums', h2, h3⟩ := ih (s := fun k => if k = m then (s m).add (x m) else s k)
      (sums := sums.set m ((s m).add (x m))) (fun k hk => ht k (by simp [hk]))
      (fun k hk => hsub (by simp [hk]))
      (fun k hk => by
        rw [Dict.get?_set]
        by_cases hkm : k = m
        · simp [hkm]
        · simp [hkm, hall k hk])
    refine ⟨sums', by simp only [forM', h1]; exact h2, ?_⟩
    intro k hk
    rw [h3 k hk]
    by_cases hkm : k = m
    · subst hkm
      simp [Sums.addTimes, List.replicate_succ]
    · rw [if_neg hkm, List.count_cons_of_ne (Ne.symm hkm)]

theorem addAll_gen {metrics : List Str} {scores : List (Option ScoreTable)}
    {xs : List (Str → Score)} (hx : List.Forall₂ (fun sc x => ∃ t, sc = some t ∧
      ∀ m ∈ metrics, t.get? m = some (x m)) scores xs) {sums : Dict Str Sums} {s : Str → Sums}
    (hs : ∀ m ∈ metrics, sums.get? m = some (s m)) :
    ∃ sums', forM' (addScores metrics) sums scores = .ok sums' ∧
      ∀ m ∈ metrics, sums'.get? m =
        some ((xs.flatMap (fun x => List.replicate (metrics.count m) (x m))).foldl Sums.add (s m)) := by
  induction hx generalizing sums s with
  | nil => exact ⟨sums, rfl, hs⟩
  | cons h hx ih =>
    obtain ⟨t, rfl, ht⟩ := h
    obtain ⟨sums1, h1, h2⟩ := addScores_gen hs ht
    obtain ⟨sums', h3, h4⟩ := ih (sums := sums1) (s := fun m => (s m).addTimes _ (_)) h2
    refine ⟨sums', by simp only [forM', h1]; exact h3, ?_⟩
    intro m hm
    rw [h4 m hm, List.flatMap_cons, List.foldl_append]
    rfl

theorem addScores_needs {metrics : List Str} {score : Option ScoreTable} {sums sums' : Dict Str Sums}
    (h : addScores metrics sums score = .ok sums') :
    metrics = [] ∨ ∃ t, score = some t ∧ ∀ m ∈ metrics, (t.get? m).isSome := by
  unfold addScores at h
  induction metrics generalizing sums with
  | nil => exact .inl rfl
  | cons m ms ih =>
    right
    simp only [forM'] at h
    cases h1 : addMetric score sums m with
    | error e => rw [h1] at h; cases h
    | ok s1 =>
      rw [h1] at h
      have h2 : ∃ t, score = some t ∧ (t.get? m).isSome := by
        unfold addMetric at h1
        split at h1
        · cases h1
        · split at h1
          · cases h1
          · rename_i t
            refine ⟨t, rfl, ?_⟩
            split at h1
            · cases h1
            · rename_i x hx
              unfold Dict.getItem at hx
              cases hg : t.get? m with
              | none => rw [hg] at hx; cases hx
              | some _ => rfl
      obtain ⟨t, rfl, h3⟩ := h2
      refine ⟨t, rfl, ?_⟩
      intro k hk
      rcases List.mem_cons.1 hk with rfl | hk
      · exact h3
      · rcases ih h with rfl | ⟨t', ht', h4⟩
        · simp at hk
        · injection ht' with ht'
          subst ht'
          exact h4 k hk

theorem addAll_needs {metrics : List Str} {scores : List (Option ScoreTable)} {sums sums' : Dict Str Sums}
    (h : forM' (addScores metrics) sums scores = .ok sums') :
    metrics = [] ∨ ∀ sc ∈ scores, ∃ t, sc = some t ∧ ∀ m ∈ metrics, (t.get? m).isSome := by
  by_cases hm : metrics = []
  · exact .inl hm
  · right
    induction scores generalizing sums with
    | nil => simp
    | cons sc scs ih =>
      simp only [forM'] at h
      cases h1 : addScores metrics sums sc with
      | error e => rw [h1] at h; cases h
      | ok s1 =>
        rw [h1] at h
        intro k hk
        rcases List.mem_cons.1 hk with rfl | hk
        · exact (addScores_needs h1).resolve_left hm
        · exact ih h k hk

theorem get?_ofList_map {K V : Type} [DecidableEq K] (l : List K) (g : K → V) (m : K) :
    (Dict.ofList (l.map (fun k => (k, g k)))).get? m = if m ∈ l then some (g m) else none := by
  unfold Dict.ofList
  rw [Dict.get?_updateList]
  cases h : List.find? (fun p => p.1 == m) (l.map (fun k => (k, g k))).reverse with
  | some q =>
    have hq := List.find?_some h
    have hm := List.mem_of_find?_eq_some h
    simp only [beq_iff_eq] at hq
    simp only [List.mem_reverse, List.mem_map] at hm
    obtain ⟨k, hk, rfl⟩ := hm
    simp only at hq
    subst hq
    rw [if_pos hk]
  | none =>
    rw [if_neg]
    · rfl
    · intro hm
      have := List.find?_eq_none.mp h (m, g m) (by simpa using hm)
      simp at this

theorem sum_replicates {f : Score → Rat} (n : Nat) (vs : List Score) :
    ((vs.flatMap (fun v => List.replicate n v)).map f).sum = n * (vs.map f).sum := by
  induction vs with
  | nil => simp
  | cons v vs ih =>
    rw [List.flatMap_cons, List.map_append, List.sum_append, ih, List.map_cons, List.sum_cons, mul_add]
    simp

theorem sum_replicates_aligned (n : Nat) (vs : List Score) :
    ((vs.flatMap (fun v => List.replicate n v)).filterMap Score.aligned).sum =
      n * (vs.filterMap Score.aligned).sum := by
  induction vs with
  | nil => simp
  | cons v vs ih =>
    rw [List.flatMap_cons, List.filterMap_append, List.sum_append, ih]
    obtain ⟨p, r, f, a⟩ := v
    cases a with
    | none => simp [List.filterMap_replicate_of_none]
    | some x => simp [List.filterMap_replicate_of_some, mul_add]

/-- The average with everything given. -/
def timesMean (n len : Nat) (vs : List Score) : Score :=
  ⟨n * (vs.map Score.precision).sum / len, n * (vs.map Score.recall).sum / len,
    n * (vs.map Score.f1).sum / len, some (n * (vs.filterMap Score.aligned).sum / len)⟩

theorem mean_gen {n len : Nat} (hn : 0 < n) {vs : List Score} :
    meanScore len ((vs.flatMap (fun v => List.replicate n v)).foldl Sums.add {}) =
      if vs.filterMap Score.aligned = [] then .error .type else .ok (timesMean n len vs) := by
  by_cases hvs : vs = []
  · subst hvs; rfl
  · have hne : vs.flatMap (fun v => List.replicate n v) ≠ [] := by
      obtain ⟨v, vs', rfl⟩ := List.exists_cons_of_ne_nil hvs
      obtain ⟨k, rfl⟩ : ∃ k, n = k + 1 := ⟨n - 1, by omega⟩
      simp [List.replicate_succ]
    rw [foldl_add_empty hne]
    have hal : (vs.flatMap (fun v => List.replicate n v)).filterMap Score.aligned = [] ↔
        vs.filterMap Score.aligned = [] := by
      simp only [List.filterMap_eq_nil_iff, List.mem_flatMap, List.mem_replicate]
      constructor
      · intro h a ha
        exact h a ⟨a, ha, by omega, rfl⟩
      · rintro h a ⟨b, hb, _, rfl⟩
        exact h _ hb
    by_cases h : vs.filterMap Score.aligned = []
    · rw [if_pos h, if_pos (hal.2 h)]; rfl
    · rw [if_neg h, if_neg (fun hc => h (hal.1 hc))]
      simp only [meanScore, timesMean, sum_replicates, sum_replicates_aligned]

/-- The scores of a metric in the tables that have it. -/
def valuesOf (m : Str) (scores : List (Option ScoreTable)) : List Score :=
  scores.filterMap (fun sc => sc.bind (fun t => t.get? m))

/-- What averaging gives, for any list of metrics. -/
theorem average_full {metrics : List Str} (hm : metrics ≠ []) (scores : List (Option ScoreTable))
    (res : ScoreTable) : averageScores metrics scores = .ok res ↔
      ((∀ sc ∈ scores, ∃ t, sc = some t ∧ ∀ m ∈ metrics, (t.get? m).isSome) ∧
      (∀ m ∈ metrics, (valuesOf m scores).filterMap Score.aligned ≠ [])) ∧
      res = Dict.ofList (metrics.map (fun m =>
        (m, timesMean (metrics.count m) scores.length (valuesOf m scores)))) := by
  have hrun : (∀ sc ∈ scores, ∃ t, sc = some t ∧ ∀ m ∈ metrics, (t.get? m).isSome) →
      ∃ sums, forM' (addScores metrics) (Dict.ofList (metrics.map (fun m => (m, {})))) scores = .ok sums ∧
        ∀ m ∈ metrics, meanEntry scores.length sums m =
          if (valuesOf m scores).filterMap Score.aligned = [] then .error .type
          else .ok (m, timesMean (metrics.count m) scores.length (valuesOf m scores)) := by
    intro h
    let x : Option ScoreTable → Str → Score := fun sc m =>
      (sc.bind (fun t => t.get? m)).getD ⟨0, 0, 0, none⟩
    have hx : List.Forall₂ (fun sc y => ∃ t, sc = some t ∧ ∀ m ∈ metrics, t.get? m = some (y m))
        scores (scores.map x) := by
      rw [List.forall₂_map_right_iff, List.forall₂_same]
      intro sc hsc
      obtain ⟨t, rfl, ht⟩ := h sc hsc
      refine ⟨t, rfl, fun m hm => ?_⟩
      have := ht m hm
      cases hg : t.get? m with
      | none => rw [hg] at this; cases this
      | some v => simp [x, hg]
    obtain ⟨sums, h1, h2⟩ := addAll_gen hx (sums := Dict.ofList (metrics.map (fun m => (m, ({} : Sums)))))
      (s := fun _ => {}) (fun m hm => by rw [get?_ofList_map metrics (fun _ => ({} : Sums)), if_pos hm])
    refine ⟨sums, h1, fun m hm => ?_⟩
    have hv : (scores.map x).flatMap (fun y => List.replicate (metrics.count m) (y m)) =
        (valuesOf m scores).flatMap (fun v => List.replicate (metrics.count m) v) := by
      have : valuesOf m scores = scores.map (fun sc => x sc m) := by
        unfold valuesOf
        clear h1 h2 hx
        induction scores with
        | nil => rfl
        | cons sc scs ih =>
          obtain ⟨t, rfl, ht⟩ := h sc (by simp)
          have := ht m hm
          obtain ⟨v, hv⟩ := Option.isSome_iff_exists.1 this
          rw [List.map_cons, ← ih (fun sc hsc => h sc (by simp [hsc]))]
          simp [x, hv]
      rw [this, List.flatMap_map, List.flatMap_map]
    unfold meanEntry
    rw [Dict.getItem, h2 m hm, hv]
    simp only
    rw [mean_gen (List.count_pos_iff.2 hm)]
    by_cases hal : (valuesOf m scores).filterMap Score.aligned = []
    · simp only [if_pos hal]
    · simp only [if_neg hal]
  unfold averageScores
  constructor
  · intro h
    cases h1 : forM' (addScores metrics) (Dict.ofList (metrics.map (fun m => (m, {})))) scores with
    | error e => rw [h1] at h; cases h
    | ok sums =>
      have hneed := (addAll_needs h1).resolve_left hm
      obtain ⟨sums', h2, h3⟩ := hrun hneed
      rw [h1] at h2
      injection h2 with h2
      subst h2
      rw [h1] at h
      simp only at h
      cases h4 : mapM' (meanEntry scores.length sums) metrics with
      | error e => rw [h4] at h; cases h
      | ok l =>
        rw [h4] at h
        injection h with h
        rw [mapM'_ok_iff] at h4
        have h5 : ∀ m ∈ metrics, (valuesOf m scores).filterMap Score.aligned ≠ [] := by
          intro m hmm hc
          obtain ⟨i, hi⟩ := List.mem_iff_getElem?.1 hmm
          obtain ⟨hlt, hi⟩ := List.getElem?_eq_some_iff.1 hi
          have := h4.get hlt (h4.length_eq ▸ hlt)
          simp only [List.get_eq_getElem, hi] at this
          rw [h3 m hmm, if_pos hc] at this
          cases this
        refine ⟨⟨hneed, h5⟩, ?_⟩
        rw [← h]
        congr 1
        clear h h1 hrun hm hneed
        have : ∀ (ms : List Str), ms ⊆ metrics → ∀ l, List.Forall₂ (fun a b =>
            meanEntry scores.length sums a = .ok b) ms l → l = ms.map (fun m =>
            (m, timesMean (metrics.count m) scores.length (valuesOf m scores))) := by
          intro ms hsub l hl
          induction hl with
          | nil => rfl
          | @cons a b _ _ hab _ ih =>
            have ha : a ∈ metrics := hsub (by simp)
            rw [h3 a ha, if_neg (h5 a ha)] at hab
            injection hab with hab
            rw [List.map_cons, ← hab, ih (fun x hx => hsub (by simp [hx]))]
        exact this metrics (List.Subset.refl _) l h4
  · rintro ⟨⟨hneed, hal⟩, rfl⟩
    obtain ⟨sums, h1, h3⟩ := hrun hneed
    rw [h1]
    simp only
    have : mapM' (meanEntry scores.length sums) metrics = .ok (metrics.map (fun m =>
        (m, timesMean (metrics.count m) scores.length (valuesOf m scores)))) := by
      rw [mapM'_ok_iff, List.forall₂_map_right_iff, List.forall₂_same]
      intro m hmm
      rw [h3 m hmm, if_neg (hal m hmm)]
    rw [this]

/-! ### Two runs side by side -/

/-- If both computations succeed, their effects are the same and their values are related. -/
def Tr.Sim (R : α → β → Prop) (x : Tr α) (y : Tr β) : Prop :=
  ∀ u v, x.value = .ok u → y.value = .ok v → R u v ∧ x.events = y.events

/-- If the first computation succeeds, so does the second, with the same effects and a related value. -/
def Tr.Fwd (R : α → β → Prop) (x : Tr α) (y : Tr β) : Prop :=
  ∀ u, x.value = .ok u → ∃ v, y.value = .ok v ∧ R u v ∧ x.events = y.events

theorem Tr.Fwd.sim {R : α → β → Prop} {x : Tr α} {y : Tr β} (h : x.Fwd R y) : x.Sim R y := by
  intro u v hu hv
  obtain ⟨v', h1, h2, h3⟩ := h u hu
  rw [hv] at h1
  injection h1 with h1
  subst h1
  exact ⟨h2, h3⟩

theorem Tr.Sim.same {R : α → α → Prop} (x : Tr α) (h : ∀ u, x.value = .ok u → R u u) : x.Sim R x := by
  intro u v hu hv
  rw [hu] at hv
  injection hv with hv
  subst hv
  exact ⟨h u hu, rfl⟩

theorem Tr.Fwd.same {R : α → α → Prop} (x : Tr α) (h : ∀ u, x.value = .ok u → R u u) : x.Fwd R x :=
  fun u hu => ⟨u, hu, h u hu, rfl⟩

theorem Tr.Sim.lift {R : α → β → Prop} {x : Res α} {y : Res β} (h : ∀ u v, x = .ok u → y = .ok v → R u v) :
    (Tr.lift x).Sim R (Tr.lift y) := fun u v hu hv => ⟨h u v hu hv, rfl⟩

theorem Tr.Fwd.lift {R : α → β → Prop} {x : Res α} {y : Res β} (h : ∀ u, x = .ok u → ∃ v, y = .ok v ∧ R u v) :
    (Tr.lift x).Fwd R (Tr.lift y) := by
  intro u hu
  obtain ⟨v, h1, h2⟩ := h u hu
  exact ⟨v, h1, h2, rfl⟩

theorem Tr.Sim.pure {R : α → β → Prop} {a : α} {b : β} (h : R a b) : (Tr.pure a).Sim R (Tr.pure b) := by
  intro u v hu hv
  injection hu with hu; injection hv with hv
  subst hu; subst hv
  exact ⟨h, rfl⟩

theorem Tr.Fwd.pure {R : α → β → Prop} {a : α} {b : β} (h : R a b) : (Tr.pure a).Fwd R (Tr.pure b) := by
  intro u hu
  injection hu with hu
  subst hu
  exact ⟨b, rfl, h, rfl⟩

theorem Tr.Sim.bind {R : α → β → Prop} {S : γ → δ → Prop} {x : Tr α} {y : Tr β} {f : α → Tr γ} {g : β → Tr δ}
    (hx : x.Sim R y) (hf : ∀ u v, R u v → (f u).Sim S (g v)) : (x.bind f).Sim S (y.bind g) := by
  intro u v hu hv
  obtain ⟨a, h1, h2, e1⟩ := Tr.bind_value hu
  obtain ⟨b, h3, h4, e2⟩ := Tr.bind_value hv
  obtain ⟨h5, e3⟩ := hx a b h1 h3
  obtain ⟨h6, e4⟩ := hf a b h5 u v h2 h4
  exact ⟨h6, by rw [e1, e2, e3, e4]⟩

theorem Tr.Fwd.bind {R : α → β → Prop} {S : γ → δ → Prop} {x : Tr α} {y : Tr β} {f : α → Tr γ} {g : β → Tr δ}
    (hx : x.Fwd R y) (hf : ∀ u v, R u v → (f u).Fwd S (g v)) : (x.bind f).Fwd S (y.bind g) := by
  intro u hu
  obtain ⟨a, h1, h2, e1⟩ := Tr.bind_value hu
  obtain ⟨b, h3, h5, e3⟩ := hx a h1
  obtain ⟨v, h4, h6, e4⟩ := hf a b h5 u h2
  refine ⟨v, ?_, h6, ?_⟩
  · rw [Tr.bind_ok h3]; exact h4
  · rw [e1, Tr.bind_ok h3, e3, e4]

theorem Tr.Sim.loop {R : σ → ρ → Prop} {f : σ → α → Tr σ} {g : ρ → α → Tr ρ}
    (hf : ∀ s t a, R s t → (f s a).Sim R (g t a)) {s : σ} {t : ρ} (h : R s t) (l : List α) :
    (Tr.loop f s l).Sim R (Tr.loop g t l) := by
  induction l generalizing s t with
  | nil => exact .pure h
  | cons a l ih => exact .bind (hf s t a h) (fun _ _ h' => ih h')

theorem Tr.Fwd.loop {R : σ → ρ → Prop} {f : σ → α → Tr σ} {g : ρ → α → Tr ρ}
    (hf : ∀ s t a, R s t → (f s a).Fwd R (g t a)) {s : σ} {t : ρ} (h : R s t) (l : List α) :
    (Tr.loop f s l).Fwd R (Tr.loop g t l) := by
  induction l generalizing s t with
  | nil => exact .pure h
  | cons a l ih => exact .bind (hf s t a h) (fun _ _ h' => ih h')

theorem Tr.Sim.mapM {f g : α → Tr β} (hf : ∀ a, (f a).Sim Eq (g a)) (l : List α) :
    (Tr.mapM f l).Sim Eq (Tr.mapM g l) := by
  induction l with
  | nil => exact .pure rfl
  | cons a l ih =>
    exact .bind (hf a) (fun b b' hb => .bind ih (fun bs bs' hbs => .pure (by rw [hb, hbs])))

theorem Tr.Fwd.mapM {f g : α → Tr β} (hf : ∀ a, (f a).Fwd Eq (g a)) (l : List α) :
    (Tr.mapM f l).Fwd Eq (Tr.mapM g l) := by
  induction l with
  | nil => exact .pure rfl
  | cons a l ih =>
    exact .bind (hf a) (fun b b' hb => .bind ih (fun bs bs' hbs => .pure (by rw [hb, hbs])))

end Verif
