import Verif.Proofs.Evaluation

/-! Facts about averaging score tables. -/

namespace Verif

theorem assocGet_map {V : Type} {l : List Str} (g : Str → V) {m : Str} (h : m ∈ l) :
    assocGet m (l.map (fun k => (k, g k))) = some (g m) := by
  induction l with
  | nil => simp at h
  | cons a l ih =>
    simp only [List.map_cons, assocGet]
    by_cases ha : a = m
    · simp [ha]
    · rw [if_neg ha]
      rcases List.mem_cons.mp h with h | h
      · exact absurd h.symm ha
      · exact ih h

theorem addScores_ok {metrics : List Str} (hn : metrics.Nodup) {sums : Dict Str Sums}
    {t : ScoreTable} {s : Str → Sums} {x : Str → Score}
    (hs : ∀ m ∈ metrics, sums.get? m = some (s m)) (ht : ∀ m ∈ metrics, t.get? m = some (x m)) :
    ∃ sums', addScores metrics sums (some t) = .ok sums' ∧
      ∀ k, sums'.get? k = if k ∈ metrics then some ((s k).add (x k)) else sums.get? k := by
  unfold addScores
  induction metrics generalizing sums with
  | nil => exact ⟨sums, rfl, by simp⟩
  | cons m ms ih =>
    have hnm := (List.nodup_cons.mp hn).1
    have h1 : addMetric (some t) sums m = .ok (sums.set m ((s m).add (x m))) := by
      simp [addMetric, Dict.getItem, hs m (by simp), ht m (by simp)]
    obtain ⟨sums', h2, h3⟩ := ih (List.nodup_cons.mp hn).2 (sums := sums.set m ((s m).add (x m)))
      (fun k hk => by
        rw [Dict.get?_set, if_neg (by rintro rfl; exact hnm hk)]
        exact hs k (by simp [hk]))
      (fun k hk => ht k (by simp [hk]))
    refine ⟨sums', ?_, ?_⟩
    · simp only [forM', h1]; exact h2
    · intro k
      rw [h3 k]
      by_cases hk : k ∈ ms
      · rw [if_pos hk, if_pos (by simp [hk])]
      · rw [if_neg hk, Dict.get?_set]
        by_cases hkm : k = m
        · subst hkm; simp
        · simp [hk, hkm]

theorem addAll_ok {metrics : List Str} (hn : metrics.Nodup) {scores : List (Option ScoreTable)}
    {xs : List (Str → Score)} (hx : List.Forall₂ (fun sc x => ∃ t, sc = some t ∧
      ∀ m ∈ metrics, t.get? m = some (x m)) scores xs) {sums : Dict Str Sums} {s : Str → Sums}
    (hs : ∀ m ∈ metrics, sums.get? m = some (s m)) :
    ∃ sums', forM' (addScores metrics) sums scores = .ok sums' ∧
      ∀ m ∈ metrics, sums'.get? m = some ((xs.map (fun x => x m)).foldl Sums.add (s m)) := by
  induction hx generalizing sums s with
  | nil => exact ⟨sums, rfl, hs⟩
  | cons h hx ih =>
    obtain ⟨t, rfl, ht⟩ := h
    obtain ⟨sums1, h1, h2⟩ := addScores_ok hn hs ht
    obtain ⟨sums', h3, h4⟩ := ih (sums := sums1) (s := fun m => (s m).add (_))
      (fun m hm => by rw [h2 m, if_pos hm])
    exact ⟨sums', by simp only [forM', h1]; exact h3, h4⟩

/-- The sums collected for the scores `vs`. -/
theorem foldl_add (vs : List Score) (p r f : Rat) (a : Option Rat) :
    vs.foldl Sums.add ⟨some p, some r, some f, a⟩ =
      ⟨some (p + (vs.map Score.precision).sum), some (r + (vs.map Score.recall).sum),
       some (f + (vs.map Score.f1).sum),
       if vs.filterMap Score.aligned = [] then a
       else some (a.getD 0 + (vs.filterMap Score.aligned).sum)⟩ := by
  induction vs generalizing p r f a with
  | nil => simp
  | cons v vs ih =>
    obtain ⟨vp, vr, vf, va⟩ := v
    simp only [List.foldl_cons, Sums.add, ih, Option.getD_some, List.map_cons, List.sum_cons,
      Rat.add_assoc, Sums.mk.injEq, true_and, List.filterMap_cons]
    cases va with
    | none => simp
    | some x =>
      simp only [Option.getD_some, List.sum_cons, reduceCtorEq, if_false]
      by_cases h : vs.filterMap Score.aligned = []
      · simp [h]
      · simp [h, Rat.add_assoc]

theorem foldl_add_empty {vs : List Score} (h : vs ≠ []) :
    vs.foldl Sums.add {} =
      ⟨some (vs.map Score.precision).sum, some (vs.map Score.recall).sum,
       some (vs.map Score.f1).sum,
       if vs.filterMap Score.aligned = [] then none else some (vs.filterMap Score.aligned).sum⟩ := by
  cases vs with
  | nil => exact absurd rfl h
  | cons v vs =>
    obtain ⟨vp, vr, vf, va⟩ := v
    simp only [List.foldl_cons, Sums.add, foldl_add, Option.getD_none, zero_add, List.map_cons,
      List.sum_cons, List.filterMap_cons]
    cases va with
    | none =>
      simp
    | some x =>
      simp only [Option.getD_some, List.sum_cons, reduceCtorEq, if_false]
      by_cases h : vs.filterMap Score.aligned = []
      · simp [h]
      · simp [h]

theorem mapM'_err {α β : Type} {f : α → Res β} {e : Err} {l : List α}
    (h : ∀ a ∈ l, ∀ e', f a = .error e' → e' = e) (hex : ∃ a ∈ l, f a = .error e) :
    mapM' f l = .error e := by
  induction l with
  | nil => obtain ⟨a, ha, _⟩ := hex; simp at ha
  | cons a l ih =>
    simp only [mapM']
    cases h1 : f a with
    | error e' => rw [h a (by simp) e' h1]
    | ok b =>
      obtain ⟨a', ha', he⟩ := hex
      rcases List.mem_cons.mp ha' with rfl | ha'
      · rw [h1] at he; cases he
      · simp only [ih (fun a ha => h a (by simp [ha])) ⟨a', ha', he⟩]

/-- Complete behaviour on tables that contain all metrics. -/
theorem averageScores_cases {metrics : List Str} (hn : metrics.Nodup)
    {scores : List (Option ScoreTable)} (hne : scores ≠ []) {xs : List (Str → Score)}
    (hx : List.Forall₂ (fun sc x => ∃ t, sc = some t ∧
      ∀ m ∈ metrics, t.get? m = some (x m)) scores xs) :
    ((∀ m ∈ metrics, (xs.map (fun x => x m)).filterMap Score.aligned ≠ []) →
      ∃ res, averageScores metrics scores = .ok res ∧ res.keys = metrics ∧
        ∀ m ∈ metrics, res.get? m = some
          ⟨((xs.map (fun x => x m)).map Score.precision).sum / scores.length,
           ((xs.map (fun x => x m)).map Score.recall).sum / scores.length,
           ((xs.map (fun x => x m)).map Score.f1).sum / scores.length,
           some (((xs.map (fun x => x m)).filterMap Score.aligned).sum / scores.length)⟩) ∧
    ((∃ m ∈ metrics, (xs.map (fun x => x m)).filterMap Score.aligned = []) →
      averageScores metrics scores = .error .type) := by
  have hlen := hx.length_eq
  have hxs : xs ≠ [] := by
    rintro rfl
    exact hne (List.length_eq_zero_iff.mp (by simpa using hlen))
  have h0 : ∀ m ∈ metrics, (Dict.ofList (metrics.map (fun m => (m, ({} : Sums))))).get? m =
      some ((fun _ => {}) m) := by
    intro m hm
    rw [Dict.get?_ofList _ (by simpa [List.map_map, Function.comp_def] using hn)]
    exact assocGet_map _ hm
  obtain ⟨sums, h1, h2⟩ := addAll_ok hn hx h0
  have h3 : ∀ m ∈ metrics, sums.getItem m = .ok ((xs.map (fun x => x m)).foldl Sums.add {}) := by
    intro m hm
    simp [Dict.getItem, h2 m hm]
  have hne' : ∀ m, xs.map (fun x => x m) ≠ [] := by simp [hxs]
  constructor
  · intro hal
    have h4 : mapM' (meanEntry scores.length sums) metrics = .ok (metrics.map (fun m => (m,
          ⟨((xs.map (fun x => x m)).map Score.precision).sum / scores.length,
           ((xs.map (fun x => x m)).map Score.recall).sum / scores.length,
           ((xs.map (fun x => x m)).map Score.f1).sum / scores.length,
           some (((xs.map (fun x => x m)).filterMap Score.aligned).sum / scores.length)⟩))) := by
      rw [mapM'_ok_iff, List.forall₂_map_right_iff, List.forall₂_same]
      intro m hm
      unfold meanEntry
      rw [h3 m hm, foldl_add_empty (hne' m), if_neg (hal m hm)]
      rfl
    refine ⟨Dict.ofList _, by unfold averageScores; rw [h1]; simp only; rw [h4], ?_, ?_⟩
    · unfold Dict.keys
      rw [Dict.ofList_entries]
      · simp [List.map_map, Function.comp_def]
      · simpa [List.map_map, Function.comp_def] using hn
    · intro m hm
      rw [Dict.get?_ofList _ (by simpa [List.map_map, Function.comp_def] using hn)]
      exact assocGet_map (fun m => (⟨_, _, _, _⟩ : Score)) hm
  · rintro ⟨m, hm, hal⟩
    unfold averageScores
    rw [h1]
    have h4 : mapM' (meanEntry scores.length sums) metrics = .error .type := by
      apply mapM'_err
      · intro k hk e he
        unfold meanEntry at he
        rw [h3 k hk, foldl_add_empty (hne' k)] at he
        by_cases hk2 : (xs.map (fun x => x k)).filterMap Score.aligned = []
        · rw [if_pos hk2] at he
          simp only [meanScore] at he
          injection he with he
          exact he.symm
        · rw [if_neg hk2] at he
          simp [meanScore] at he
      · refine ⟨m, hm, ?_⟩
        unfold meanEntry
        rw [h3 m hm, foldl_add_empty (hne' m), if_pos hal]
        rfl
    simp only [h4]

end Verif
