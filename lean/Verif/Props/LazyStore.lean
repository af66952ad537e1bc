import Verif.Props.LazyRun

/-! # C162: which models can be loaded after a run -/

namespace Verif

variable {π μ : Type}

/-- What holds of C162: after a run without `--delete_after` with seeds that have different texts, the model of every epoch of every
training can be loaded from its own directory, and nothing else has changed.  (Missing: equal seeds, for which it is false.) -/
theorem C162_kept_partial {a : RunArgs π μ} (hd : a.deleteAfter = false) {name : Str → Str} (hn : (a.seeds.list.map name).Nodup)
    {gone : Err} {disk : List (List Str)} {d d' : Store μ} {fin : Final π} (h : a.lazyRun name gone disk d = .ok (fin, d')) :
    ∃ train, a.trainer = some train ∧
      (∀ i p, (hyperList a.hyperparams)[i]? = some p → ∀ s ∈ a.seeds.list, ∀ (e : Nat) r item, (train s p)[e]? = some r →
        r.outcome = .ok item → d' (a.modelDir ++ [paramsName i, name s, epochName e]) = some item.2) ∧
      ∀ q, (∀ i p, (hyperList a.hyperparams)[i]? = some p → ∀ s ∈ a.seeds.list, ∀ e, e < (train s p).length →
        q ≠ a.modelDir ++ [paramsName i, name s, epochName e]) → d' q = d q := by
  obtain ⟨train, st, d₁, h1, h2, h3⟩ := lazyRun_ok h
  rw [hd, if_neg (by simp)] at h3
  subst h3
  have := search_keep hd hn _ _ _ h2
  simp only [Nat.zero_add] at this
  exact ⟨train, h1, this.1, this.2⟩

/-- C162: after a run with `--delete_after` there is no model left in the model directory. -/
theorem C162_deleted {a : RunArgs π μ} (hd : a.deleteAfter = true) {name : Str → Str} {gone : Err} {disk : List (List Str)}
    {d d' : Store μ} {fin : Final π} (h : a.lazyRun name gone disk d = .ok (fin, d')) {q : List Str} (hq : a.modelDir <+: q) :
    d' q = none := by
  obtain ⟨train, st, d₁, h1, h2, h3⟩ := lazyRun_ok h
  rw [hd, if_pos rfl] at h3
  rw [h3, Store.remove, if_pos hq]

/-- C162: models outside of the model directory are not changed. -/
theorem C162_outside {a : RunArgs π μ} {name : Str → Str} {gone : Err} {disk : List (List Str)}
    {d d' : Store μ} {fin : Final π} (h : a.lazyRun name gone disk d = .ok (fin, d')) {q : List Str} (hq : ¬ a.modelDir <+: q) :
    d' q = d q := by
  obtain ⟨train, st, d₁, h1, h2, h3⟩ := lazyRun_ok h
  have h4 : d₁ q = d q := forM_inv (I := fun s => s.2 q = d q) (fun s p t hs ht => (lazyParams_outside a hq ht).trans hs) _ _ _ rfl h2
  rw [h3]
  split
  · rw [Store.remove, if_neg hq, h4]
  · exact h4

/-- C162 is false for equal seeds: the model of the second training replaces that of the first one. -/
theorem C162_equal_refuted : ∃ (fin : Final Bool) (d' : Store Nat),
    (Demo.equalSeeds false).lazyRun (fun _ => "1".toList) .runtime [] (fun _ => none) = .ok (fin, d') ∧
    ∃ train, (Demo.equalSeeds false).trainer = some train ∧ ∃ s ∈ (Demo.equalSeeds false).seeds.list, ∃ (e : Nat) (r : Round Nat) (item : Option ScoreTable × Nat),
      (train s true)[e]? = some r ∧ r.outcome = .ok item ∧
      d' ((Demo.equalSeeds false).modelDir ++ [paramsName 0, "1".toList, epochName e]) ≠ some item.2 := by
  have h : ((Demo.equalSeeds false).lazyRun (fun _ => "1".toList) .runtime [] (fun _ => none)).map
      (fun r => r.2 ((Demo.equalSeeds false).modelDir ++ [paramsName 0, "1".toList, epochName 0])) = .ok (some 3) := by decide +kernel
  cases hr : (Demo.equalSeeds false).lazyRun (fun _ => "1".toList) .runtime [] (fun _ => none) with
  | error e => rw [hr] at h; cases h
  | ok r =>
    rw [hr] at h
    injection h with h
    refine ⟨r.1, r.2, rfl, _, rfl, "a".toList, by decide, 0, _, (some (Demo.tab (3 / 4)), 1), rfl, rfl, ?_⟩
    intro hc
    have := h.symm.trans hc
    revert this
    decide

/-- Different seeds, one set of parameters: all four models are there afterwards, and models of other runs elsewhere. -/
example : ((Demo.equalSeeds false).lazyRun id .runtime [] (fun _ => some 7)).map (fun r =>
      ([[paramsName 0, "a".toList, epochName 0], [paramsName 0, "a".toList, epochName 1], [paramsName 0, "b".toList, epochName 0],
        [paramsName 0, "b".toList, epochName 1], [paramsName 1]]).map (fun q => r.2 ("m".toList :: q))) =
    .ok [some 1, some 2, some 3, some 4, some 7] := by decide +kernel

/-- With `--delete_after` nothing is left, except elsewhere. -/
example : ((Demo.equalSeeds true).lazyRun id .runtime [] (fun _ => some 7)).map (fun r =>
      [["m".toList, paramsName 0, "a".toList, epochName 0], ["other".toList]].map r.2) = .ok [none, some 7] := by decide +kernel

end Verif
