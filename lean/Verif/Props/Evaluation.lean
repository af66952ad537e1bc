import Verif.Proofs.Average
import Verif.Proofs.Retag
import Verif.Props.UdEval

/-! # Properties of evaluation: C50-C53, C75 -/

namespace Verif

namespace Demo

/-- A score table with one metric. -/
def scores1 (a : Rat) : ScoreTable := Dict.ofList [("UPOS".toList, ⟨a, a, a, some a⟩)]

def epochs3 : List (Option ScoreTable × Nat) :=
  [(some (scores1 (1 / 2)), 10), (some (scores1 (3 / 4)), 11), (some (scores1 (3 / 4)), 12)]

def cmpUpos := scoreBetter ["UPOS".toList] "f1".toList

end Demo

/-! ### C50 -/

/-- C50: when `SingleSeedEvaluator.evaluate` returns, the tagger it tests belongs to an epoch whose
comparison score exceeds that of all earlier epochs and is not exceeded by any later one. -/
theorem C50_selected_epoch {τ : Type} {printer : Option ScoreTable → Res Unit} {fields : List Str}
    {metric seed : Str} {path : List Str} {items : List (Option ScoreTable × τ)}
    {failure : Option Err} {r : Option τ × Option ScoreTable × List Ev}
    (h : singleEvaluate printer (scoreBetter fields metric) seed path items failure = .ok r)
    (hne : items ≠ []) (hs : ∀ it ∈ items, it.1.isSome) :
    ∃ (e : Nat) (item : Option ScoreTable × τ) (te : ScoreTable), items[e]? = some item ∧
      r.1 = some item.2 ∧ r.2.1 = item.1 ∧ item.1 = some te ∧
      ∀ (i : Nat) (other : Option ScoreTable × τ), items[i]? = some other → i ≠ e →
        ∃ ti vi ve, other.1 = some ti ∧ TotalIs fields metric ti vi ∧ TotalIs fields metric te ve ∧
          (i < e → vi < ve) ∧ (e < i → vi ≤ ve) := by
  obtain ⟨_, st, h1, _, rfl⟩ := singleEvaluate_ok h
  have hr := epochs_run h1
  have hne' : epochCands (path ++ [seed]) items ≠ [] := by
    intro hc
    have := epochCands_length (path ++ [seed]) items
    rw [hc] at this
    exact hne (List.length_eq_zero_iff.mp (by simpa using this.symm))
  obtain ⟨e, c, te, h2, h3, h4, h5, _, h7⟩ := hr.best (by
    intro c hc
    obtain ⟨i, hi⟩ := List.mem_iff_getElem?.mp hc
    rw [epochCands_getElem?, Option.map_eq_some_iff] at hi
    obtain ⟨p, hp, rfl⟩ := hi
    exact hs p (List.mem_of_getElem? hp)) hne'
  rw [epochCands_getElem?, Option.map_eq_some_iff] at h2
  obtain ⟨item, h8, rfl⟩ := h2
  refine ⟨e, item, te, h8, h3, h4.trans h5.symm, h5, ?_⟩
  intro i other ho hie
  exact h7 i (other.2, other.1, [.save (path ++ [seed] ++ [epochName i])])
    (by rw [epochCands_getElem?, ho]; rfl) hie

/-- C50, the same for `ParametersEstimator.params_search`: the returned parameters are the earliest
with maximal comparison score, and model and scores are those the evaluator returned for them. -/
theorem C50_selected_params {π μ : Type} {fields : List Str} {metric : Str}
    {evaluator : π → List Str → EvalRes μ} {params : List π} {st : Sel (π × μ)}
    (h : paramsSearch (scoreBetter fields metric) evaluator params = .ok st) (hne : params ≠ [])
    (hs : ∀ p path r, evaluator p path = .ok r → r.2.1.isSome) :
    ∃ (e : Nat) (p : π) (r : μ × Option ScoreTable × List Ev) (te : ScoreTable),
      params[e]? = some p ∧ evaluator p [paramsName e] = .ok r ∧ st.best = some (p, r.1) ∧
      st.scores = r.2.1 ∧ r.2.1 = some te ∧ st.path = some [paramsName e] ∧
      ∀ (i : Nat) (p' : π), params[i]? = some p' → i ≠ e →
        ∃ r' ti vi ve, evaluator p' [paramsName i] = .ok r' ∧ r'.2.1 = some ti ∧
          TotalIs fields metric ti vi ∧ TotalIs fields metric te ve ∧
          (i < e → vi < ve) ∧ (e < i → vi ≤ ve) := by
  obtain ⟨rs, h1, hr⟩ := search_run h
  have hlen : params.length = rs.length := by have := h1.length_eq; simpa using this
  have hget : ∀ (i : Nat) (p : π) (r : μ × Option ScoreTable × List Ev), params[i]? = some p →
      rs[i]? = some r → evaluator p [paramsName i] = .ok r := by
    intro i p r hp hrr
    have hi := (List.getElem?_eq_some_iff.mp hp).1
    have := (List.forall₂_iff_get.mp h1).2 i (by simpa using hi) (by omega)
    simp only [List.get_eq_getElem, List.getElem_zipIdx, Nat.zero_add] at this
    rw [(List.getElem?_eq_some_iff.mp hp).2, (List.getElem?_eq_some_iff.mp hrr).2] at this
    exact this
  have hcand : ∀ (i : Nat) (c : (π × μ) × Option ScoreTable × List Ev),
      ((params.zip rs).map (fun p => ((p.1, p.2.1), p.2.2.1, p.2.2.2)))[i]? = some c ↔
      ∃ p r, params[i]? = some p ∧ rs[i]? = some r ∧ c = ((p, r.1), r.2.1, r.2.2) := by
    intro i c
    simp only [List.getElem?_map, Option.map_eq_some_iff, List.getElem?_zip_eq_some, Prod.exists]
    constructor
    · rintro ⟨p, a, b, d, ⟨h2, h3⟩, rfl⟩; exact ⟨p, a, b, d, h2, h3, rfl⟩
    · rintro ⟨p, a, b, d, h2, h3, rfl⟩; exact ⟨p, a, b, d, ⟨h2, h3⟩, rfl⟩
  obtain ⟨e, c, te, h2, h3, h4, h5, h6, h7⟩ := hr.best (by
    intro c hc
    obtain ⟨i, hi⟩ := List.mem_iff_getElem?.mp hc
    obtain ⟨p, r, hp, hrr, rfl⟩ := (hcand i c).mp hi
    exact hs p _ r (hget i p r hp hrr)) (by
      intro hc
      simp only [List.map_eq_nil_iff, List.zip_eq_nil_iff] at hc
      rcases hc with hc | hc
      · exact hne hc
      · rw [hc] at hlen; exact hne (List.length_eq_zero_iff.mp (by simpa using hlen)))
  obtain ⟨p, r, hp, hrr, rfl⟩ := (hcand e c).mp h2
  refine ⟨e, p, r, te, hp, hget e p r hp hrr, h3, h4.trans h5.symm, h5, h6, ?_⟩
  intro i p' hp' hie
  have hi := (List.getElem?_eq_some_iff.mp hp').1
  obtain ⟨r', hr'⟩ : ∃ r', rs[i]? = some r' := ⟨rs[i]'(by omega), List.getElem?_eq_getElem _⟩
  obtain ⟨ti, vi, ve, g1, g2, g3, g4⟩ := h7 i _ ((hcand i _).mpr ⟨p', r', hp', hr', rfl⟩) hie
  exact ⟨r', ti, vi, ve, hget i p' r' hp' hr', g1, g2, g3, g4⟩

/-- C50: the evaluation of a non-empty run succeeds when every table has the printed metrics and can
be compared. -/
theorem C50_succeeds {τ : Type} {metrics fields : List Str} {metric seed : Str} {path : List Str}
    {items : List (Option ScoreTable × τ)} (hne : items ≠ [])
    (hs : ∀ it ∈ items, ∃ t, it.1 = some t ∧ HasTotal fields metric t ∧
      ∀ m ∈ metrics, ∃ x, t.get? m = some x) :
    ∃ r, singleEvaluate (printMetrics metrics) (scoreBetter fields metric) seed path items none
      = .ok r := by
  have key : ∃ st, forM' (epochStep (printMetrics metrics) (scoreBetter fields metric) (path ++ [seed]))
      {} items = .ok st ∧ (items = [] ∧ st.scores = none ∨
        ∃ it ∈ items, st.scores = it.1) := by
    clear hne
    induction items using List.reverseRecOn with
    | nil => exact ⟨{}, rfl, .inl ⟨rfl, rfl⟩⟩
    | append_singleton items it ih =>
      obtain ⟨st, h1, h2⟩ := ih (fun it h => hs it (by simp [h]))
      obtain ⟨t, ht, hc, hp⟩ := hs it (by simp)
      have hprint : printMetrics metrics it.1 = .ok () := printMetrics_ok.mpr (fun m hm => by
        obtain ⟨x, hx⟩ := hp m hm
        exact ⟨t, x, ht, hx⟩)
      have hsc : st.scores = none ∨ ∃ t', st.scores = some t' ∧ HasTotal fields metric t' := by
        rcases h2 with ⟨_, h⟩ | ⟨it', hm, h⟩
        · exact .inl h
        · obtain ⟨t', ht', hc', _⟩ := hs it' (by simp [hm])
          exact .inr ⟨t', h.trans ht', hc'⟩
      obtain ⟨st', h3, t', h4, h5⟩ := step_total (pathOf := fun i => (path ++ [seed]) ++ [epochName i])
        (c := it.2) (d := [.save (path ++ [seed] ++ [epochName st.index])]) hc hsc
      refine ⟨st', forM'_snoc.mpr ⟨st, h1, ?_⟩, .inr ?_⟩
      · unfold epochStep
        rw [hprint, ht]
        exact h3
      · rcases h5 with rfl | h5
        · exact ⟨it, by simp, h4.trans ht.symm⟩
        · rcases h2 with ⟨_, h⟩ | ⟨it', hm, h⟩
          · rw [h] at h5; cases h5
          · exact ⟨it', by simp [hm], h4.trans (h5.symm.trans h)⟩
  obtain ⟨st, h1, h2⟩ := key
  rcases h2 with ⟨h, _⟩ | ⟨it, hm, h⟩
  · exact absurd h hne
  · obtain ⟨t, ht, _, hp⟩ := hs it hm
    have hprint : printMetrics metrics st.scores = .ok () := printMetrics_ok.mpr (fun m hm => by
      obtain ⟨x, hx⟩ := hp m hm
      exact ⟨t, x, h.trans ht, hx⟩)
    refine ⟨(st.best, st.scores, st.events), ?_⟩
    unfold singleEvaluate
    rw [h1]
    simp only [hprint]

/-- One epoch after a scored one: it is itself scored, and the best one so far stays scored. -/
theorem epochStep_scored {τ : Type} {printer : Option ScoreTable → Res Unit} {fields : List Str}
    {metric : Str} {base : List Str} {st st' : Sel τ} {item : Option ScoreTable × τ}
    (hf : fields ≠ []) (hs : st.scores ≠ none)
    (h : epochStep printer (scoreBetter fields metric) base st item = .ok st') :
    item.1 ≠ none ∧ st'.scores ≠ none := by
  obtain ⟨t, ht⟩ := Option.ne_none_iff_exists'.1 hs
  unfold epochStep at h
  split at h
  · cases h
  · unfold Sel.step at h
    rw [ht] at h
    have hi : item.1 ≠ none := by
      intro hn
      rw [hn] at h
      cases fields with
      | nil => exact hf rfl
      | cons f fs => simp [isBetter, scoreBetter, scoreSum] at h
    split at h
    · cases h
    · injection h with h; subst h; exact ⟨hi, hi⟩
    · injection h with h; subst h; exact ⟨hi, by simp [ht]⟩

/-- C50, error branch: once an epoch was scored, a later one without scores makes the evaluation
raise; it is never passed over silently. -/
theorem C50_missing_scores {τ : Type} {printer : Option ScoreTable → Res Unit} {fields : List Str}
    {metric seed : Str} {path : List Str} {items : List (Option ScoreTable × τ)}
    {failure : Option Err} (hf : fields ≠ []) (i j : Nat) (hij : i < j)
    (scored unscored : Option ScoreTable × τ) (hi : items[i]? = some scored)
    (hj : items[j]? = some unscored) (h1 : scored.1 ≠ none) (h2 : unscored.1 = none) :
    ∃ e, singleEvaluate printer (scoreBetter fields metric) seed path items failure = .error e := by
  cases h : singleEvaluate printer (scoreBetter fields metric) seed path items failure with
  | error e => exact ⟨e, rfl⟩
  | ok r =>
    exfalso
    obtain ⟨_, st, hrun, _, _⟩ := singleEvaluate_ok h
    generalize path ++ [seed] = base at hrun
    have later : ∀ (l : List (Option ScoreTable × τ)) (a b : Sel τ), a.scores ≠ none →
        forM' (epochStep printer (scoreBetter fields metric) base) a l = .ok b →
        ∀ x ∈ l, x.1 ≠ none := by
      intro l
      induction l with
      | nil => intro a b _ _ x hx; cases hx
      | cons y l ih =>
        intro a b ha hab x hx
        simp only [forM'] at hab
        split at hab
        · rename_i s hs
          obtain ⟨g1, g2⟩ := epochStep_scored hf ha hs
          rcases List.mem_cons.1 hx with rfl | hx
          · exact g1
          · exact ih _ _ g2 hab x hx
        · cases hab
    have first : ∀ (l : List (Option ScoreTable × τ)) (a b : Sel τ) (i j : Nat), i < j →
        l[i]? = some scored → l[j]? = some unscored →
        forM' (epochStep printer (scoreBetter fields metric) base) a l = .ok b → False := by
      intro l
      induction l with
      | nil => intro a b i j _ hi; simp at hi
      | cons y l ih =>
        intro a b i j hij hi hj hab
        simp only [forM'] at hab
        split at hab
        · rename_i s hs
          cases j with
          | zero => omega
          | succ j =>
            rw [List.getElem?_cons_succ] at hj
            cases i with
            | zero =>
              rw [List.getElem?_cons_zero] at hi
              injection hi with hi
              subst hi
              refine later l s b ?_ hab _ (List.mem_of_getElem? hj) h2
              by_cases ha : a.scores = none
              · unfold epochStep at hs
                split at hs
                · cases hs
                · simp only [Sel.step, ha, isBetter] at hs
                  injection hs with hs
                  subst hs
                  exact h1
              · exact (epochStep_scored hf ha hs).2
            | succ i => exact ih s b i j (by omega) hi hj hab
        · cases hab
    exact first items _ st i j hij hi hj hrun

/-- The hypotheses are met by a trainer that scores its first epoch only. -/
example : singleEvaluate (fun _ => .ok ()) Demo.cmpUpos "42".toList []
    [(some (Demo.scores1 (1 / 2)), 10), (none, 11)] none = .error .attribute := by
  decide +kernel

/-- C50, error branch: a trainer that yields no epoch makes the evaluation raise `TypeError` as soon
as some metric is to be printed. -/
theorem C50_no_epochs {τ : Type} {better : Option ScoreTable → Option ScoreTable → Res Bool}
    (metrics : List Str) (seed : Str) (path : List Str) (hm : metrics ≠ []) :
    singleEvaluate (τ := τ) (printMetrics metrics) better seed path [] none = .error .type := by
  cases metrics with
  | nil => exact absurd rfl hm
  | cons m ms => rfl

/-- The earlier of two equally good epochs is selected. -/
example : (singleEvaluate (printMetrics ["UPOS".toList]) Demo.cmpUpos "42".toList ["params-0".toList]
    Demo.epochs3 none).map (fun r => (r.1, r.2.1)) = .ok (some 11, some (Demo.scores1 (3 / 4))) := by
  decide +kernel

example : Demo.epochs3 ≠ [] ∧ ∀ it ∈ Demo.epochs3, ∃ t, it.1 = some t ∧
    HasTotal ["UPOS".toList] "f1".toList t ∧ ∀ m ∈ ["UPOS".toList], ∃ x, t.get? m = some x := by
  refine ⟨by simp [Demo.epochs3], ?_⟩
  have h : ∀ a : Rat, ∃ t, some (Demo.scores1 a) = some t ∧
      HasTotal ["UPOS".toList] "f1".toList t ∧ ∀ m ∈ ["UPOS".toList], ∃ x, t.get? m = some x := by
    intro a
    refine ⟨_, rfl, ⟨_, [a], .cons ⟨⟨a, a, a, some a⟩, rfl, .f1 _⟩ .nil, rfl⟩, ?_⟩
    intro m hm
    simp only [List.mem_singleton] at hm
    subst hm
    exact ⟨⟨a, a, a, some a⟩, rfl⟩
  intro it hit
  simp only [Demo.epochs3, List.mem_cons, List.not_mem_nil, or_false] at hit
  rcases hit with rfl | rfl | rfl <;> exact h _

/-! ### C51 -/

/-- C51: after a successful evaluation with any comparison, every epoch but the selected one has been
disposed exactly once, the selected one never, and nothing else was disposed. -/
theorem C51_disposed {τ : Type} {printer : Option ScoreTable → Res Unit}
    {better : Option ScoreTable → Option ScoreTable → Res Bool} {seed : Str} {path : List Str}
    {items : List (Option ScoreTable × τ)} {failure : Option Err}
    {r : Option τ × Option ScoreTable × List Ev}
    (h : singleEvaluate printer better seed path items failure = .ok r) (hne : items ≠ []) :
    ∃ (e : Nat) (item : Option ScoreTable × τ), items[e]? = some item ∧ r.1 = some item.2 ∧
      r.2.1 = item.1 ∧
      (∀ i, r.2.2.count (.remove (path ++ [seed, epochName i])) =
        if i < items.length ∧ i ≠ e then 1 else 0) ∧
      ∀ p, .remove p ∈ r.2.2 → ∃ i < items.length, p = path ++ [seed, epochName i] := by
  obtain ⟨_, st, h1, _, rfl⟩ := singleEvaluate_ok h
  have hr := epochs_run h1
  have hinj : ∀ i j, path ++ [seed] ++ [epochName i] = path ++ [seed] ++ [epochName j] → i = j := by
    intro i j hij
    have := List.append_cancel_left hij
    injection this with this
    exact epochName_inj this
  have hd : ∀ c ∈ epochCands (path ++ [seed]) items, ∀ p : List Str, Ev.remove p ∉ c.2.2 := by
    intro c hc p
    obtain ⟨i, hi⟩ := List.mem_iff_getElem?.mp hc
    rw [epochCands_getElem?, Option.map_eq_some_iff] at hi
    obtain ⟨q, _, rfl⟩ := hi
    simp
  have hl := epochCands_length (path ++ [seed]) items
  have hne' : epochCands (path ++ [seed]) items ≠ [] := by
    intro hc
    rw [hc] at hl
    exact hne (List.length_eq_zero_iff.mp (by simpa using hl.symm))
  rcases hr.removed hinj (fun c hc i => hd c hc _) with ⟨hc, _⟩ | ⟨e, h2, h3, h4⟩
  · exact absurd hc hne'
  rcases hr.stored with ⟨hc, _⟩ | ⟨e', c, g1, g2, g3, g4⟩
  · exact absurd hc hne'
  rw [h3] at g4
  injection g4 with g4
  have := hinj _ _ g4
  subst this
  rw [epochCands_getElem?, Option.map_eq_some_iff] at g1
  obtain ⟨item, g5, rfl⟩ := g1
  refine ⟨e, item, g5, g2, g3, ?_, ?_⟩
  · intro i
    have := h4 i
    rw [hl] at this
    simpa using this
  · intro p hp
    rcases hr.removed_only hp with ⟨i, hi, rfl⟩ | ⟨c, hc, hp⟩
    · exact ⟨i, by rw [← hl]; exact hi, by simp⟩
    · exact absurd hp (hd c hc p)

/-- C51, every prefix: after any number of epochs of a run that succeeds the current best has not been
disposed, and all other epochs so far have. -/
theorem C51_every_prefix {τ : Type} {printer : Option ScoreTable → Res Unit}
    {better : Option ScoreTable → Option ScoreTable → Res Bool} {base : List Str}
    {items : List (Option ScoreTable × τ)} {st : Sel τ}
    (h : forM' (epochStep printer better base) {} items = .ok st) (k : Nat) (hk : 0 < k)
    (hkn : k ≤ items.length) :
    ∃ (sk : Sel τ) (e : Nat), forM' (epochStep printer better base) {} (items.take k) = .ok sk ∧ e < k ∧
      sk.path = some (base ++ [epochName e]) ∧
      ∀ i, sk.events.count (.remove (base ++ [epochName i])) = if i < k ∧ i ≠ e then 1 else 0 := by
  have hsplit : items = items.take k ++ items.drop k := (List.take_append_drop k items).symm
  rw [hsplit, forM'_append] at h
  cases hp : forM' (epochStep printer better base) {} (items.take k) with
  | error e => rw [hp] at h; cases h
  | ok sk =>
    have hr := epochs_run hp
    have hl := epochCands_length base (items.take k)
    rw [List.length_take, Nat.min_eq_left hkn] at hl
    rcases hr.removed (fun i j hij => epochName_inj (by
        have := List.append_cancel_left hij
        injection this)) (by
        intro c hc p
        obtain ⟨i, hi⟩ := List.mem_iff_getElem?.mp hc
        rw [epochCands_getElem?, Option.map_eq_some_iff] at hi
        obtain ⟨q, _, rfl⟩ := hi
        simp) with ⟨hc, _⟩ | ⟨e, h2, h3, h4⟩
    · rw [hc] at hl; simp at hl; omega
    · exact ⟨sk, e, rfl, by omega, h3, fun i => by rw [h4 i, hl]⟩

example : forM' (epochStep (printMetrics ["UPOS".toList]) Demo.cmpUpos ["p".toList]) {} Demo.epochs3 =
    .ok ⟨3, some 11, some (Demo.scores1 (3 / 4)), some ["p".toList, "epoch-1".toList],
      [.save ["p".toList, "epoch-0".toList], .save ["p".toList, "epoch-1".toList],
       .remove ["p".toList, "epoch-0".toList], .save ["p".toList, "epoch-2".toList],
       .remove ["p".toList, "epoch-2".toList]]⟩ := by decide +kernel

/-! ### C75 -/

/-- C75: after the search over all parameter sets the model directory holds, for the selected
parameters and every seed, exactly the model of the epoch whose tagger is then tested, and no other
model. -/
theorem C75_selected_models_kept {π τ : Type} {printer : Option ScoreTable → Res Unit}
    {better : Option ScoreTable → Option ScoreTable → Res Bool}
    {averager : List (Option ScoreTable) → Res ScoreTable}
    {train : Str → π → List (Option ScoreTable × τ) × Option Err} {seeds : Seeds}
    {params : List π} {st : Sel (π × List (Option τ))} (hn : seeds.list.Nodup) (hne : params ≠ [])
    (h : paramsSearch better (buildEvaluator printer better averager train seeds) params = .ok st) :
    ∃ (b : Nat) (p : π) (taggers : List (Option τ)) (sel : List (Option Nat)),
      params[b]? = some p ∧ st.best = some (p, taggers) ∧ sel.length = seeds.list.length ∧
      List.Forall₂ (fun (x : Str × Option Nat) (t : Option τ) =>
        (x.2 = none ∧ (train x.1 p).1 = [] ∧ t = none) ∨
        ∃ (e : Nat) (item : Option ScoreTable × τ), x.2 = some e ∧ (train x.1 p).1[e]? = some item ∧
          t = some item.2) (seeds.list.zip sel) taggers ∧
      ∀ q, q ∈ dirAfter [] st.events ↔
        ∃ s e, (s, some e) ∈ seeds.list.zip sel ∧ q = [paramsName b, s, epochName e] := by
  obtain ⟨rs, h1, hr⟩ := search_run h
  have hlen : params.length = rs.length := by have := h1.length_eq; simpa using this
  have hcand : ∀ (i : Nat) (c : (π × List (Option τ)) × Option ScoreTable × List Ev),
      ((params.zip rs).map (fun p => ((p.1, p.2.1), p.2.2.1, p.2.2.2)))[i]? = some c →
      ∃ p r, params[i]? = some p ∧ c = ((p, r.1), r.2.1, r.2.2) ∧
        buildEvaluator printer better averager train seeds p [paramsName i] = .ok r := by
    intro i c hc
    simp only [List.getElem?_map, Option.map_eq_some_iff, List.getElem?_zip_eq_some, Prod.exists] at hc
    obtain ⟨p, a, b, d, ⟨h2, h3⟩, rfl⟩ := hc
    refine ⟨p, (a, b, d), h2, rfl, ?_⟩
    have hi := (List.getElem?_eq_some_iff.mp h2).1
    have := (List.forall₂_iff_get.mp h1).2 i (by simpa using hi) (by omega)
    simp only [List.get_eq_getElem, List.getElem_zipIdx, Nat.zero_add] at this
    rw [(List.getElem?_eq_some_iff.mp h2).2, (List.getElem?_eq_some_iff.mp h3).2] at this
    exact this
  rcases hr.dir (fun i j q h1 h2 => paramsName_inj
      (prefix_snoc_inj (base := []) (by simpa using h1) (by simpa using h2))) (by
      intro i c hc
      obtain ⟨p, r, _, rfl, h3⟩ := hcand i c hc
      exact (evaluator_dir hn h3).1) with ⟨hc, _⟩ | ⟨e, c, h2, h3, h4, h5, h6⟩
  · simp only [List.map_eq_nil_iff, List.zip_eq_nil_iff] at hc
    rcases hc with hc | hc
    · exact absurd hc hne
    · rw [hc] at hlen
      exact absurd (List.length_eq_zero_iff.mp (by simpa using hlen)) hne
  · obtain ⟨p, r, hp, rfl, h7⟩ := hcand e c h2
    obtain ⟨_, sel, g1, g2, g3⟩ := evaluator_dir hn h7
    refine ⟨e, p, r.1, sel, hp, h4, g2, g1, ?_⟩
    intro q
    rw [h6 q]
    simp only at g3 ⊢
    rw [g3 q]
    simp

namespace Demo

/-- Two parameter sets, two seeds; the second parameter set is better. -/
def train2 (_ : Str) (p : Nat) : List (Option ScoreTable × Nat) × Option Err :=
  (if p = 0 then [(some (scores1 (1 / 2)), 0), (some (scores1 (1 / 4)), 1)]
   else [(some (scores1 (1 / 3)), 2), (some (scores1 (3 / 4)), 3)], none)

def evaluator2 := buildEvaluator (printMetrics ["UPOS".toList]) cmpUpos (averageScores ["UPOS".toList])
  train2 (.many ["1".toList, "2".toList])

end Demo

example : (paramsSearch Demo.cmpUpos Demo.evaluator2 [0, 1]).map
      (fun st => (st.best, dirAfter [] st.events)) =
    .ok (some (1, [some 3, some 3]), [["params-1".toList, "1".toList, "epoch-1".toList],
      ["params-1".toList, "2".toList, "epoch-1".toList]]) := by decide +kernel

/-- Two seeds, whose scores are averaged. -/
example : (Demo.evaluator2 1 ["p".toList]).map (fun r => (r.1, r.2.1.isSome)) = .ok ([some 3, some 3], true) := by decide +kernel

/-- C50: the score by which parameter sets are compared is the best score of the seed, or the average of the
best scores of all seeds in their order; the taggers are the best ones of the seeds. -/
theorem C50_seed_scores {π τ : Type} {printer : Option ScoreTable → Res Unit}
    {better : Option ScoreTable → Option ScoreTable → Res Bool}
    {averager : List (Option ScoreTable) → Res ScoreTable}
    {train : Str → π → List (Option ScoreTable × τ) × Option Err} {seeds : Seeds} {p : π} {path : List Str}
    {r : List (Option τ) × Option ScoreTable × List Ev}
    (h : buildEvaluator printer better averager train seeds p path = .ok r) :
    ∃ best : List (Option τ × Option ScoreTable),
      List.Forall₂ (fun seed x => ∃ evs, singleEvaluate printer better seed path (train seed p).1 (train seed p).2 =
        .ok (x.1, x.2, evs)) seeds.list best ∧
      r.1 = best.map Prod.fst ∧
      (∀ s, seeds = .one s → best.map Prod.snd = [r.2.1]) ∧
      (∀ ss, seeds = .many ss → ∃ avg, averager (best.map Prod.snd) = .ok avg ∧ r.2.1 = some avg) := by
  cases seeds with
  | one seed =>
    simp only [buildEvaluator] at h
    split at h
    · cases h
    · rename_i x hx
      injection h with h
      subst h
      exact ⟨[(x.1, x.2.1)], .cons ⟨x.2.2, hx⟩ .nil, rfl, fun _ _ => rfl, fun _ h => by cases h⟩
  | many ss =>
    simp only [buildEvaluator, averageEvaluate] at h
    split at h
    · cases h
    · rename_i rs hrs
      split at h
      · cases h
      · rename_i avg havg
        split at h
        · cases h
        · injection h with h
          subst h
          rw [mapM'_ok_iff, List.forall₂_map_left_iff] at hrs
          refine ⟨rs.map (fun r => (r.1, r.2.1)), ?_, ?_, (fun _ h => by cases h), ?_⟩
          · rw [List.forall₂_map_right_iff]
            exact hrs.imp (fun seed x hx => ⟨x.2.2, hx⟩)
          · simp
          · intro _ _
            refine ⟨avg, ?_, rfl⟩
            rw [← havg, List.map_map]
            rfl

/-! ### C52 -/

/-- The metrics every evaluation reports. -/
def metricNames : List Str := ["Tokens", "Sentences", "Words", "UPOS", "XPOS", "Feats", "AllTags",
  "Lemmas", "UAS", "LAS", "CLAS"].map String.toList

theorem table_assoc (x : Metrics) (k : Str) : x.table.get? k =
    assocGet k ([("Tokens".toList, x.tokens), ("Sentences".toList, x.sentences),
    ("Words".toList, x.words), ("UPOS".toList, x.upos), ("XPOS".toList, x.xpos),
    ("Feats".toList, x.feats), ("AllTags".toList, x.allTags), ("Lemmas".toList, x.lemmas),
    ("UAS".toList, x.uas), ("LAS".toList, x.las), ("CLAS".toList, x.clas)] ++
    x.weighted.toList.map (fun s => ("WeightedLAS".toList, s))) := by
  unfold Metrics.table
  rw [Dict.get?_ofList]
  cases x.weighted with
  | none => show metricNames.Nodup; decide +kernel
  | some w => show (metricNames ++ ["WeightedLAS".toList]).Nodup; decide +kernel

theorem table_get? (x : Metrics) {k : Str} (hk : k ∈ metricNames) : (x.table.get? k).isSome := by
  rw [table_assoc]
  have : ∀ (l : List (Str × Score)), k ∈ l.map Prod.fst → (assocGet k l).isSome := by
    intro l
    induction l with
    | nil => simp
    | cons p l ih =>
      intro h
      simp only [assocGet]
      by_cases hp : p.1 = k
      · simp [hp]
      · rw [if_neg hp]
        simp only [List.map_cons, List.mem_cons] at h
        rcases h with h | h
        · exact absurd h.symm hp
        · exact ih h
  apply this
  rw [List.map_append]
  exact List.mem_append_left _ hk

theorem table_tokens (x : Metrics) : x.table.get? "Tokens".toList = some x.tokens ∧
    x.table.get? "Sentences".toList = some x.sentences := by
  rw [table_assoc, table_assoc]
  exact ⟨rfl, rfl⟩

/-- C52 is false in general: the metrics `Tokens` and `Sentences` of an evaluation have no aligned
accuracy, and averaging any of them over any number of evaluations raises `TypeError`. -/
theorem C52_refuted_unaligned (lower : Str → Str) {metrics : List Str} (hn : metrics.Nodup)
    {m : Str} (hm : m ∈ metrics) (hm' : m = "Tokens".toList ∨ m = "Sentences".toList)
    (hall : ∀ k ∈ metrics, k ∈ metricNames) {ms : List Metrics} (hne : ms ≠ [])
    (hev : ∀ x ∈ ms, ∃ gold sys weights, evaluate lower gold sys weights = .ok x) :
    averageScores metrics (ms.map (fun x => some x.table)) = .error .type := by
  have hun : ∀ x ∈ ms, x.tokens.aligned = none ∧ x.sentences.aligned = none := by
    intro x hx
    obtain ⟨gold, sys, weights, h⟩ := hev x hx
    unfold evaluate at h
    split at h
    · cases h
    · split at h
      · cases h
      · split at h
        · cases h
        · injection h with h
          subst h
          exact ⟨rfl, rfl⟩
  have hx : List.Forall₂ (fun (sc : Option ScoreTable) (x : Str → Score) => ∃ t, sc = some t ∧
      ∀ m ∈ metrics, t.get? m = some (x m)) (ms.map (fun x => some x.table))
      (ms.map (fun x k => (x.table.get? k).getD x.tokens)) := by
    rw [List.forall₂_map_left_iff, List.forall₂_map_right_iff, List.forall₂_same]
    intro x _
    refine ⟨_, rfl, ?_⟩
    intro k hk
    obtain ⟨v, hv⟩ := Option.isSome_iff_exists.mp (table_get? x (hall k hk))
    simp [hv]
  refine (averageScores_cases hn (by simpa using hne) hx).2 ⟨m, hm, ?_⟩
  rw [List.filterMap_eq_nil_iff]
  intro v hv
  simp only [List.map_map, List.mem_map, Function.comp_apply] at hv
  obtain ⟨x, hx, rfl⟩ := hv
  rcases hm' with rfl | rfl
  · rw [(table_tokens x).1]; exact (hun x hx).1
  · rw [(table_tokens x).2]; exact (hun x hx).2

example : ∃ x, evaluate id Demo.udLoaded Demo.udLoaded none = .ok x := by
  obtain ⟨m, h, _⟩ := C31_self id none ⟨_, _, Demo.udLoads⟩
  exact ⟨m, h⟩

/-- C52 is false also for a metric list with a repetition: the sums are then too large. -/
theorem C52_refuted_repeated : averageScores ["UPOS".toList, "UPOS".toList]
    [some (Demo.scores1 (1 / 2))] = .ok (Demo.scores1 1) := by decide +kernel

/-- C52 with what is missing stated as hypotheses: the metrics are distinct, occur in every table and
have an aligned accuracy there.  Then the averager returns the mean of each of the four numbers. -/
theorem C52_mean_partial {metrics : List Str} (hn : metrics.Nodup)
    {scores : List (Option ScoreTable)} (hne : scores ≠ [])
    (hs : ∀ sc ∈ scores, ∃ t, sc = some t ∧ ∀ m ∈ metrics, ∃ x, t.get? m = some x ∧ x.aligned.isSome) :
    ∃ res, averageScores metrics scores = .ok res ∧ res.keys = metrics ∧
      ∀ m ∈ metrics, ∃ (values : List Score) (aligned : List Rat) (r : Score),
        List.Forall₂ (fun sc v => ∃ t : ScoreTable, sc = some t ∧ t.get? m = some v) scores values ∧
        List.Forall₂ (fun (v : Score) a => v.aligned = some a) values aligned ∧
        res.get? m = some r ∧ r.precision = mean (values.map Score.precision) ∧
        r.recall = mean (values.map Score.recall) ∧ r.f1 = mean (values.map Score.f1) ∧
        r.aligned = some (mean aligned) := by
  let val : Option ScoreTable → Str → Score := fun sc m =>
    ((sc.bind (fun t => t.get? m))).getD ⟨0, 0, 0, none⟩
  have hval : ∀ sc ∈ scores, ∃ t, sc = some t ∧ ∀ m ∈ metrics, t.get? m = some (val sc m) ∧
      (val sc m).aligned.isSome := by
    intro sc hsc
    obtain ⟨t, rfl, ht⟩ := hs sc hsc
    refine ⟨t, rfl, ?_⟩
    intro m hm
    obtain ⟨x, hx, ha⟩ := ht m hm
    have : val (some t) m = x := by simp [val, hx]
    rw [this]; exact ⟨hx, ha⟩
  have hx : List.Forall₂ (fun (sc : Option ScoreTable) (x : Str → Score) => ∃ t, sc = some t ∧
      ∀ m ∈ metrics, t.get? m = some (x m)) scores (scores.map val) := by
    rw [List.forall₂_map_right_iff, List.forall₂_same]
    intro sc hsc
    obtain ⟨t, h1, h2⟩ := hval sc hsc
    exact ⟨t, h1, fun m hm => (h2 m hm).1⟩
  have hal : ∀ m ∈ metrics, ((scores.map val).map (fun x => x m)).filterMap Score.aligned =
      scores.map (fun sc => (val sc m).aligned.getD 0) := by
    intro m hm
    rw [List.map_map, List.filterMap_map]
    have hs' : ∀ sc ∈ scores, (val sc m).aligned.isSome := fun sc hsc => by
      obtain ⟨t, _, h2⟩ := hval sc hsc
      exact (h2 m hm).2
    clear hx hval hs hne
    induction scores with
    | nil => rfl
    | cons sc scores ih =>
      obtain ⟨a, ha⟩ := Option.isSome_iff_exists.mp (hs' sc (by simp))
      simp only [List.filterMap_cons, Function.comp_apply, ha, List.map_cons, Option.getD_some]
      congr 1
      exact ih (fun sc h => hs' sc (by simp [h]))
  obtain ⟨res, h1, h2, h3⟩ := (averageScores_cases hn hne hx).1 (by
    intro m hm
    rw [hal m hm]
    simpa using hne)
  refine ⟨res, h1, h2, ?_⟩
  intro m hm
  have h4 := h3 m hm
  rw [hal m hm] at h4
  refine ⟨scores.map (fun sc => val sc m), scores.map (fun sc => (val sc m).aligned.getD 0), _, ?_, ?_,
    h4, ?_, ?_, ?_, ?_⟩
  · rw [List.forall₂_map_right_iff, List.forall₂_same]
    intro sc hsc
    obtain ⟨t, g1, g2⟩ := hval sc hsc
    exact ⟨t, g1, (g2 m hm).1⟩
  · rw [List.forall₂_map_left_iff, List.forall₂_map_right_iff, List.forall₂_same]
    intro sc hsc
    obtain ⟨t, _, g2⟩ := hval sc hsc
    obtain ⟨a, ha⟩ := Option.isSome_iff_exists.mp (g2 m hm).2
    rw [ha]; rfl
  all_goals simp [mean, List.map_map, Function.comp_def]

example : averageScores ["UPOS".toList] [some (Demo.scores1 (1 / 2)), some (Demo.scores1 1)] =
    .ok (Demo.scores1 (3 / 4)) := by decide +kernel

/-! ### C53 -/

/-- C53: for constructed gold documents the test documents exist, and each has the text, the sentences
and the spans of its gold document but no annotation of any token. -/
theorem C53_blind {docs : List Document} (hb : ∀ d ∈ docs, Built d) :
    ∃ out, prepareTestData docs = .ok out ∧
      List.Forall₂ (fun d o : Document => Built o ∧ o.text = d.text ∧ o.sentences = d.sentences ∧
        List.Forall₂ (fun t u : Token => u.start = t.start ∧ u.stop = t.stop ∧ u.sub = t.sub ∧
          u.repl = t.repl ∧ u.extras = t.extras ∧ u.pos = none ∧ u.lemma' = none ∧ u.deprel = none ∧
          u.headDoc = none ∧ u.headSent = none) d.tokens o.tokens) docs out := by
  have key : ∀ d ∈ docs, clearDocument d = .ok ⟨d.text, d.tokens.map (fun t =>
      { t with pos := none, lemma' := none, deprel := none, headDoc := none, headSent := none }),
      d.sentences⟩ := by
    intro d hd
    have h1 : mapM' clearToken d.tokens = .ok (d.tokens.map (fun t =>
      { t with pos := none, lemma' := none, deprel := none, headDoc := none, headSent := none })) := by
      rw [mapM'_ok_iff, List.forall₂_map_right_iff, List.forall₂_same]
      intro t _
      simp [clearToken, Token.withMorphology_ok, Token.withSyntax_ok]
    unfold clearDocument
    rw [h1]
    refine fromDocument_headless (hb d hd).docOk ?_ ?_
    · rw [List.forall₂_map_right_iff, List.forall₂_same]
      intro t _
      exact ⟨rfl, rfl, rfl, rfl⟩
    · intro t ht
      obtain ⟨t', _, rfl⟩ := List.mem_map.mp ht
      exact ⟨rfl, rfl⟩
  refine ⟨docs.map (fun d => ⟨d.text, d.tokens.map (fun t =>
      { t with pos := none, lemma' := none, deprel := none, headDoc := none, headSent := none }),
      d.sentences⟩), ?_, ?_⟩
  · unfold prepareTestData
    rw [mapM'_ok_iff, List.forall₂_map_right_iff, List.forall₂_same]
    exact key
  · rw [List.forall₂_map_right_iff, List.forall₂_same]
    intro d hd
    have hk := key d hd
    refine ⟨?_, rfl, rfl, ?_⟩
    · unfold clearDocument at hk
      split at hk
      · cases hk
      · exact fromDocument_built hk
    · simp only
      rw [List.forall₂_map_right_iff, List.forall₂_same]
      intro t _
      exact ⟨rfl, rfl, rfl, rfl, rfl, rfl, rfl, rfl, rfl, rfl⟩

example : (prepareTestData [Demo.doc]).map (fun l => l.map (fun d => (d.text, d.sentences,
    d.tokens.map Token.headDoc))) = .ok [(Demo.doc.text, Demo.doc.sentences,
      Demo.doc.tokens.map (fun _ => none))] ∧ (∃ t ∈ Demo.doc.tokens, t.headDoc ≠ none) := by decide +kernel

end Verif
