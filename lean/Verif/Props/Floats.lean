import Verif.Proofs.Floats
import Mathlib.Tactic.NormNum.BigOperators

/-! # C156: rounding does not decide which model is selected -/

namespace Verif

namespace Demo

/-- A rounding with the values of double precision at 0.1, 0.2, 0.3 and 0.1 + 0.2, and exact elsewhere. -/
def someDoubles (x : Rat) : Rat :=
  if x = 1 / 10 then 3602879701896397 / 2 ^ 55
  else if x = 2 / 10 then 3602879701896397 / 2 ^ 54
  else if x = 3 / 10 then 5404319552844595 / 2 ^ 54
  else if x = 3602879701896397 / 2 ^ 55 + 3602879701896397 / 2 ^ 54 then 5404319552844596 / 2 ^ 54
  else x

/-- The scores of a tagger of ten words in two fields. -/
def flTable (rnd : Rat → Rat) (a b : Nat) : ScoreTable :=
  Dict.ofList [("UPOS".toList, flScore rnd 10 10 a (some 10)), ("Lemmas".toList, flScore rnd 10 10 b (some 10))]

/-- The number of right words per field. -/
def rightOf (p : Nat × Nat) (f : Str) : Nat := if f = "UPOS".toList then p.1 else p.2

end Demo

/-- It has the error of double precision. -/
theorem someDoubles_error (x : Rat) : |Demo.someDoubles x - x| ≤ 1 / 2 ^ 53 * |x| := by
  unfold Demo.someDoubles
  split
  · next h => subst h; norm_num [abs_of_pos, abs_le]
  · split
    · next h => subst h; norm_num [abs_of_pos, abs_le]
    · split
      · next h => subst h; norm_num [abs_of_neg, abs_of_pos, abs_le]
      · split
        · next h => subst h; norm_num [abs_of_neg, abs_of_pos, abs_le]
        · simp

variable {rnd : Rat → Rat} {u : Rat}

/-- C156: epochs tested on a file of `n` words, `right` says how many of them each tagger has right per field.  All arithmetic is
rounded with unit roundoff `u`.  The selected tagger has the greatest number of right answers of all epochs; with one field of comparison
it is the first of those.  For double precision (`u` = 2 ^ -53) and up to five fields any file of less than 10 ^ 14 words will do. -/
theorem C156_selected_epoch {τ : Type} (hr : ∀ x, |rnd x - x| ≤ u * |x|) (hu : 0 ≤ u)
    {printer : Option ScoreTable → Res Unit} {fields : List Str} {metric seed : Str} {path : List Str}
    {items : List (Option ScoreTable × τ)} {failure : Option Err} {r : Option τ × Option ScoreTable × List Ev}
    (hm : metric ∈ ["precision".toList, "recall".toList, "f1".toList, "aligned_accuracy".toList])
    {n : Nat} (hn : 0 < n) {right : τ → Str → Nat}
    (hs : ∀ it ∈ items, ∃ t, it.1 = some t ∧
      ∀ f ∈ fields, right it.2 f ≤ n ∧ t.get? f = some (flScore rnd n n (right it.2 f) (some n)))
    (hsmall : u * fields.length * (fields.length + 5) * n < 1)
    (h : singleEvaluate printer (flBetter rnd fields metric) seed path items failure = .ok r) (hne : items ≠ []) :
    ∃ (e : Nat) (item : Option ScoreTable × τ), items[e]? = some item ∧ r.1 = some item.2 ∧ r.2.1 = item.1 ∧
      ∀ (i : Nat) (other : Option ScoreTable × τ), items[i]? = some other →
        (fields.map (right other.2)).sum ≤ (fields.map (right item.2)).sum ∧
        (fields.length = 1 → i < e → (fields.map (right other.2)).sum < (fields.map (right item.2)).sum) := by
  classical
  obtain ⟨_, st, h1, _, rfl⟩ := singleEvaluate_ok h
  have hrun := epochs_run h1
  have hne' : epochCands (path ++ [seed]) items ≠ [] := by
    intro hc
    have := epochCands_length (path ++ [seed]) items
    rw [hc] at this
    exact hne (List.length_eq_zero_iff.mp (by simpa using this.symm))
  let v : ScoreTable → Rat := fun t => ((flSum rnd fields metric (some t)).toOption).getD 0
  have hval : ∀ {c : τ} {t : ScoreTable},
      (∀ f ∈ fields, right c f ≤ n ∧ t.get? f = some (flScore rnd n n (right c f) (some n))) →
      HasValues fields metric t (fun f => rnd ((right c f : Rat) / n)) := by
    intro c t ht f hf
    exact ⟨_, (ht f hf).2, flScore_attr hn hm⟩
  have hv : ∀ {c : τ} {t : ScoreTable},
      (∀ f ∈ fields, right c f ≤ n ∧ t.get? f = some (flScore rnd n n (right c f) (some n))) →
      v t = flFold rnd 0 (fields.map (fun f => rnd ((right c f : Rat) / n))) := by
    intro c t ht
    show ((flSum rnd fields metric (some t)).toOption).getD 0 = _
    rw [flSum_values (hval ht)]
    rfl
  obtain ⟨e, c, te, h2, h3, h4, h5, _, h7⟩ := hrun.select v
    (fun t => ∃ c : τ, ∀ f ∈ fields, right c f ≤ n ∧ t.get? f = some (flScore rnd n n (right c f) (some n)))
    (by
      rintro a b ⟨ca, ha⟩ ⟨cb, hb⟩
      rw [flBetter_values (hval ha) (hval hb), hv ha, hv hb])
    (by
      intro c hc
      obtain ⟨i, hi⟩ := List.mem_iff_getElem?.mp hc
      rw [epochCands_getElem?, Option.map_eq_some_iff] at hi
      obtain ⟨p, hp, rfl⟩ := hi
      obtain ⟨t, ht, ht'⟩ := hs p (List.mem_of_getElem? hp)
      exact ⟨t, ht, p.2, ht'⟩) hne'
  rw [epochCands_getElem?, Option.map_eq_some_iff] at h2
  obtain ⟨item, h8, rfl⟩ := h2
  refine ⟨e, item, h8, h3, h4.trans h5.symm, ?_⟩
  intro i other ho
  obtain ⟨ti, g1, g2, g3⟩ := h7 i (other.2, other.1, [.save (path ++ [seed] ++ [epochName i])])
    (by rw [epochCands_getElem?, ho]; rfl)
  obtain ⟨te', k1, k2⟩ := hs item (List.mem_of_getElem? h8)
  obtain ⟨ti', k3, k4⟩ := hs other (List.mem_of_getElem? ho)
  have e1 : te' = te := by rw [k1] at h5; injection h5
  have e2 : ti' = ti := by rw [k3] at g1; injection g1
  subst e1 e2
  rw [hv k2, hv k4] at g2 g3
  have key : (fields.map (right other.2)).sum ≤ (fields.map (right item.2)).sum := by
    by_contra hc
    have := flFold_lt hr hu hu hn (va := fun f => rnd ((right other.2 f : Rat) / n)) (ca := right other.2)
      (vb := fun f => rnd ((right item.2 f : Rat) / n)) (cb := right item.2)
      (fun f hf => ⟨rnd_near hr hu (k4 f hf).1 hn, (k4 f hf).1⟩)
      (fun f hf => ⟨rnd_near hr hu (k2 f hf).1 hn, (k2 f hf).1⟩)
      (by
        have e : (2 * fields.length * u + u * fields.length * (fields.length + 3)) * n =
            u * fields.length * (fields.length + 5) * n := by ring
        rw [e]; exact hsmall)
      (not_le.mp hc)
    exact absurd this (not_lt.mpr g2)
  refine ⟨key, ?_⟩
  intro hone hie
  refine lt_of_le_of_ne key ?_
  intro heq
  obtain ⟨f, rfl⟩ := List.length_eq_one_iff.mp hone
  simp only [List.map_cons, List.map_nil, List.sum_cons, List.sum_nil, Nat.add_zero] at heq
  have := g3 hie
  simp only [List.map_cons, List.map_nil, heq] at this
  exact lt_irrefl _ this

/-- C156 for the search of parameters with several seeds: every parameter set has been tested with `m` seeds on files of `n` words; the
compared numbers are means over the seeds of the shares of right words, everything rounded.  The selected parameters have the greatest number
of right answers, summed up over seeds and fields. -/
theorem C156_selected_params {π μ : Type} (hr : ∀ x, |rnd x - x| ≤ u * |x|) (hu : 0 ≤ u)
    {fields : List Str} {metric : Str} {evaluator : π → List Str → EvalRes μ} {params : List π} {st : Sel (π × μ)}
    {n m : Nat} (hn : 0 < n) (hm : 0 < m) {right : π → Str → List Nat}
    (hs : ∀ p path r, evaluator p path = .ok r → ∃ t, r.2.1 = some t ∧ ∀ f ∈ fields,
      (right p f).length = m ∧ (∀ c ∈ right p f, c ≤ n) ∧
      ∃ s, t.get? f = some s ∧ AttrIs metric s (flMean rnd ((right p f).map fun (c : Nat) => rnd ((c : Rat) / n))))
    (hsmall : u * fields.length * (fields.length + m + 12) * (m * n) < 1)
    (h : paramsSearch (flBetter rnd fields metric) evaluator params = .ok st) (hne : params ≠ []) :
    ∃ (e : Nat) (p : π) (r : μ × Option ScoreTable × List Ev), params[e]? = some p ∧
      evaluator p [paramsName e] = .ok r ∧ st.best = some (p, r.1) ∧ st.scores = r.2.1 ∧
      ∀ (i : Nat) (p' : π), params[i]? = some p' →
        (fields.map fun f => (right p' f).sum).sum ≤ (fields.map fun f => (right p f).sum).sum := by
  obtain ⟨rs, h1, hrun⟩ := search_run h
  have hlen : params.length = rs.length := by have := h1.length_eq; simpa using this
  have hget : ∀ (i : Nat) (p : π) (r : μ × Option ScoreTable × List Ev), params[i]? = some p →
      rs[i]? = some r → evaluator p [paramsName i] = .ok r := by
    intro i p r hp hrr
    have hi := (List.getElem?_eq_some_iff.mp hp).1
    have := (List.forall₂_iff_get.mp h1).2 i (by simpa using hi) (by omega)
    simp only [List.get_eq_getElem, List.getElem_zipIdx, Nat.zero_add] at this
    rw [(List.getElem?_eq_some_iff.mp hp).2, (List.getElem?_eq_some_iff.mp hrr).2] at this
    exact this
  have hcand : ∀ (i : Nat) (c : (π × μ) × Option ScoreTable × List Ev),
      ((params.zip rs).map (fun p => ((p.1, p.2.1), p.2.2.1, p.2.2.2)))[i]? = some c ↔
      ∃ p r, params[i]? = some p ∧ rs[i]? = some r ∧ c = ((p, r.1), r.2.1, r.2.2) := by
    intro i c
    simp only [List.getElem?_map, Option.map_eq_some_iff, List.getElem?_zip_eq_some, Prod.exists]
    constructor
    · rintro ⟨p, a, b, d, ⟨h2, h3⟩, rfl⟩; exact ⟨p, a, b, d, h2, h3, rfl⟩
    · rintro ⟨p, a, b, d, h2, h3, rfl⟩; exact ⟨p, a, b, d, ⟨h2, h3⟩, rfl⟩
  let P : ScoreTable → π → Prop := fun t p => ∀ f ∈ fields,
      (right p f).length = m ∧ (∀ c ∈ right p f, c ≤ n) ∧
      ∃ s, t.get? f = some s ∧ AttrIs metric s (flMean rnd ((right p f).map fun (c : Nat) => rnd ((c : Rat) / n)))
  let w : π → Str → Rat := fun p f => flMean rnd ((right p f).map fun (c : Nat) => rnd ((c : Rat) / n))
  have hval : ∀ {p : π} {t : ScoreTable}, P t p → HasValues fields metric t (w p) :=
    fun ht f hf => (ht f hf).2.2
  let v : ScoreTable → Rat := fun t => ((flSum rnd fields metric (some t)).toOption).getD 0
  have hv : ∀ {p : π} {t : ScoreTable}, P t p → v t = flFold rnd 0 (fields.map (w p)) := by
    intro c t ht
    show ((flSum rnd fields metric (some t)).toOption).getD 0 = _
    rw [flSum_values (hval ht)]
    rfl
  obtain ⟨e, c, te, h2, h3, h4, h5, _, h7⟩ := hrun.select v (fun t => ∃ p, P t p)
    (by
      rintro a b ⟨ca, ha⟩ ⟨cb, hb⟩
      rw [flBetter_values (hval ha) (hval hb), hv ha, hv hb])
    (by
      intro c hc
      obtain ⟨i, hi⟩ := List.mem_iff_getElem?.mp hc
      obtain ⟨p, r, hp, hrr, rfl⟩ := (hcand i c).mp hi
      obtain ⟨t, ht, ht'⟩ := hs p _ r (hget i p r hp hrr)
      exact ⟨t, ht, p, ht'⟩) (by
      intro hc
      simp only [List.map_eq_nil_iff, List.zip_eq_nil_iff] at hc
      rcases hc with hc | hc
      · exact hne hc
      · rw [hc] at hlen; exact hne (List.length_eq_zero_iff.mp (by simpa using hlen)))
  obtain ⟨p, r, hp, hrr, rfl⟩ := (hcand e c).mp h2
  refine ⟨e, p, r, hp, hget e p r hp hrr, h3, h4.trans h5.symm, ?_⟩
  intro i p' hp'
  have hi := (List.getElem?_eq_some_iff.mp hp').1
  obtain ⟨r', hr'⟩ : ∃ r', rs[i]? = some r' := ⟨rs[i]'(by omega), List.getElem?_eq_getElem _⟩
  obtain ⟨ti, g1, g2, _⟩ := h7 i _ ((hcand i _).mpr ⟨p', r', hp', hr', rfl⟩)
  obtain ⟨te', k1, k2⟩ := hs p _ r (hget e p r hp hrr)
  obtain ⟨ti', k3, k4⟩ := hs p' _ r' (hget i p' r' hp' hr')
  have e1 : te' = te := by
    have := h5; simp only at this; rw [k1] at this; injection this
  have e2 : ti' = ti := by
    have := g1; simp only at this; rw [k3] at this; injection this
  subst e1 e2
  rw [hv (p := p) k2, hv (p := p') k4] at g2
  have hmn : 0 < m * n := Nat.mul_pos hm hn
  have hnp : (0 : Rat) < n := by exact_mod_cast hn
  have hmp : (0 : Rat) < m := by exact_mod_cast hm
  have near : ∀ {q : π} {t : ScoreTable}, P t q → ∀ f ∈ fields,
      |w q f - (((right q f).sum : Nat) : Rat) / (m * n : Nat)| ≤ u * (m + 9) / 2 ∧ (right q f).sum ≤ m * n := by
    intro q t ht f hf
    obtain ⟨l1, l2, _⟩ := ht f hf
    have hsumle : (right q f).sum ≤ m * n := by
      rw [← l1]
      have := List.sum_le_card_nsmul (right q f) n l2
      simpa using this
    refine ⟨?_, hsumle⟩
    have hk1 : (1 : Rat) ≤ fields.length := by exact_mod_cast List.length_pos_of_mem hf
    have hm1 : (1 : Rat) ≤ m := by exact_mod_cast hm
    have hn1 : (1 : Rat) ≤ n := by exact_mod_cast hn
    have hsmall2 := mean_small hu hk1 hm1 hn1 hsmall
    exact flMean_share hr hu hn hm l1 l2 hsmall2
  by_contra hc
  have := flFold_lt hr hu (δ := u * (m + 9) / 2) (by positivity) hmn (va := w p')
    (ca := fun f => (right p' f).sum) (vb := w p) (cb := fun f => (right p f).sum)
    (near k4) (near k2)
    (by
      have e : (2 * fields.length * (u * (m + 9) / 2) + u * fields.length * (fields.length + 3)) * ((m * n : Nat) : Rat) =
          u * fields.length * (fields.length + m + 12) * (m * n) := by push_cast; ring
      rw [e]; exact hsmall)
    (not_le.mp hc)
  exact absurd this (not_lt.mpr g2)

namespace Demo

/-- Two epochs with the same number of right answers, and a third one with one less. -/
def flEpochs (rnd : Rat → Rat) : List (Option ScoreTable × (Nat × Nat)) :=
  [(some (flTable rnd 3 0), (3, 0)), (some (flTable rnd 1 2), (1, 2)), (some (flTable rnd 2 0), (2, 0))]

end Demo

/-- C156, what does not hold: with several fields the first epoch of those with the greatest number of right answers need not be
selected.  With the values of double precision 0.1 + 0.2 exceeds 0.3. -/
theorem C156_tie_refuted : ∃ (rnd : Rat → Rat) (items : List (Option ScoreTable × (Nat × Nat))),
    (∀ x, |rnd x - x| ≤ 1 / 2 ^ 53 * |x|) ∧
    (∀ it ∈ items, ∃ t, it.1 = some t ∧ ∀ f ∈ ["UPOS".toList, "Lemmas".toList],
      Demo.rightOf it.2 f ≤ 10 ∧ t.get? f = some (flScore rnd 10 10 (Demo.rightOf it.2 f) (some 10))) ∧
    items[0]?.map (fun it => (["UPOS".toList, "Lemmas".toList].map (Demo.rightOf it.2)).sum) = some 3 ∧
    items[1]?.map (fun it => (["UPOS".toList, "Lemmas".toList].map (Demo.rightOf it.2)).sum) = some 3 ∧
    ∃ r, singleEvaluate (printMetrics []) (flBetter rnd ["UPOS".toList, "Lemmas".toList] "f1".toList) "1".toList [] items none =
      .ok r ∧ r.1 = (items[1]?).map Prod.snd ∧ items[0]?.map Prod.snd ≠ items[1]?.map Prod.snd := by
  refine ⟨Demo.someDoubles, Demo.flEpochs Demo.someDoubles, someDoubles_error, ?_, by decide +kernel, by decide +kernel, ?_⟩
  · intro it hit
    simp only [Demo.flEpochs, List.mem_cons, List.not_mem_nil, or_false] at hit
    rcases hit with rfl | rfl | rfl
    all_goals
      refine ⟨_, rfl, ?_⟩
      intro f hf
      simp only [List.mem_cons, List.not_mem_nil, or_false] at hf
      rcases hf with rfl | rfl
      · exact ⟨by decide +kernel, by decide +kernel⟩
      · exact ⟨by decide +kernel, by decide +kernel⟩
  · cases hc : singleEvaluate (printMetrics []) (flBetter Demo.someDoubles ["UPOS".toList, "Lemmas".toList] "f1".toList) "1".toList []
        (Demo.flEpochs Demo.someDoubles) none with
    | error e =>
      have : (singleEvaluate (printMetrics []) (flBetter Demo.someDoubles ["UPOS".toList, "Lemmas".toList] "f1".toList) "1".toList []
        (Demo.flEpochs Demo.someDoubles) none).isOk = true := by decide +kernel
      rw [hc] at this
      cases this
    | ok r =>
      refine ⟨r, rfl, ?_, by decide +kernel⟩
      have : (singleEvaluate (printMetrics []) (flBetter Demo.someDoubles ["UPOS".toList, "Lemmas".toList] "f1".toList) "1".toList []
        (Demo.flEpochs Demo.someDoubles) none).toOption.bind (·.1) = some (1, 2) := by decide +kernel
      rw [hc] at this
      exact this

/-! Cases meeting the hypotheses -/

-- the size conditions for double precision: four fields, 10 ^ 13 words; three fields, 5 seeds, 10 ^ 12 words
example : (1 / 2 ^ 53 : Rat) * (4 : Nat) * ((4 : Nat) + 5) * (10 ^ 13 : Nat) < 1 := by norm_num
example : (1 / 2 ^ 53 : Rat) * (3 : Nat) * ((3 : Nat) + (5 : Nat) + 12) * ((5 : Nat) * (10 ^ 12 : Nat)) < 1 ∧
    (1 / 2 ^ 53 : Rat) * ((5 : Nat) * ((5 : Nat) + 5) + 2) ≤ 2 := by norm_num

-- the epochs of the refutation: the tagger with one right answer less is not selected
example : ∀ it ∈ Demo.flEpochs Demo.someDoubles, ∃ t, it.1 = some t ∧ ∀ f ∈ ["UPOS".toList],
    Demo.rightOf it.2 f ≤ 10 ∧ t.get? f = some (flScore Demo.someDoubles 10 10 (Demo.rightOf it.2 f) (some 10)) := by
  intro it hit
  simp only [Demo.flEpochs, List.mem_cons, List.not_mem_nil, or_false] at hit
  rcases hit with rfl | rfl | rfl
  all_goals
    refine ⟨_, rfl, ?_⟩
    intro f hf
    simp only [List.mem_cons, List.not_mem_nil, or_false] at hf
    subst hf
    exact ⟨by decide +kernel, by decide +kernel⟩

namespace Demo

/-- Two seeds on ten words: the parameters are the numbers of right words for both seeds. -/
def flSeeds (p : List Nat) (_ : List Str) : EvalRes Unit :=
  let x := flMean someDoubles (p.map fun (c : Nat) => someDoubles ((c : Rat) / (10 : Nat)))
  .ok ((), some (Dict.ofList [("UPOS".toList, ⟨x, x, x, some x⟩)]), [])

end Demo

example : ∀ p ∈ [[1, 2], [3, 3]], ∀ path r, Demo.flSeeds p path = .ok r → ∃ t, r.2.1 = some t ∧ ∀ f ∈ ["UPOS".toList],
    p.length = 2 ∧ (∀ c ∈ p, c ≤ 10) ∧ ∃ s, t.get? f = some s ∧
      AttrIs "f1".toList s (flMean Demo.someDoubles (p.map fun (c : Nat) => Demo.someDoubles ((c : Rat) / (10 : Nat)))) := by
  intro p hp path r h
  unfold Demo.flSeeds at h
  injection h with h
  subst h
  refine ⟨_, rfl, ?_⟩
  intro f hf
  simp only [List.mem_cons, List.not_mem_nil, or_false] at hf
  subst hf
  refine ⟨?_, ?_, _, rfl, AttrIs.f1 _⟩
  · simp only [List.mem_cons, List.not_mem_nil, or_false] at hp
    rcases hp with rfl | rfl <;> rfl
  · simp only [List.mem_cons, List.not_mem_nil, or_false] at hp
    rcases hp with rfl | rfl <;> decide

-- the parameters with six right answers are selected before those with three
example : (paramsSearch (flBetter Demo.someDoubles ["UPOS".toList] "f1".toList) Demo.flSeeds [[1, 2], [3, 3], [2, 2]]).toOption.bind
    (·.best) = some ([3, 3], ()) := by decide +kernel

end Verif
