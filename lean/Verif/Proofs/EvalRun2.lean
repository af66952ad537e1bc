import Verif.Proofs.EvalRun
import Verif.Spec.EvalRun

/-!
# What a run selects, reports and leaves
-/

namespace Verif

variable {π τ : Type}

theorem printMetrics_some {fields : List Str} {s : Option ScoreTable} (hne : fields ≠ [])
    (h : printMetrics fields s = .ok ()) : ∃ t, s = some t := by
  cases s with
  | some t => exact ⟨t, rfl⟩
  | none =>
    cases fields with
    | nil => exact absurd rfl hne
    | cons m ms => cases h

theorem RunArgs.round_value (a : RunArgs π τ) {base : List Str} {n : Nat} {r : Round τ}
    {y : τ × Option ScoreTable} (h : (a.round base n r).value = .ok y) :
    r.outcome = .ok (y.2, y.1) ∧ printMetrics a.printFields y.2 = .ok () ∧
      (r.saved = true → ∀ disk, a.modelDir ++ base ++ [epochName n] ∈ dirAfter disk (a.round base n r).events) ∧
      ∀ q, Ev.remove q ∉ (a.round base n r).events := by
  have hno : ∀ q, Ev.remove q ∉ (a.round base n r).events := by
    intro q hq
    have := a.round_all base n r (P := fun e => ∀ q, e ≠ .remove q) (by simp) (by simp)
    exact this _ hq q rfl
  rw [RunArgs.round] at h hno ⊢
  obtain ⟨_, _, h1, e1⟩ := Tr.bind_value h
  obtain ⟨_, _, h2, _⟩ := Tr.bind_value h1
  obtain ⟨item, h3, h4, _⟩ := Tr.bind_value h2
  obtain ⟨_, h5, h6, _⟩ := Tr.bind_value h4
  injection h6 with h6
  subst h6
  refine ⟨h3, h5, ?_, hno⟩
  intro hs disk
  refine mem_dirAfter_saved ?_ (fun q hq => absurd hq (hno q))
  rw [e1, hs]
  simp [Tr.tell]

theorem forall₂_zipIdx_get {α β : Type} {P : α × Nat → β → Prop} {l : List α} {ys : List β}
    (h : List.Forall₂ P l.zipIdx ys) {i : Nat} {x : α} (hx : l[i]? = some x) :
    ∃ y, ys[i]? = some y ∧ P (x, i) y := by
  have h1 : l.zipIdx[i]? = some (x, i) := by simp [List.getElem?_zipIdx, hx]
  obtain ⟨hlt, h1⟩ := List.getElem?_eq_some_iff.1 h1
  have hlt' : i < ys.length := h.length_eq ▸ hlt
  refine ⟨ys[i], by simp [hlt'], ?_⟩
  have := h.get hlt hlt'
  simpa [h1] using this

theorem forall₂_zipIdx_get' {α β : Type} {P : α × Nat → β → Prop} {l : List α} {ys : List β}
    (h : List.Forall₂ P l.zipIdx ys) {i : Nat} {y : β} (hy : ys[i]? = some y) :
    ∃ x, l[i]? = some x ∧ P (x, i) y := by
  obtain ⟨hlt, _⟩ := List.getElem?_eq_some_iff.1 hy
  have hlt' : i < l.length := by have := h.length_eq; simp at this; omega
  obtain ⟨y', h1, h2⟩ := forall₂_zipIdx_get h (i := i) (x := l[i]) (by simp [hlt'])
  rw [hy] at h1
  injection h1 with h1
  subst h1
  exact ⟨_, by simp [hlt'], h2⟩

/-- The selected epoch of a seed, with its tagger and its model on the disk. -/
theorem RunArgs.single_best (a : RunArgs π τ) (hne : a.printFields ≠ []) {train : Str → π → List (Round τ)}
    {p : π} {path : List Str} {seed : Str} {r : (List Str × Option τ) × Option ScoreTable}
    (h : (a.single train p path seed).value = .ok r) :
    ∃ e tagger table, BestAt a.cmpFields a.cmpMetric (train seed p) e tagger table ∧
      r = ((path ++ [seed], some tagger), some table) ∧
      ∀ rd, (train seed p)[e]? = some rd → rd.saved = true →
        ∀ disk, a.modelDir ++ (path ++ [seed, epochName e]) ∈ dirAfter disk (a.single train p path seed).events := by
  rw [RunArgs.single] at h ⊢
  obtain ⟨st, h1, h2, ev1⟩ := Tr.bind_value h
  obtain ⟨_, h3, h4, ev2⟩ := Tr.bind_value h2
  injection h4 with h4
  subst h4
  obtain ⟨t0, ht0⟩ := printMetrics_some hne h3
  obtain ⟨ys, h5, sel, h6, rfl⟩ := a.search_spec h1
  have hys : ∀ c ∈ ys.map (fun y => (y.1, y.2, ([] : List Ev))), c.2.1.isSome := by
    intro c hc
    obtain ⟨y, hy, rfl⟩ := List.mem_map.1 hc
    obtain ⟨i, hi⟩ := List.mem_iff_getElem?.1 hy
    obtain ⟨rd, _, hrd⟩ := forall₂_zipIdx_get' h5 hi
    obtain ⟨t, ht⟩ := printMetrics_some hne (a.round_value hrd).2.1
    simp [ht]
  have hnil : ys.map (fun y => (y.1, y.2, ([] : List Ev))) ≠ [] := by
    intro hc
    rw [hc] at h6
    rcases h6.stored with ⟨_, rfl⟩ | ⟨e, c, h7, _⟩
    · cases ht0
    · simp at h7
  obtain ⟨e, c, te, h7, h8, h9, h10, h11, h12⟩ := h6.best hys hnil
  rw [List.getElem?_map, Option.map_eq_some_iff] at h7
  obtain ⟨y, hy, rfl⟩ := h7
  obtain ⟨rd, hrd, hrd'⟩ := forall₂_zipIdx_get' h5 hy
  obtain ⟨ho, _, hsave, _⟩ := a.round_value hrd'
  have h10 : y.2 = some te := h10
  rw [h10] at ho
  refine ⟨e, y.1, te, ⟨⟨rd, hrd, ho⟩, ?_⟩, ?_, ?_⟩
  · intro i r' hr' hie
    obtain ⟨y', hy', hr''⟩ := forall₂_zipIdx_get h5 hr'
    obtain ⟨ti, vi, ve, h13, h14, h15, h16⟩ := h12 i (y'.1, y'.2, [])
      (by rw [List.getElem?_map, hy']; rfl) hie
    have ho' := (a.round_value hr'').1
    have h13 : y'.2 = some ti := h13
    rw [h13] at ho'
    exact ⟨ti, y'.1, vi, ve, ho', h14, h15, h16⟩
  · have e1 : sel.pick.best = some y.1 := h8
    have e2 : sel.pick.scores = some te := h9
    rw [e1, e2]
  · intro rd' hrd2 hs disk
    rw [hrd] at hrd2
    injection hrd2 with hrd2
    subst hrd2
    have hk := a.search_kept (fun i j q h1 h2 => epochName_inj (prefix_snoc_inj h1 h2)) (make := a.round (path ++ [seed]))
      (by
        intro i x q hq
        have := a.round_all (path ++ [seed]) i x (P := fun e => ∀ q, e ≠ .remove q) (by simp) (by simp)
        exact absurd rfl (this _ hq q)) h1 e rd hrd h11
      (a.modelDir ++ (path ++ [seed, epochName e])) (by simp) (by
        intro disk
        have := hsave hs disk
        simpa using this) disk
    rw [ev1, ev2]
    simp only [Tr.lift, Tr.pure, List.append_nil]
    exact hk

theorem Tr.All.loop_inv {σ α : Type} {P : Ev → Prop} {f : σ → α → Tr σ} {I : σ → Prop}
    (hf : ∀ s a, I s → (f s a).All P) (hi : ∀ s a s', I s → (f s a).value = .ok s' → I s') (l : List α) :
    ∀ s, I s → (Tr.loop f s l).All P := by
  induction l with
  | nil => exact fun s _ => .pure s
  | cons a l ih => exact fun s hs => .bind (hf s a hs) (fun s' hs' => ih s' (hi s a s' hs hs'))

/-- Removing happens below the place of the seed. -/
theorem RunArgs.single_local (a : RunArgs π τ) (train : Str → π → List (Round τ)) (p : π) (path : List Str)
    (seed : Str) : (a.single train p path seed).All
      (fun e => ∀ q, e = .remove q → a.modelDir ++ (path ++ [seed]) <+: q) := by
  refine .bind (.loop_inv (I := fun st => ∀ q, st.path = some q → path ++ [seed] <+: q) ?_ ?_ _ _ (by simp))
    (fun _ _ => .bind (.lift _) (fun _ _ => .pure _))
  · intro st rd hst
    refine a.epoch_all _ _ _ (by simp) (by simp) ?_
    intro _ q hq q' hq'
    injection hq' with hq'
    subst hq'
    refine (List.prefix_append_right_inj _).2 ?_
    rcases List.mem_append.1 hq with hq | hq
    · exact hst q (by simpa using hq)
    · simp only [List.mem_singleton] at hq
      rw [hq]
      exact List.prefix_append _ _
  · intro st rd st' hst h q hq
    rw [RunArgs.epoch, RunArgs.tryOne] at h
    obtain ⟨y, _, h, _⟩ := Tr.bind_value h
    rcases a.choose_events h with ⟨h1, _⟩ | ⟨h1, _⟩
    · rw [h1] at hq
      injection hq with hq
      subst hq
      exact List.prefix_append _ _
    · exact hst q (h1 ▸ hq)

theorem RunArgs.evaluateParams_local (a : RunArgs π τ) (train : Str → π → List (Round τ)) (p : π)
    (path : List Str) : (a.evaluateParams train p path).All
      (fun e => ∀ q, e = .remove q → a.modelDir ++ path <+: q) := by
  have hs : ∀ seed, (a.single train p path seed).All
      (fun e => ∀ q, e = .remove q → a.modelDir ++ path <+: q) := by
    intro seed
    refine (a.single_local train p path seed).mono ?_
    intro e he q hq
    refine List.IsPrefix.trans ?_ (he q hq)
    rw [← List.append_assoc]
    exact List.prefix_append _ _
  rw [RunArgs.evaluateParams]
  split
  · exact .bind (hs _) (fun _ _ => .pure _)
  · exact .bind (.mapM (fun s _ => hs s))
      (fun _ _ => .bind (.lift _) (fun _ _ => .bind (.lift _) (fun _ _ => .pure _)))

/-- What evaluating the seeds one after the other leaves. -/
theorem seeds_kept (a : RunArgs π τ) (train : Str → π → List (Round τ)) (p : π) (path : List Str)
    {seeds : List Str} (hn : seeds.Nodup) {s : Str} (hs : s ∈ seeds) {q : List Str}
    (hq : a.modelDir ++ (path ++ [s]) <+: q)
    (h : ∀ disk, q ∈ dirAfter disk (a.single train p path s).events) (disk : List (List Str)) :
    q ∈ dirAfter disk ((seeds.map (fun s => (a.single train p path s).events)).flatten) := by
  obtain ⟨pre, post, rfl⟩ := List.append_of_mem hs
  simp only [List.map_append, List.map_cons, List.flatten_append, List.flatten_cons]
  rw [dirAfter_append, dirAfter_append]
  refine mem_dirAfter_kept (h _) ?_
  intro r hr hrq
  obtain ⟨evs, h1, h2⟩ := List.mem_flatten.1 hr
  obtain ⟨s', hs', rfl⟩ := List.mem_map.1 h1
  have h3 := (a.single_local train p path s' _ h2 r rfl).trans hrq
  have hss : s' = s := by
    have h4 : a.modelDir ++ (path ++ [s']) = a.modelDir ++ (path ++ [s]) :=
      (List.prefix_of_prefix_length_le h3 hq (by simp)).eq_of_length (by simp)
    have := List.append_cancel_left (List.append_cancel_left h4)
    simpa using this
  subst hss
  rw [List.nodup_append] at hn
  have := (List.nodup_cons.1 hn.2.1).1
  exact this hs'

/-- What evaluating a parameter set gives. -/
theorem RunArgs.evaluateParams_best (a : RunArgs π τ) (hne : a.printFields ≠ [])
    {train : Str → π → List (Round τ)} {p : π} {path : List Str}
    {r : List (List Str × Option τ) × Option ScoreTable}
    (h : (a.evaluateParams train p path).value = .ok r) :
    ∃ sel table, SelectedFor a train p sel ∧ Together a (sel.map (fun x => x.2.2)) table ∧
      r.2 = some table ∧
      r.1 = (a.seeds.list.zip sel).map (fun x => (path ++ [x.1], some x.2.2.1)) ∧
      (a.seeds.list.Nodup → ∀ s x, (s, x) ∈ a.seeds.list.zip sel → ∀ rd, (train s p)[x.1]? = some rd →
        rd.saved = true → ∀ disk,
          a.modelDir ++ (path ++ [s, epochName x.1]) ∈ dirAfter disk (a.evaluateParams train p path).events) := by
  rw [RunArgs.evaluateParams] at h ⊢
  cases hs : a.seeds with
  | one seed =>
    rw [hs] at h
    simp only at h ⊢
    obtain ⟨x, h1, h2, ev⟩ := Tr.bind_value h
    injection h2 with h2
    subst h2
    obtain ⟨e, tg, tb, h3, rfl, h5⟩ := a.single_best hne h1
    refine ⟨[(e, tg, tb)], tb, ?_, ?_, rfl, ?_, ?_⟩
    · rw [SelectedFor, hs]
      exact .cons h3 .nil
    · rw [Together, hs]; rfl
    · simp [Seeds.list]
    · intro _ s x hx rd hrd hsv disk
      simp only [Seeds.list, List.zip_cons_cons, List.zip_nil_right, List.mem_singleton, Prod.mk.injEq] at hx
      obtain ⟨rfl, rfl⟩ := hx
      rw [ev]
      simp only [Tr.pure, List.append_nil]
      exact h5 rd hrd hsv disk
  | many seeds =>
    rw [hs] at h
    simp only at h ⊢
    obtain ⟨rs, h1, h2, ev1⟩ := Tr.bind_value h
    obtain ⟨avg, h3, h4, ev2⟩ := Tr.bind_value h2
    obtain ⟨u, _, h6, ev3⟩ := Tr.bind_value h4
    injection h6 with h6
    subst h6
    obtain ⟨h7, ev4⟩ := Tr.mapM_value h1
    have key : ∀ {l : List Str} {rs : List ((List Str × Option τ) × Option ScoreTable)},
        List.Forall₂ (fun s r => (a.single train p path s).value = .ok r) l rs →
        ∃ sel : List (Nat × τ × ScoreTable),
          List.Forall₂ (fun s x => BestAt a.cmpFields a.cmpMetric (train s p) x.1 x.2.1 x.2.2) l sel ∧
          rs.map Prod.snd = (sel.map (fun x => x.2.2)).map some ∧
          rs.map Prod.fst = (l.zip sel).map (fun x => (path ++ [x.1], some x.2.2.1)) ∧
          ∀ s x, (s, x) ∈ l.zip sel → ∀ rd, (train s p)[x.1]? = some rd → rd.saved = true → ∀ disk,
            a.modelDir ++ (path ++ [s, epochName x.1]) ∈ dirAfter disk (a.single train p path s).events := by
      intro l rs h
      induction h with
      | nil => exact ⟨[], .nil, rfl, rfl, by simp⟩
      | @cons s r l rs hx _ ih =>
        obtain ⟨sel, i1, i2, i3, i4⟩ := ih
        obtain ⟨e, tg, tb, h3, rfl, h5⟩ := a.single_best hne hx
        refine ⟨(e, tg, tb) :: sel, .cons h3 i1, by simp [i2], by simp [i3], ?_⟩
        intro s' x hx'
        rw [List.zip_cons_cons, List.mem_cons] at hx'
        rcases hx' with hx' | hx'
        · injection hx' with e1 e2
          subst e1 e2
          exact h5
        · exact i4 s' x hx'
    obtain ⟨sel, k1, k2, k3, k4⟩ := key h7
    refine ⟨sel, avg, ?_, ?_, rfl, k3, ?_⟩
    · rw [SelectedFor, hs]; exact k1
    · rw [Together, hs]
      simp only
      rw [← k2]
      exact h3
    · intro hn s x hx rd hrd hsv disk
      rw [ev1, ev2, ev3, ev4]
      simp only [Tr.lift, Tr.pure, List.append_nil]
      refine seeds_kept a train p path hn (List.of_mem_zip hx).1 ?_ (k4 s x hx rd hrd hsv) disk
      simp

end Verif
