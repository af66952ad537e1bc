import Verif.Model.EvalRun
import Verif.Proofs.Evaluation
import Verif.Proofs.Average

/-!
# Runs with effects
-/

namespace Verif

variable {α β σ π τ μ : Type}

/-! ### Sequences of effects -/

theorem Tr.bind_ok {x : Tr α} {f : α → Tr β} {a : α} (h : x.value = .ok a) :
    x.bind f = ⟨x.events ++ (f a).events, (f a).value⟩ := by
  simp only [Tr.bind, h]

theorem Tr.bind_error {x : Tr α} {f : α → Tr β} {e : Err} (h : x.value = .error e) :
    x.bind f = ⟨x.events, .error e⟩ := by
  simp only [Tr.bind, h]

theorem Tr.bind_value {x : Tr α} {f : α → Tr β} {b : β} (h : (x.bind f).value = .ok b) :
    ∃ a, x.value = .ok a ∧ (f a).value = .ok b ∧ (x.bind f).events = x.events ++ (f a).events := by
  cases hx : x.value with
  | error e => rw [Tr.bind_error hx] at h; cases h
  | ok a => rw [Tr.bind_ok hx] at h ⊢; exact ⟨a, rfl, h, rfl⟩

/-- Every effect is of the given kind. -/
def Tr.All (P : Ev → Prop) (x : Tr α) : Prop := ∀ e ∈ x.events, P e

theorem Tr.All.pure {P : Ev → Prop} (a : α) : (Tr.pure a).All P := by simp [Tr.All, Tr.pure]

theorem Tr.All.lift {P : Ev → Prop} (r : Res α) : (Tr.lift r).All P := by simp [Tr.All, Tr.lift]

theorem Tr.All.tell {P : Ev → Prop} {evs : List Ev} (h : ∀ e ∈ evs, P e) : (Tr.tell evs).All P := h

theorem Tr.All.bind {P : Ev → Prop} {x : Tr α} {f : α → Tr β} (hx : x.All P)
    (hf : ∀ a, x.value = .ok a → (f a).All P) : (x.bind f).All P := by
  cases h : x.value with
  | error e => rw [Tr.bind_error h]; exact hx
  | ok a =>
    rw [Tr.bind_ok h]
    intro e he
    rcases List.mem_append.1 he with he | he
    · exact hx e he
    · exact hf a h e he

theorem Tr.All.loop {P : Ev → Prop} {f : σ → α → Tr σ} (hf : ∀ s a, (f s a).All P) (s : σ)
    (l : List α) : (Tr.loop f s l).All P := by
  induction l generalizing s with
  | nil => exact .pure s
  | cons a l ih => exact .bind (hf s a) (fun s' _ => ih s')

theorem Tr.All.mapM {P : Ev → Prop} {f : α → Tr β} {l : List α} (hf : ∀ a ∈ l, (f a).All P) :
    (Tr.mapM f l).All P := by
  induction l with
  | nil => exact .pure _
  | cons a l ih =>
    exact .bind (hf a (by simp)) (fun b _ => .bind (ih (fun x hx => hf x (by simp [hx])))
      (fun bs _ => .pure _))

theorem Tr.All.mono {P Q : Ev → Prop} {x : Tr α} (h : x.All P) (hpq : ∀ e, P e → Q e) : x.All Q :=
  fun e he => hpq e (h e he)

theorem Tr.loop_snoc {f : σ → α → Tr σ} {s : σ} {l : List α} {a : α} {s2 : σ}
    (h : (Tr.loop f s (l ++ [a])).value = .ok s2) :
    ∃ s1, (Tr.loop f s l).value = .ok s1 ∧ (f s1 a).value = .ok s2 ∧
      (Tr.loop f s (l ++ [a])).events = (Tr.loop f s l).events ++ (f s1 a).events := by
  induction l generalizing s with
  | nil =>
    obtain ⟨s1, h1, h2, h3⟩ := Tr.bind_value (x := f s a) (f := fun s' => Tr.loop f s' []) h
    refine ⟨s, rfl, ?_, ?_⟩
    · injection h2 with h2; rw [h1, h2]
    · rw [List.nil_append]; exact h3.trans (by simp [Tr.loop, Tr.pure])
  | cons b l ih =>
    rw [List.cons_append, Tr.loop] at h
    obtain ⟨s1, h1, h2, h3⟩ := Tr.bind_value h
    obtain ⟨s', h4, h5, h6⟩ := ih h2
    refine ⟨s', ?_, h5, ?_⟩
    · rw [Tr.loop, Tr.bind_ok h1]; exact h4
    · rw [List.cons_append, Tr.loop, h3, h6, Tr.loop, Tr.bind_ok h1]; simp

theorem Tr.mapM_value {f : α → Tr β} {l : List α} {bs : List β} (h : (Tr.mapM f l).value = .ok bs) :
    List.Forall₂ (fun a b => (f a).value = .ok b) l bs ∧
      (Tr.mapM f l).events = (l.map (fun a => (f a).events)).flatten := by
  induction l generalizing bs with
  | nil => injection h with h; subst h; exact ⟨.nil, rfl⟩
  | cons a l ih =>
    rw [Tr.mapM] at h ⊢
    obtain ⟨b, h1, h2, h3⟩ := Tr.bind_value h
    obtain ⟨bs', h4, h5, h6⟩ := Tr.bind_value h2
    injection h5 with h5
    subst h5
    refine ⟨.cons h1 (ih h4).1, ?_⟩
    rw [h3, h6, (ih h4).2]
    simp [Tr.pure]

/-! ### The disk -/

theorem mem_dirAfter_kept {evs : List Ev} {disk : List (List Str)} {p : List Str} (hp : p ∈ disk)
    (h : ∀ q, Ev.remove q ∈ evs → ¬ q <+: p) : p ∈ dirAfter disk evs := by
  induction evs generalizing disk with
  | nil => exact hp
  | cons e evs ih =>
    cases e with
    | save q => exact ih (by simp [hp]) (fun q hq => h q (by simp [hq]))
    | remove q =>
      refine ih ?_ (fun q hq => h q (by simp [hq]))
      simp only [List.mem_filter, hp, true_and, Bool.not_eq_true', ← Bool.not_eq_true]
      exact fun hc => h q (by simp) (by simpa using hc)

theorem mem_dirAfter_saved {evs : List Ev} {disk : List (List Str)} {p : List Str}
    (hp : Ev.save p ∈ evs) (h : ∀ q, Ev.remove q ∈ evs → ¬ q <+: p) : p ∈ dirAfter disk evs := by
  obtain ⟨pre, post, rfl⟩ := List.append_of_mem hp
  rw [dirAfter_append, dirAfter]
  exact mem_dirAfter_kept (List.mem_append_right _ (List.mem_singleton.2 rfl))
    (fun q hq => h q (by simp [hq]))

theorem mem_dirAfter_origin {evs : List Ev} {disk : List (List Str)} {p : List Str}
    (hp : p ∈ dirAfter disk evs) : p ∈ disk ∨ Ev.save p ∈ evs := by
  induction evs generalizing disk with
  | nil => exact .inl hp
  | cons e evs ih =>
    cases e with
    | save q =>
      rcases ih hp with h | h
      · rcases List.mem_append.1 h with h | h
        · exact .inl h
        · right; simp at h; simp [h]
      · exact .inr (by simp [h])
    | remove q =>
      rcases ih hp with h | h
      · exact .inl (List.mem_filter.1 h).1
      · exact .inr (by simp [h])

/-! ### What is written and removed -/

/-- The effects a run can have. -/
def RunArgs.Effect (a : RunArgs π τ) : Ev → Prop
  | .save p => ∃ i, ∃ s ∈ a.seeds.list, (∃ e, p = a.modelDir ++ [paramsName i, s, epochName e]) ∨
      (∃ e r, a.devResults = some r ∧ p = r ++ [paramsName i, s, epochDevName e]) ∨
      (∃ r, a.testResults = some r ∧ p = r ++ [paramsName i, s, "best-test.conll".toList])
  | .remove p => a.deleteAfter = true ∧ a.modelDir <+: p

theorem RunArgs.dispose_all (a : RunArgs π τ) (paths : List (List Str)) {P : Ev → Prop}
    (h : a.deleteAfter = true → ∀ p ∈ paths, P (.remove (a.modelDir ++ p))) : (a.dispose paths).All P := by
  rw [RunArgs.dispose]
  split
  · rename_i hd
    refine .tell ?_
    intro e he
    obtain ⟨p, hp, rfl⟩ := List.mem_map.1 he
    exact h hd p hp
  · exact .pure _

theorem RunArgs.choose_all (a : RunArgs π τ) (pathOf : Nat → List Str) (st : Pick μ) (cand : μ)
    (scores : Option ScoreTable) {P : Ev → Prop}
    (h : a.deleteAfter = true → ∀ p ∈ st.path.toList ++ [pathOf st.index], P (.remove (a.modelDir ++ p))) :
    (a.choose pathOf st cand scores).All P := by
  refine .bind (.lift _) (fun b _ => ?_)
  split
  · exact .bind (a.dispose_all _ (fun hd p hp => h hd p (by simp [hp]))) (fun _ _ => .pure _)
  · exact .bind (a.dispose_all _ (fun hd p hp => h hd p (by simp at hp; simp [hp]))) (fun _ _ => .pure _)

theorem writeFile_all {results : Option (List Str)} {did : Bool} {path : List Str} {P : Ev → Prop}
    (h : ∀ r, results = some r → P (.save (r ++ path))) : (writeFile results did path).All P := by
  refine .tell ?_
  split
  · intro e he
    obtain ⟨r, hr, rfl⟩ := List.mem_map.1 he
    exact h r (by simpa using hr)
  · simp

theorem RunArgs.round_all (a : RunArgs π τ) (base : List Str) (n : Nat) (r : Round τ) {P : Ev → Prop}
    (h1 : P (.save (a.modelDir ++ base ++ [epochName n])))
    (h2 : ∀ d, a.devResults = some d → P (.save (d ++ (base ++ [epochDevName n])))) :
    (a.round base n r).All P := by
  refine .bind (.tell ?_) (fun _ _ => .bind (writeFile_all h2) (fun _ _ => .bind (.lift _) (fun _ _ =>
    .bind (.lift _) (fun _ _ => .pure _))))
  split
  · intro e he; simp at he; rw [he]; simpa using h1
  · simp

theorem RunArgs.epoch_all (a : RunArgs π τ) (base : List Str) (st : Pick τ) (r : Round τ) {P : Ev → Prop}
    (h1 : P (.save (a.modelDir ++ base ++ [epochName st.index])))
    (h2 : ∀ d, a.devResults = some d → P (.save (d ++ (base ++ [epochDevName st.index]))))
    (h3 : a.deleteAfter = true → ∀ p ∈ st.path.toList ++ [base ++ [epochName st.index]],
      P (.remove (a.modelDir ++ p))) : (a.epoch base st r).All P :=
  .bind (a.round_all base _ r h1 h2) (fun _ _ => a.choose_all _ _ _ _ h3)

theorem RunArgs.single_effect (a : RunArgs π τ) (train : Str → π → List (Round τ)) (params : π) (i : Nat)
    {seed : Str} (hs : seed ∈ a.seeds.list) :
    (a.single train params [paramsName i] seed).All a.Effect := by
  refine .bind (.loop ?_ _ _) (fun _ _ => .bind (.lift _) (fun _ _ => .pure _))
  intro st r
  refine a.epoch_all _ _ _ ?_ ?_ ?_
  · exact ⟨i, seed, hs, .inl ⟨st.index, by simp⟩⟩
  · intro d hd
    exact ⟨i, seed, hs, .inr (.inl ⟨st.index, d, hd, by simp⟩)⟩
  · intro hd p _
    exact ⟨hd, List.prefix_append _ _⟩

theorem RunArgs.evaluateParams_effect (a : RunArgs π τ) (train : Str → π → List (Round τ)) (params : π)
    (i : Nat) : (a.evaluateParams train params [paramsName i]).All a.Effect := by
  rw [RunArgs.evaluateParams]
  split
  · rename_i seed hs
    exact .bind (a.single_effect train params i (by simp [hs, Seeds.list])) (fun _ _ => .pure _)
  · rename_i seeds hs
    exact .bind (.mapM (fun seed h => a.single_effect train params i (by simp [hs, Seeds.list, h])))
      (fun _ _ => .bind (.lift _) (fun _ _ => .bind (.lift _) (fun _ _ => .pure _)))

/-- The places of the selected taggers. -/
def RunArgs.Placed (a : RunArgs π τ) (ms : List (List Str × Option τ)) : Prop :=
  ∀ m ∈ ms, ∃ i, ∃ s ∈ a.seeds.list, m.1 = [paramsName i, s]

theorem RunArgs.single_place (a : RunArgs π τ) {train : Str → π → List (Round τ)} {params : π}
    {path : List Str} {seed : Str} {r : (List Str × Option τ) × Option ScoreTable}
    (h : (a.single train params path seed).value = .ok r) : r.1.1 = path ++ [seed] := by
  rw [RunArgs.single] at h
  obtain ⟨st, _, h, _⟩ := Tr.bind_value h
  obtain ⟨u, _, h, _⟩ := Tr.bind_value h
  injection h with h
  rw [← h]

theorem RunArgs.evaluateParams_places (a : RunArgs π τ) {train : Str → π → List (Round τ)} {params : π}
    {i : Nat} {r : List (List Str × Option τ) × Option ScoreTable}
    (h : (a.evaluateParams train params [paramsName i]).value = .ok r) :
    r.1.map Prod.fst = a.seeds.list.map (fun s => [paramsName i, s]) := by
  rw [RunArgs.evaluateParams] at h
  split at h
  · rename_i seed hs
    obtain ⟨x, h1, h2, _⟩ := Tr.bind_value h
    injection h2 with h2
    rw [← h2, hs]
    simp [Seeds.list, a.single_place h1]
  · rename_i seeds hs
    obtain ⟨rs, h1, h2, _⟩ := Tr.bind_value h
    obtain ⟨avg, _, h2, _⟩ := Tr.bind_value h2
    obtain ⟨u, _, h2, _⟩ := Tr.bind_value h2
    injection h2 with h2
    rw [← h2, hs]
    have key : ∀ {l : List Str} {rs : List ((List Str × Option τ) × Option ScoreTable)},
        List.Forall₂ (fun s r => (a.single train params [paramsName i] s).value = .ok r) l rs →
        (rs.map Prod.fst).map Prod.fst = l.map (fun s => [paramsName i, s]) := by
      intro l rs h
      induction h with
      | nil => rfl
      | cons hx _ ih => rw [List.map_cons, List.map_cons, ih, List.map_cons, a.single_place hx]; rfl
    exact key (Tr.mapM_value h1).1

/-- Whatever has been selected is at its place. -/
theorem RunArgs.loop_placed (a : RunArgs π τ) {train : Str → π → List (Round τ)} {ps : List π}
    {st : Pick (π × List (List Str × Option τ))}
    (h : (Tr.loop (a.paramsStep train) {} ps).value = .ok st) :
    ∀ b, st.best = some b → a.Placed b.2 := by
  induction ps using List.reverseRecOn generalizing st with
  | nil => injection h with h; subst h; simp
  | append_singleton ps p ih =>
    obtain ⟨s1, h1, h2, _⟩ := Tr.loop_snoc h
    rw [RunArgs.paramsStep, RunArgs.tryOne] at h2
    obtain ⟨y, h3, h4, _⟩ := Tr.bind_value h2
    rw [RunArgs.candidate] at h3
    obtain ⟨r, h6, h5, _⟩ := Tr.bind_value h3
    injection h5 with h5
    subst h5
    rw [RunArgs.choose] at h4
    obtain ⟨b, _, h4, _⟩ := Tr.bind_value h4
    have hr := a.evaluateParams_places h6
    split at h4
    · obtain ⟨u, _, h4, _⟩ := Tr.bind_value h4
      injection h4 with h4
      subst h4
      intro b hb
      injection hb with hb
      subst hb
      intro m hm
      have : m.1 ∈ r.1.map Prod.fst := List.mem_map.2 ⟨m, hm, rfl⟩
      rw [hr] at this
      obtain ⟨s, hs, hms⟩ := List.mem_map.1 this
      exact ⟨_, s, hs, hms.symm⟩
    · obtain ⟨u, _, h4, _⟩ := Tr.bind_value h4
      injection h4 with h4
      subst h4
      exact fun b hb => ih h1 b hb

theorem RunArgs.testOne_effect (a : RunArgs π τ) {m : List Str × Option τ}
    (h : ∃ i, ∃ s ∈ a.seeds.list, m.1 = [paramsName i, s]) (test : Option τ → Bool × Res ScoreTable) :
    (a.testOne m.1 m.2 test).All (fun e => ∃ p, e = .save p ∧ a.Effect e) := by
  obtain ⟨i, s, hs, hm⟩ := h
  refine .bind (writeFile_all ?_) (fun _ _ => .lift _)
  intro r hr
  exact ⟨_, rfl, i, s, hs, .inr (.inr ⟨r, hr, by simp [hm]⟩)⟩

theorem RunArgs.testScores_effect (a : RunArgs π τ) {best : Option (π × List (List Str × Option τ))}
    (h : ∀ b, best = some b → a.Placed b.2) :
    (a.testScores best).All (fun e => ∃ p, e = .save p ∧ a.Effect e) := by
  rw [RunArgs.testScores]
  split
  · exact .pure _
  · rename_i test _
    refine .bind ?_ (fun _ _ => .bind (.lift _) (fun _ _ => .pure _))
    cases best with
    | none => exact .lift _
    | some b =>
      have hb := h b rfl
      rw [RunArgs.finalTest]
      split
      · split
        · rename_i m ms hm
          exact a.testOne_effect (hb m (by simp [hm])) test
        · exact .lift _
      · exact .bind (.mapM (fun m hm => a.testOne_effect (hb m hm) test)) (fun _ _ => .lift _)

theorem RunArgs.loop_effect (a : RunArgs π τ) (train : Str → π → List (Round τ)) (ps : List π) :
    (Tr.loop (a.paramsStep train) {} ps).All a.Effect := by
  refine .loop ?_ _ _
  intro st p
  refine .bind (.bind (a.evaluateParams_effect train p st.index) (fun _ _ => .pure _))
    (fun _ _ => a.choose_all _ _ _ _ ?_)
  intro hd p _
  exact ⟨hd, List.prefix_append _ _⟩

theorem RunArgs.main_effect (a : RunArgs π τ) (disk : List (List Str)) : (a.main disk).All a.Effect := by
  rw [RunArgs.main]
  split
  · exact .lift _
  · split
    · exact .lift _
    · refine .bind (a.loop_effect _ _) (fun st hst => .bind (.lift _) (fun _ _ => .bind ?_ (fun _ _ =>
        .bind ?_ (fun _ _ => .pure _))))
      · exact (a.testScores_effect (a.loop_placed hst)).mono (fun e ⟨_, _, he⟩ => he)
      · split
        · rename_i hd
          refine .tell ?_
          intro e he
          simp at he
          rw [he]
          exact ⟨hd, List.prefix_rfl⟩
        · exact .pure _

/-! ### What is selected -/

/-- The variables of a search without the record of effects. -/
def Sel.pick (s : Sel μ) : Pick μ := ⟨s.index, s.best, s.scores, s.path⟩

theorem RunArgs.choose_step (a : RunArgs π τ) {pathOf : Nat → List Str} {sel : Sel μ} {cand : μ}
    {scores : Option ScoreTable} {st : Pick μ}
    (h : (a.choose pathOf sel.pick cand scores).value = .ok st) :
    ∃ sel', sel.step (scoreBetter a.cmpFields a.cmpMetric) pathOf cand scores [] = .ok sel' ∧
      st = sel'.pick := by
  rw [RunArgs.choose] at h
  obtain ⟨b, h1, h2, _⟩ := Tr.bind_value h
  have h1 : isBetter (scoreBetter a.cmpFields a.cmpMetric) scores sel.scores = .ok b := h1
  rw [Sel.step, h1]
  cases b with
  | true =>
    simp only [if_true] at h2
    obtain ⟨u, _, h2, _⟩ := Tr.bind_value h2
    injection h2 with h2
    exact ⟨_, rfl, h2.symm⟩
  | false =>
    simp only [Bool.false_eq_true, if_false] at h2
    obtain ⟨u, _, h2, _⟩ := Tr.bind_value h2
    injection h2 with h2
    exact ⟨_, rfl, h2.symm⟩

/-- A search picks from the candidates it made. -/
theorem RunArgs.search_spec (a : RunArgs π τ) {pathOf : Nat → List Str}
    {make : Nat → α → Tr (μ × Option ScoreTable)} {l : List α} {st : Pick μ}
    (h : (Tr.loop (a.tryOne pathOf make) {} l).value = .ok st) :
    ∃ ys : List (μ × Option ScoreTable),
      List.Forall₂ (fun (x : α × Nat) y => (make x.2 x.1).value = .ok y) l.zipIdx ys ∧
      ∃ sel, Run (scoreBetter a.cmpFields a.cmpMetric) pathOf (ys.map (fun y => (y.1, y.2, []))) sel ∧
        st = sel.pick := by
  induction l using List.reverseRecOn generalizing st with
  | nil => injection h with h; subst h; exact ⟨[], .nil, {}, .nil, rfl⟩
  | append_singleton l x ih =>
    obtain ⟨s1, h1, h2, _⟩ := Tr.loop_snoc h
    obtain ⟨ys, h3, sel, h4, rfl⟩ := ih h1
    rw [RunArgs.tryOne] at h2
    obtain ⟨y, h5, h6, _⟩ := Tr.bind_value h2
    obtain ⟨sel', h7, h8⟩ := a.choose_step h6
    have hi : sel.pick.index = l.length := by
      have := h4.index
      have h9 := h3.length_eq
      simp only [List.length_map, List.length_zipIdx] at this h9
      rw [Sel.pick, this, ← h9]
    refine ⟨ys ++ [y], ?_, sel', ?_, h8⟩
    · rw [List.zipIdx_append]
      refine List.rel_append h3 (.cons ?_ .nil)
      simp only [Nat.zero_add]
      rw [← hi]
      exact h5
    · rw [List.map_append]
      exact .snoc h4 h7

/-- The effects of making a candidate stay below its place. -/
def RunArgs.Local (a : RunArgs π τ) (pathOf : Nat → List Str) (i : Nat) (evs : List Ev) : Prop :=
  ∀ q, Ev.remove q ∈ evs → a.modelDir ++ pathOf i <+: q

theorem RunArgs.choose_events (a : RunArgs π τ) {pathOf : Nat → List Str} {st st' : Pick μ} {cand : μ}
    {scores : Option ScoreTable} (h : (a.choose pathOf st cand scores).value = .ok st') :
    (st'.path = some (pathOf st.index) ∧ ∀ q, Ev.remove q ∈ (a.choose pathOf st cand scores).events →
      ∃ p, st.path = some p ∧ q = a.modelDir ++ p) ∨
    (st'.path = st.path ∧ ∀ q, Ev.remove q ∈ (a.choose pathOf st cand scores).events →
      q = a.modelDir ++ pathOf st.index) := by
  rw [RunArgs.choose] at h ⊢
  obtain ⟨b, h1, h2, h3⟩ := Tr.bind_value h
  rw [h3]
  have hd : ∀ (ps : List (List Str)) q, Ev.remove q ∈ (a.dispose ps).events →
      ∃ p ∈ ps, q = a.modelDir ++ p := by
    intro ps q hq
    have := a.dispose_all (P := fun e => ∀ q, e = .remove q → ∃ p ∈ ps, q = a.modelDir ++ p) ps (by
      intro _ p hp q hq
      injection hq with hq
      exact ⟨p, hp, hq.symm⟩)
    exact this _ hq q rfl
  cases b with
  | true =>
    simp only [if_true] at h2 ⊢
    obtain ⟨u, _, h4, h5⟩ := Tr.bind_value h2
    injection h4 with h4
    subst h4
    refine .inl ⟨rfl, fun q hq => ?_⟩
    rw [h5] at hq
    simp only [Tr.lift, Tr.pure, List.nil_append, List.append_nil] at hq
    obtain ⟨p, hp, rfl⟩ := hd _ _ hq
    exact ⟨p, by simpa using hp, rfl⟩
  | false =>
    simp only [Bool.false_eq_true, if_false] at h2 ⊢
    obtain ⟨u, _, h4, h5⟩ := Tr.bind_value h2
    injection h4 with h4
    subst h4
    refine .inr ⟨rfl, fun q hq => ?_⟩
    rw [h5] at hq
    simp only [Tr.lift, Tr.pure, List.nil_append, List.append_nil] at hq
    obtain ⟨p, hp, rfl⟩ := hd _ _ hq
    simp only [List.mem_singleton] at hp
    rw [hp]

theorem prefix_of_append_prefix {d q p : List Str} (h : d ++ q <+: p) : ∃ r, p = d ++ r ∧ q <+: r := by
  obtain ⟨t, rfl⟩ := h
  exact ⟨q ++ t, by simp, List.prefix_append _ _⟩

/-- What making the selected candidate has left on the disk is there at the end of the search. -/
theorem RunArgs.search_kept (a : RunArgs π τ) {pathOf : Nat → List Str}
    (hinc : ∀ i j q, pathOf i <+: q → pathOf j <+: q → i = j)
    {make : Nat → α → Tr (μ × Option ScoreTable)} (hloc : ∀ i x, a.Local pathOf i (make i x).events)
    {l : List α} {st : Pick μ} (h : (Tr.loop (a.tryOne pathOf make) {} l).value = .ok st) :
    ∀ (e : Nat) (x : α), l[e]? = some x → st.path = some (pathOf e) → ∀ p, a.modelDir ++ pathOf e <+: p →
      (∀ disk, p ∈ dirAfter disk (make e x).events) →
      ∀ disk, p ∈ dirAfter disk (Tr.loop (a.tryOne pathOf make) {} l).events := by
  have hinc' : ∀ i j p, a.modelDir ++ pathOf i <+: p → a.modelDir ++ pathOf j <+: p → i = j := by
    intro i j p hi hj
    obtain ⟨r, rfl, hi'⟩ := prefix_of_append_prefix hi
    obtain ⟨r', hr, hj'⟩ := prefix_of_append_prefix hj
    have := List.append_cancel_left hr
    subst this
    exact hinc i j r hi' hj'
  have hself : ∀ i j, pathOf i = pathOf j → i = j := by
    intro i j hij
    exact hinc i j (pathOf i) List.prefix_rfl (hij ▸ List.prefix_rfl)
  induction l using List.reverseRecOn generalizing st with
  | nil => simp
  | append_singleton l x ih =>
    obtain ⟨s1, h1, h2, h3⟩ := Tr.loop_snoc h
    obtain ⟨ys, h4, sel, h5, rfl⟩ := a.search_spec h1
    have hlen : ys.length = l.length := by simpa using h4.length_eq.symm
    have hi : sel.pick.index = l.length := by
      have := h5.index
      simp only [List.length_map] at this
      rw [Sel.pick, this, hlen]
    have hpath : ∀ p, sel.pick.path = some p → ∃ e < l.length, p = pathOf e := by
      intro p hp
      rcases h5.stored with ⟨_, rfl⟩ | ⟨e, c, h6, _, _, h7⟩
      · cases hp
      · refine ⟨e, ?_, ?_⟩
        · have := (List.getElem?_eq_some_iff.1 h6).1
          simpa [hlen] using this
        · have hp' : sel.path = some p := hp
          rw [h7] at hp'
          injection hp' with hp'
          exact hp'.symm
    obtain ⟨y, h6, h7, h8⟩ := Tr.bind_value (x := make sel.pick.index x) h2
    have h8 : (a.tryOne pathOf make sel.pick x).events = _ := h8
    intro e x' hx hst p hp hmake disk
    rw [h3, h8, dirAfter_append, dirAfter_append]
    rcases a.choose_events h7 with ⟨h9, h10⟩ | ⟨h9, h10⟩
    · -- the new candidate is selected
      have he : e = l.length := by
        rw [hst] at h9
        injection h9 with h9
        rw [← hi]
        exact hself _ _ h9
      subst he
      have hxx : x' = x := by simpa using hx.symm
      subst hxx
      refine mem_dirAfter_kept ?_ ?_
      · rw [hi]; exact hmake _
      · intro q hq hqp
        obtain ⟨p', hp', rfl⟩ := h10 q hq
        obtain ⟨e', he', rfl⟩ := hpath p' hp'
        exact absurd (hinc' _ _ _ hqp hp) (by omega)
    · rw [hst] at h9
      obtain ⟨e', he', hee⟩ := hpath _ h9.symm
      have := hself _ _ hee
      subst this
      have hx' : l[e]? = some x' := by
        rw [List.getElem?_append_left he'] at hx
        exact hx
      refine mem_dirAfter_kept (mem_dirAfter_kept (ih h1 e x' hx' h9.symm p hp hmake disk) ?_) ?_
      · intro q hq hqp
        have := hloc _ _ q hq
        rw [hi] at this
        exact absurd (hinc' _ _ _ (this.trans hqp) hp) (by omega)
      · intro q hq hqp
        have := h10 q hq
        rw [this, hi] at hqp
        exact absurd (hinc' _ _ _ hqp hp) (by omega)

end Verif
