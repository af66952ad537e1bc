import Verif.Spec.LazyRun
import Verif.Props.SeedsAlone

/-! # Runs whose taggers are read from the disk, and runs that keep them in memory -/

namespace Verif

variable {π μ : Type}

theorem SameOut.forM {σ σ' α : Type} {R : σ → σ' → Prop} {f : σ → α → Tr σ} {g : σ' → α → Res σ'}
    (hf : ∀ s s' a, R s s' → SameOut R (f s a).value (g s' a)) : ∀ (l : List α) (s : σ) (s' : σ'), R s s' →
    SameOut R (Tr.loop f s l).value (forM' g s' l)
  | [], _, _, h => h
  | a :: l, s, s', h => by
    have h1 := hf s s' a h
    rw [Tr.loop]
    cases hx : (f s a).value with
    | error e =>
      cases hy : g s' a with
      | ok b => rw [hx, hy] at h1; exact h1.elim
      | error e' =>
        rw [hx, hy] at h1
        rw [Tr.bind_error hx]
        simp only [forM', hy]
        exact h1
    | ok t =>
      cases hy : g s' a with
      | error e' => rw [hx, hy] at h1; exact h1.elim
      | ok t' =>
        rw [hx, hy] at h1
        rw [Tr.bind_ok hx]
        simp only [forM', hy]
        exact SameOut.forM hf l t t' h1

/-- What is known of the store while the epochs of a training are tried: the best one is in the store, and nothing has changed
elsewhere. -/
structure InStore (a : RunArgs π μ) (base base' : List Str) (d₀ : Store μ) (st : Pick μ) (s : Pick (List Str) × Store μ) : Prop where
  index : s.1.index = st.index
  scores : s.1.scores = st.scores
  best : (st.best = none ∧ st.path = none ∧ s.1.best = none ∧ s.1.path = none) ∨ ∃ m i, i < st.index ∧ st.best = some m ∧
    st.path = some (base' ++ [epochName i]) ∧ s.1.path = some (base ++ [epochName i]) ∧
    s.1.best = some (a.modelDir ++ (base ++ [epochName i])) ∧ s.2 (a.modelDir ++ (base ++ [epochName i])) = some m
  frame : ∀ q, ¬ a.modelDir ++ base <+: q → s.2 q = d₀ q

theorem epoch_below {dir base : List Str} {i : Nat} {q : List Str} (h : dir ++ (base ++ [epochName i]) <+: q) :
    dir ++ base <+: q := by
  rw [← List.append_assoc] at h
  exact (List.prefix_append _ _).trans h

theorem epoch_apart {dir base : List Str} {i j : Nat} (h : dir ++ (base ++ [epochName i]) <+: dir ++ (base ++ [epochName j])) :
    i = j := by
  rw [List.prefix_append_right_inj, List.prefix_append_right_inj] at h
  have h1 := h.eq_of_length rfl
  injection h1 with h1
  exact epochName_inj h1

theorem lazyDispose_frame (a : RunArgs π μ) (d : Store μ) {path : Option (List Str)} {q : List Str}
    (h : ∀ p, path = some p → ¬ a.modelDir ++ p <+: q) : a.lazyDispose d path q = d q := by
  unfold RunArgs.lazyDispose
  split
  · rfl
  · rename_i p
    split
    · simp only [Store.remove]
      rw [if_neg (h p rfl)]
    · rfl

theorem epoch_store (a : RunArgs π μ) (base base' : List Str) (d₀ : Store μ) (st : Pick μ) (s : Pick (List Str) × Store μ) (r : Round μ)
    (h : InStore a base base' d₀ st s) :
    SameOut (InStore a base base' d₀) (a.epoch base' st r).value (a.lazyEpoch base s r) := by
  unfold RunArgs.epoch RunArgs.tryOne RunArgs.lazyEpoch
  have hround : (a.round base' st.index r).value = match r.outcome with
      | .error e => .error e
      | .ok item => match printMetrics a.printFields item.1 with
        | .error e => .error e
        | .ok _ => .ok (item.2, item.1) := by
    unfold RunArgs.round
    rw [Tr.bind_ok (a := ()) rfl]
    simp only
    rw [Tr.bind_ok (a := ()) rfl]
    simp only
    cases hr : r.outcome with
    | error e => rw [Tr.bind_error (e := e) rfl]
    | ok item =>
      rw [Tr.bind_ok (a := item) rfl]
      simp only
      cases hp : printMetrics a.printFields item.1 with
      | error e => rw [Tr.bind_error (e := e) rfl]
      | ok u =>
        rw [Tr.bind_ok (a := u) rfl]
        rfl
  cases hr : r.outcome with
  | error e =>
    rw [hr] at hround
    rw [Tr.bind_error hround]
    rfl
  | ok item =>
    rw [hr] at hround
    simp only at hround ⊢
    cases hp : printMetrics a.printFields item.1 with
    | error e =>
      rw [hp] at hround
      rw [Tr.bind_error hround]
      rfl
    | ok u =>
      rw [hp] at hround
      rw [Tr.bind_ok hround]
      simp only
      unfold RunArgs.choose RunArgs.lazyChoose
      rw [h.scores]
      cases hb : isBetter (scoreBetter a.cmpFields a.cmpMetric) item.1 st.scores with
      | error e =>
        rw [Tr.bind_error (e := e) rfl]
        rfl
      | ok b =>
        rw [Tr.bind_ok (a := b) rfl]
        cases b with
        | true =>
          simp only [if_true]
          obtain ⟨u, hu, _⟩ := a.dispose_ends st.path.toList
          rw [Tr.bind_ok hu]
          simp only [Tr.pure]
          rw [h.index]
          refine ⟨rfl, rfl, .inr ⟨item.2, st.index, Nat.lt_succ_self _, rfl, rfl, rfl, rfl, ?_⟩, ?_⟩
          · simp only
            rw [lazyDispose_frame]
            · simp [Store.save]
            · intro p hpth hc
              rcases h.best with ⟨_, _, _, hn⟩ | ⟨m, i, hi, _, _, hpi, _⟩
              · rw [hn] at hpth
                cases hpth
              · rw [hpi] at hpth
                injection hpth with hpth
                subst hpth
                exact absurd (epoch_apart hc) (Nat.ne_of_lt hi)
          · intro q hq
            simp only
            rw [lazyDispose_frame]
            · have : q ≠ a.modelDir ++ (base ++ [epochName st.index]) := by
                rintro rfl
                exact hq (epoch_below (List.prefix_refl _))
              simp only [Store.save, if_neg this]
              exact h.frame q hq
            · intro p hpth hc
              rcases h.best with ⟨_, _, _, hn⟩ | ⟨m, i, hi, _, _, hpi, _⟩
              · rw [hn] at hpth
                cases hpth
              · rw [hpi] at hpth
                injection hpth with hpth
                subst hpth
                exact hq (epoch_below hc)
        | false =>
          simp only [Bool.false_eq_true, if_false]
          obtain ⟨u, hu, _⟩ := a.dispose_ends [base' ++ [epochName st.index]]
          rw [Tr.bind_ok hu]
          simp only [Tr.pure]
          refine ⟨by simp [h.index], rfl, ?_, ?_⟩
          · rcases h.best with hn | ⟨m, i, hi, h1, h2, h5, h3, h4⟩
            · exact .inl hn
            · refine .inr ⟨m, i, Nat.lt_succ_of_lt hi, h1, h2, h5, h3, ?_⟩
              simp only
              rw [lazyDispose_frame]
              · have : a.modelDir ++ (base ++ [epochName i]) ≠ a.modelDir ++ (base ++ [epochName s.1.index]) := by
                  intro hc
                  have := epoch_apart (hc ▸ List.prefix_refl _ : a.modelDir ++ (base ++ [epochName i]) <+:
                    a.modelDir ++ (base ++ [epochName s.1.index]))
                  rw [h.index] at this
                  omega
                simp only [Store.save, if_neg this]
                exact h4
              · intro p hpth hc
                injection hpth with hpth
                subst hpth
                have := epoch_apart hc
                rw [h.index] at this
                omega
          · intro q hq
            simp only
            rw [lazyDispose_frame]
            · have : q ≠ a.modelDir ++ (base ++ [epochName s.1.index]) := by
                rintro rfl
                exact hq (epoch_below (List.prefix_refl _))
              simp only [Store.save, if_neg this]
              exact h.frame q hq
            · intro p hpth hc
              injection hpth with hpth
              subst hpth
              exact hq (epoch_below hc)

/-- A tagger on the disk and one in memory. -/
def Stored (d : Store μ) (t : Option μ) (l : Option (List Str)) : Prop :=
  (t = none ∧ l = none) ∨ ∃ m p, t = some m ∧ l = some p ∧ d p = some m

/-- A tagger below a directory. -/
def LiesIn (root : List Str) (l : Option (List Str)) : Prop := ∀ p, l = some p → root <+: p

theorem Stored.frame {d d' : Store μ} {t : Option μ} {l : Option (List Str)} (h : Stored d t l)
    (hf : ∀ p, l = some p → d' p = d p) : Stored d' t l := by
  rcases h with h | ⟨m, p, h1, h2, h3⟩
  · exact .inl h
  · exact .inr ⟨m, p, h1, h2, by rw [hf p h2, h3]⟩

/-- Where the best model of a training is stored. -/
def bestPlace (a : RunArgs π μ) (rounds : List (Round μ)) (base : List Str) : Option (List Str) :=
  match (Tr.loop (a.epoch base) {} rounds).value with
  | .error _ => none
  | .ok st => st.path.map (a.modelDir ++ ·)

theorem loop_place (a : RunArgs π μ) (rounds : List (Round μ)) (base base' : List Str) (d : Store μ) :
    SameOut (fun st s => InStore a base base' d st s ∧ s.1.best = bestPlace a rounds base)
      (Tr.loop (a.epoch base') {} rounds).value (forM' (a.lazyEpoch base) ({}, d) rounds) := by
  have h1 := SameOut.forM (epoch_store a base base' d) rounds {} ({}, d) ⟨rfl, rfl, .inl ⟨rfl, rfl, rfl, rfl⟩, fun _ _ => rfl⟩
  have h2 := SameOut.forM (epoch_store a base base d) rounds {} ({}, d) ⟨rfl, rfl, .inl ⟨rfl, rfl, rfl, rfl⟩, fun _ _ => rfl⟩
  unfold bestPlace
  cases hx : (Tr.loop (a.epoch base') {} rounds).value with
  | error e =>
    cases hy : forM' (a.lazyEpoch base) ({}, d) rounds with
    | ok b => rw [hx, hy] at h1; exact h1.elim
    | error e' => rw [hx, hy] at h1; exact h1
  | ok st =>
    cases hy : forM' (a.lazyEpoch base) ({}, d) rounds with
    | error e' => rw [hx, hy] at h1; exact h1.elim
    | ok s =>
      rw [hx, hy] at h1
      refine ⟨h1, ?_⟩
      cases hz : (Tr.loop (a.epoch base) {} rounds).value with
      | error e => rw [hy, hz] at h2; exact h2.elim
      | ok st' =>
        rw [hy, hz] at h2
        simp only
        rcases h2.best with ⟨_, k1, k2, _⟩ | ⟨m, i, _, _, k1, _, k2, _⟩
        · rw [k1, k2]
          rfl
        · rw [k1, k2]
          rfl

theorem single_store (a : RunArgs π μ) (name : Str → Str) (train : Str → π → List (Round μ)) (params : π) (path : List Str)
    (d : Store μ) (seed : Str) : SameOut (fun r r' => r.2 = r'.1.2 ∧ Stored r'.2 r.1.2 r'.1.1 ∧
      r'.1.1 = bestPlace a (train seed params) (path ++ [name seed]) ∧ LiesIn (a.modelDir ++ (path ++ [name seed])) r'.1.1 ∧
      ∀ q, ¬ a.modelDir ++ (path ++ [name seed]) <+: q → r'.2 q = d q)
      (a.single train params path seed).value (a.lazySingle name train params path d seed) := by
  have hl := loop_place a (train seed params) (path ++ [name seed]) (path ++ [seed]) d
  unfold RunArgs.single RunArgs.lazySingle
  cases hx : (Tr.loop (a.epoch (path ++ [seed])) {} (train seed params)).value with
  | error e =>
    cases hy : forM' (a.lazyEpoch (path ++ [name seed])) ({}, d) (train seed params) with
    | ok b => rw [hx, hy] at hl; exact hl.elim
    | error e' =>
      rw [hx, hy] at hl
      rw [Tr.bind_error hx]
      exact hl
  | ok st =>
    cases hy : forM' (a.lazyEpoch (path ++ [name seed])) ({}, d) (train seed params) with
    | error e' => rw [hx, hy] at hl; exact hl.elim
    | ok s =>
      rw [hx, hy] at hl
      obtain ⟨⟨h1, h2, h4, h5⟩, h6⟩ := hl
      rw [Tr.bind_ok hx]
      simp only
      rw [h2]
      cases hp : printMetrics a.printFields st.scores with
      | error e =>
        rw [Tr.bind_error (e := e) rfl]
        rfl
      | ok u =>
        rw [Tr.bind_ok (a := u) rfl]
        refine ⟨rfl, ?_, h6, ?_, h5⟩
        · rcases h4 with ⟨g1, _, g2, _⟩ | ⟨m, i, _, g1, _, _, g2, g3⟩
          · exact .inl ⟨g1, g2⟩
          · exact .inr ⟨m, _, g1, g2, g3⟩
        · intro p hpp
          rcases h4 with ⟨g1, _, g2, _⟩ | ⟨m, i, _, g1, _, _, g2, g3⟩
          · rw [g2] at hpp
            cases hpp
          · rw [g2] at hpp
            injection hpp with hpp
            subst hpp
            exact ⟨[epochName i], by simp⟩

theorem same_place {dir path : List Str} {s s' : Str} {q : List Str} (h : dir ++ (path ++ [s]) <+: q)
    (h' : dir ++ (path ++ [s']) <+: q) : s = s' := by
  have h1 := List.prefix_of_prefix_length_le h h' (by simp)
  rw [List.prefix_append_right_inj, List.prefix_append_right_inj] at h1
  have h2 := h1.eq_of_length rfl
  injection h2

theorem mapM_each {α β : Type} {f : α → Tr β} {l : List α} {bs : List β} (h : (Tr.mapM f l).value = .ok bs) :
    List.Forall₂ (fun a b => (f a).value = .ok b) l bs := (Tr.mapM_value h).1

/-- What a training reports does not depend on its place. -/
theorem single_equal (a : RunArgs π μ) {train : Str → π → List (Round μ)} {params : π} {path : List Str} {s s' : Str}
    (h : train s = train s') {r r' : (List Str × Option μ) × Option ScoreTable}
    (hr : (a.single train params path s).value = .ok r) (hr' : (a.single train params path s').value = .ok r') : r.1.2 = r'.1.2 := by
  have h1 := single_store a (fun _ => []) train params path (fun _ => none) s
  have h2 := single_store a (fun _ => []) train params path (fun _ => none) s'
  have he : a.lazySingle (fun _ => []) train params path (fun _ => none) s =
      a.lazySingle (fun _ => []) train params path (fun _ => none) s' := by
    unfold RunArgs.lazySingle
    rw [h]
  rw [he, hr] at h1
  rw [hr'] at h2
  cases hy : a.lazySingle (fun _ => []) train params path (fun _ => none) s' with
  | error e => rw [hy] at h1; exact h1.elim
  | ok x =>
    rw [hy] at h1 h2
    rcases h1.2.1 with ⟨g1, g2⟩ | ⟨m, p, g1, g2, g3⟩
    · rcases h2.2.1 with ⟨k1, _⟩ | ⟨m', p', _, k2, _⟩
      · rw [g1, k1]
      · rw [g2] at k2; cases k2
    · rcases h2.2.1 with ⟨_, k2⟩ | ⟨m', p', k1, k2, k3⟩
      · rw [g2] at k2; cases k2
      · rw [g2] at k2
        injection k2 with k2
        subst k2
        rw [g3] at k3
        injection k3 with k3
        rw [g1, k1, k3]

theorem seeds_store (a : RunArgs π μ) (name : Str → Str) (train : Str → π → List (Round μ)) (params : π) (path : List Str) :
    ∀ (seeds : List Str) (d : Store μ), SameTrainings name train seeds → SameOut (fun rs x => rs.map Prod.snd = x.1.map Prod.snd ∧
      List.Forall₂ (Stored x.2) (rs.map (fun r => r.1.2)) (x.1.map Prod.fst) ∧
      x.1.map Prod.fst = seeds.map (fun s => bestPlace a (train s params) (path ++ [name s])) ∧
      (∀ l ∈ x.1.map Prod.fst, ∃ s ∈ seeds, LiesIn (a.modelDir ++ (path ++ [name s])) l) ∧
      ∀ q, (∀ s ∈ seeds, ¬ a.modelDir ++ (path ++ [name s]) <+: q) → x.2 q = d q)
      (Tr.mapM (a.single train params path) seeds).value (a.lazySeeds name train params path d seeds)
  | [], d, _ => ⟨rfl, .nil, rfl, by simp, fun _ _ => rfl⟩
  | s :: ss, d, hn => by
    have h1 := single_store a name train params path d s
    rw [Tr.mapM, RunArgs.lazySeeds]
    cases hx : (a.single train params path s).value with
    | error e =>
      cases hy : a.lazySingle name train params path d s with
      | ok b => rw [hx, hy] at h1; exact h1.elim
      | error e' =>
        rw [hx, hy] at h1
        rw [Tr.bind_error hx]
        exact h1
    | ok r =>
      cases hy : a.lazySingle name train params path d s with
      | error e' => rw [hx, hy] at h1; exact h1.elim
      | ok r' =>
        rw [hx, hy] at h1
        obtain ⟨g1, g2, g5, g3, g4⟩ := h1
        rw [Tr.bind_ok hx]
        simp only
        have h2 := seeds_store a name train params path ss r'.2 fun s hs s' hs' => hn s (by simp [hs]) s' (by simp [hs'])
        cases hx2 : (Tr.mapM (a.single train params path) ss).value with
        | error e =>
          cases hy2 : a.lazySeeds name train params path r'.2 ss with
          | ok b => rw [hx2, hy2] at h2; exact h2.elim
          | error e' =>
            rw [hx2, hy2] at h2
            rw [Tr.bind_error hx2]
            exact h2
        | ok rs =>
          cases hy2 : a.lazySeeds name train params path r'.2 ss with
          | error e' => rw [hx2, hy2] at h2; exact h2.elim
          | ok x =>
            rw [hx2, hy2] at h2
            obtain ⟨k1, k2, k5, k3, k4⟩ := h2
            rw [Tr.bind_ok hx2]
            simp only [Tr.pure]
            refine ⟨by simp [g1, k1], ?_, by simp [g5, k5], ?_, ?_⟩
            · refine .cons ?_ k2
              by_cases hin : ∃ s' ∈ ss, name s' = name s
              · obtain ⟨s', hs', he⟩ := hin
                obtain ⟨i, hi⟩ := List.mem_iff_getElem?.1 hs'
                have htr := hn s (by simp) s' (by simp [hs']) he.symm
                have hm := mapM_each hx2
                rw [forall₂_getElem?] at hm k2
                obtain ⟨r2, hr2⟩ : ∃ r2, rs[i]? = some r2 := by
                  have : i < rs.length := hm.1 ▸ (List.getElem?_eq_some_iff.1 hi).1
                  exact ⟨_, List.getElem?_eq_getElem this⟩
                have hv := hm.2 i s' r2 hi hr2
                have hst := k2.2 i r2.1.2 (bestPlace a (train s' params) (path ++ [name s'])) (by rw [List.getElem?_map, hr2]; rfl)
                  (by rw [k5, List.getElem?_map, hi]; rfl)
                rw [he, ← htr] at hst
                show Stored x.2 r.1.2 r'.1.1
                rw [g5, single_equal a htr hx hv]
                exact hst
              · refine g2.frame fun p hp => k4 p fun s' hs' hc => ?_
                exact hin ⟨s', hs', (same_place (g3 p hp) hc).symm⟩
            · intro l hl
              rcases List.mem_cons.1 hl with rfl | hl
              · exact ⟨s, by simp, g3⟩
              · obtain ⟨s', hs', hb⟩ := k3 l hl
                exact ⟨s', by simp [hs'], hb⟩
            · intro q hq
              simp only
              rw [k4 q fun s' hs' => hq s' (by simp [hs']), g4 q (hq s (by simp))]

theorem evaluate_store (a : RunArgs π μ) (name : Str → Str) {train : Str → π → List (Round μ)}
    (hn : SameTrainings name train a.seeds.list) (params : π)
    (path : List Str) (d : Store μ) : SameOut (fun r x => r.2 = x.1.2 ∧ List.Forall₂ (Stored x.2) (r.1.map Prod.snd) x.1.1 ∧
      (∀ l ∈ x.1.1, LiesIn (a.modelDir ++ path) l) ∧ ∀ q, ¬ a.modelDir ++ path <+: q → x.2 q = d q)
      (a.evaluateParams train params path).value (a.lazyEvaluate name train params path d) := by
  have hsub : ∀ {s : Str} {q : List Str}, a.modelDir ++ (path ++ [s]) <+: q → a.modelDir ++ path <+: q := by
    intro s q h
    rw [← List.append_assoc] at h
    exact (List.prefix_append _ _).trans h
  unfold RunArgs.evaluateParams RunArgs.lazyEvaluate
  cases hs : a.seeds with
  | one seed =>
    have h1 := single_store a name train params path d seed
    simp only
    cases hx : (a.single train params path seed).value with
    | error e =>
      cases hy : a.lazySingle name train params path d seed with
      | ok b => rw [hx, hy] at h1; exact h1.elim
      | error e' =>
        rw [hx, hy] at h1
        rw [Tr.bind_error hx]
        exact h1
    | ok r =>
      cases hy : a.lazySingle name train params path d seed with
      | error e' => rw [hx, hy] at h1; exact h1.elim
      | ok r' =>
        rw [hx, hy] at h1
        obtain ⟨g1, g2, _, g3, g4⟩ := h1
        rw [Tr.bind_ok hx]
        refine ⟨g1, .cons g2 .nil, ?_, fun q hq => g4 q fun hc => hq (hsub hc)⟩
        intro l hl
        simp only [List.mem_singleton] at hl
        subst hl
        exact fun p hp => hsub (g3 p hp)
  | many seeds =>
    rw [hs] at hn
    have h1 := seeds_store a name train params path seeds d hn
    simp only
    cases hx : (Tr.mapM (a.single train params path) seeds).value with
    | error e =>
      cases hy : a.lazySeeds name train params path d seeds with
      | ok b => rw [hx, hy] at h1; exact h1.elim
      | error e' =>
        rw [hx, hy] at h1
        rw [Tr.bind_error hx]
        exact h1
    | ok rs =>
      cases hy : a.lazySeeds name train params path d seeds with
      | error e' => rw [hx, hy] at h1; exact h1.elim
      | ok x =>
        rw [hx, hy] at h1
        obtain ⟨g1, g2, _, g3, g4⟩ := h1
        rw [Tr.bind_ok hx]
        simp only
        rw [← g1]
        cases hv : averageScores a.printFields (rs.map Prod.snd) with
        | error e =>
          rw [Tr.bind_error (e := e) rfl]
          rfl
        | ok avg =>
          rw [Tr.bind_ok (a := avg) rfl]
          simp only
          cases hp : printMetrics a.printFields (some avg) with
          | error e =>
            rw [Tr.bind_error (e := e) rfl]
            rfl
          | ok u =>
            rw [Tr.bind_ok (a := u) rfl]
            refine ⟨rfl, ?_, ?_, fun q hq => g4 q fun s _ hc => hq (hsub hc)⟩
            · simpa using g2
            · intro l hl
              obtain ⟨s, _, hb⟩ := g3 l hl
              exact fun p hp => hsub (hb p hp)

/-- The search over the parameters, in memory and on the disk. -/
structure SearchStore (a : RunArgs π μ) (st : Pick (π × List (List Str × Option μ)))
    (s : Pick (π × List (Option (List Str))) × Store μ) : Prop where
  index : s.1.index = st.index
  scores : s.1.scores = st.scores
  path : s.1.path = st.path
  best : (st.best = none ∧ s.1.best = none ∧ st.path = none) ∨ ∃ p ms ls i, i < st.index ∧ st.best = some (p, ms) ∧
    st.path = some [paramsName i] ∧ s.1.best = some (p, ls) ∧ List.Forall₂ (Stored s.2) (ms.map Prod.snd) ls ∧
    ∀ l ∈ ls, LiesIn (a.modelDir ++ [paramsName i]) l

theorem params_apart {dir : List Str} {i j : Nat} {q : List Str} (h : dir ++ [paramsName i] <+: q)
    (h' : dir ++ [paramsName j] <+: q) : i = j :=
  paramsName_inj (same_place (path := []) h h')

theorem forall₂_stored {d d' : Store μ} {ts : List (Option μ)} {ls : List (Option (List Str))} (h : List.Forall₂ (Stored d) ts ls)
    (hf : ∀ l ∈ ls, ∀ p, l = some p → d' p = d p) : List.Forall₂ (Stored d') ts ls := by
  induction h with
  | nil => exact .nil
  | cons h _ ih => exact .cons (h.frame (hf _ (by simp))) (ih fun l hl => hf l (by simp [hl]))

theorem params_store (a : RunArgs π μ) (name : Str → Str) {train : Str → π → List (Round μ)}
    (hn : SameTrainings name train a.seeds.list)
    (st : Pick (π × List (List Str × Option μ))) (s : Pick (π × List (Option (List Str))) × Store μ) (params : π)
    (h : SearchStore a st s) : SameOut (SearchStore a) (a.paramsStep train st params).value (a.lazyParams name train s params) := by
  unfold RunArgs.paramsStep RunArgs.tryOne RunArgs.lazyParams
  rw [h.index]
  have h1 := evaluate_store a name hn params [paramsName st.index] s.2
  have hc : (a.candidate train st.index params).value = match (a.evaluateParams train params [paramsName st.index]).value with
      | .error e => .error e
      | .ok r => .ok ((params, r.1), r.2) := by
    unfold RunArgs.candidate
    cases hx : (a.evaluateParams train params [paramsName st.index]).value with
    | error e => rw [Tr.bind_error hx]
    | ok r =>
      rw [Tr.bind_ok hx]
      rfl
  cases hx : (a.evaluateParams train params [paramsName st.index]).value with
  | error e =>
    cases hy : a.lazyEvaluate name train params [paramsName st.index] s.2 with
    | ok b => rw [hx, hy] at h1; exact h1.elim
    | error e' =>
      rw [hx, hy] at h1
      rw [hx] at hc
      rw [Tr.bind_error hc]
      exact h1
  | ok r =>
    cases hy : a.lazyEvaluate name train params [paramsName st.index] s.2 with
    | error e' => rw [hx, hy] at h1; exact h1.elim
    | ok x =>
      rw [hx, hy] at h1
      rw [hx] at hc
      obtain ⟨g1, g2, g3, g4⟩ := h1
      rw [Tr.bind_ok hc]
      simp only
      unfold RunArgs.choose RunArgs.lazyChoose
      rw [h.scores, ← g1]
      cases hb : isBetter (scoreBetter a.cmpFields a.cmpMetric) r.2 st.scores with
      | error e =>
        rw [Tr.bind_error (e := e) rfl]
        rfl
      | ok b =>
        rw [Tr.bind_ok (a := b) rfl]
        cases b with
        | true =>
          simp only [if_true]
          obtain ⟨u, hu, _⟩ := a.dispose_ends st.path.toList
          rw [Tr.bind_ok hu]
          simp only [Tr.pure]
          rw [h.index, h.path]
          refine ⟨rfl, rfl, rfl, .inr ⟨params, r.1, x.1.1, st.index, Nat.lt_succ_self _, rfl, rfl, rfl, ?_, g3⟩⟩
          refine forall₂_stored g2 fun l hl p hp => ?_
          simp only
          rw [lazyDispose_frame]
          intro p' hpth hc
          rcases h.best with ⟨_, _, hne⟩ | ⟨_, _, _, i, hi, _, hpi, _⟩
          · rw [hne] at hpth
            cases hpth
          · rw [hpi] at hpth
            injection hpth with hpth
            subst hpth
            exact absurd (params_apart hc (g3 l hl p hp)) (Nat.ne_of_lt hi)
        | false =>
          simp only [Bool.false_eq_true, if_false]
          obtain ⟨u, hu, _⟩ := a.dispose_ends [[paramsName st.index]]
          rw [Tr.bind_ok hu]
          simp only [Tr.pure]
          refine ⟨by simp [h.index], rfl, h.path, ?_⟩
          rcases h.best with hne | ⟨p, ms, ls, i, hi, h1, h2, h3, h4, h5⟩
          · exact .inl hne
          · refine .inr ⟨p, ms, ls, i, Nat.lt_succ_of_lt hi, h1, h2, h3, ?_, h5⟩
            refine forall₂_stored h4 fun l hl q hq => ?_
            simp only
            have hne : ∀ p', p' = [paramsName st.index] → ¬ a.modelDir ++ p' <+: q := by
              rintro _ rfl hc
              exact absurd (params_apart (h5 l hl q hq) hc) (Nat.ne_of_lt hi)
            rw [lazyDispose_frame]
            · exact g4 q (hne _ rfl)
            · intro p' hp'
              injection hp' with hp'
              exact hne _ hp'.symm

theorem load_store {gone : Err} {test : Option μ → Bool × Res ScoreTable} {d : Store μ} {t : Option μ} {l : Option (List Str)}
    (h : Stored d t l) : lazyLoad gone test d l = (test t).2 := by
  rcases h with ⟨rfl, rfl⟩ | ⟨m, p, rfl, rfl, h⟩
  · rfl
  · simp only [lazyLoad, h]

theorem testOne_value (a : RunArgs π μ) (base : List Str) (t : Option μ) (test : Option μ → Bool × Res ScoreTable) :
    (a.testOne base t test).value = (test t).2 := by
  unfold RunArgs.testOne
  rw [Tr.bind_ok (a := ()) rfl]
  rfl

theorem tests_store (a : RunArgs π μ) {gone : Err} {test : Option μ → Bool × Res ScoreTable} {d : Store μ} :
    ∀ {ms : List (List Str × Option μ)} {ls : List (Option (List Str))}, List.Forall₂ (Stored d) (ms.map Prod.snd) ls →
    (Tr.mapM (fun m : List Str × Option μ => a.testOne m.1 m.2 test) ms).value = mapM' (lazyLoad gone test d) ls
  | [], _, h => by cases h; rfl
  | m :: ms, _, h => by
    cases h with
    | cons h hs =>
      have ih := tests_store a (gone := gone) (test := test) hs
      rw [Tr.mapM, mapM', load_store h]
      have hv := testOne_value a m.1 m.2 test
      cases ht : (test m.2).2 with
      | error e =>
        rw [ht] at hv
        rw [Tr.bind_error hv]
      | ok x =>
        rw [ht] at hv
        rw [Tr.bind_ok hv]
        simp only
        rw [← ih]
        cases hx : (Tr.mapM (fun m : List Str × Option μ => a.testOne m.1 m.2 test) ms).value with
        | error e => rw [Tr.bind_error hx]
        | ok xs =>
          rw [Tr.bind_ok hx]
          rfl

theorem lazyMain_eq (a : RunArgs π μ) (name : Str → Str) (gone : Err) (disk : List (List Str)) (d : Store μ) :
    a.lazyMain name gone disk d = if a.deleteAfter && hasContent disk a.modelDir then .error .value
      else match a.trainer with
        | none => .error .notImplemented
        | some train =>
          match forM' (a.lazyParams name train) ({}, d) (hyperList a.hyperparams) with
          | .error e => .error e
          | .ok (st, d) =>
            match printMetrics a.printFields st.scores with
            | .error e => .error e
            | .ok _ =>
              match a.lazyScores gone d st.best with
              | .error e => .error e
              | .ok t => .ok ⟨st.best.map Prod.fst, st.scores, t⟩ := by
  unfold RunArgs.lazyMain RunArgs.lazyRun
  by_cases h : (a.deleteAfter && hasContent disk a.modelDir) = true
  · rw [if_pos h, if_pos h]
  · rw [if_neg h, if_neg h]
    cases a.trainer with
    | none => rfl
    | some train =>
      simp only
      cases forM' (a.lazyParams name train) ({}, d) (hyperList a.hyperparams) with
      | error e => rfl
      | ok s =>
        simp only
        cases printMetrics a.printFields s.1.scores with
        | error e => rfl
        | ok u =>
          simp only
          cases a.lazyScores gone s.2 s.1.best with
          | error e => rfl
          | ok t => rfl

/-- Without `--delete_after` nothing is removed. -/
theorem lazyDispose_keep {a : RunArgs π μ} (hd : a.deleteAfter = false) (d : Store μ) (path : Option (List Str)) :
    a.lazyDispose d path = d := by
  unfold RunArgs.lazyDispose
  split
  · rfl
  · rw [hd]; rfl

theorem lazyChoose_keep {a : RunArgs π μ} {κ : Type} (hd : a.deleteAfter = false) {path : List Str} {st : Pick κ} {cand : κ}
    {scores : Option ScoreTable} {d : Store μ} {r : Pick κ × Store μ} (h : a.lazyChoose path st cand scores d = .ok r) :
    r.1.index = st.index + 1 ∧ r.2 = d := by
  unfold RunArgs.lazyChoose at h
  split at h
  · cases h
  · injection h with h; rw [← h]; exact ⟨rfl, lazyDispose_keep hd d st.path⟩
  · injection h with h; rw [← h]; exact ⟨rfl, lazyDispose_keep hd d (some path)⟩

/-- All models of a training are stored, from a number on. -/
theorem epochs_keep {a : RunArgs π μ} (hd : a.deleteAfter = false) (base : List Str) : ∀ (rs : List (Round μ))
    (s s' : Pick (List Str) × Store μ), forM' (a.lazyEpoch base) s rs = .ok s' →
    (∀ e r item, rs[e]? = some r → r.outcome = .ok item →
      s'.2 (a.modelDir ++ (base ++ [epochName (s.1.index + e)])) = some item.2) ∧
    ∀ q, (∀ e, e < rs.length → q ≠ a.modelDir ++ (base ++ [epochName (s.1.index + e)])) → s'.2 q = s.2 q
  | [], s, s', h => by
    injection h with h
    subst h
    exact ⟨fun e r item he => by simp at he, fun _ _ => rfl⟩
  | r :: rs, s, s', h => by
    rw [forM'] at h
    cases h1 : a.lazyEpoch base s r with
    | error e => rw [h1] at h; cases h
    | ok t =>
      rw [h1] at h
      have ih := epochs_keep hd base rs t s' h
      unfold RunArgs.lazyEpoch at h1
      split at h1
      · cases h1
      · rename_i item hitem
        split at h1
        · cases h1
        · obtain ⟨k1, k2⟩ := lazyChoose_keep hd h1
          rw [k1] at ih
          constructor
          · intro e r' item' he hr
            cases e with
            | zero =>
              simp only [List.getElem?_cons_zero, Option.some.injEq] at he
              subst he
              rw [hitem] at hr
              injection hr with hr
              subst hr
              rw [ih.2 _ (by
                intro e _ h
                rw [List.append_cancel_left_eq, List.append_cancel_left_eq] at h
                injection h with h
                have := epochName_inj h
                omega), k2]
              simp [Store.save]
            | succ e =>
              have := ih.1 e r' item' (by simpa using he) hr
              rwa [show s.1.index + 1 + e = s.1.index + (e + 1) by omega] at this
          · intro q hq
            rw [ih.2 q (fun e he => by
              have := hq (e + 1) (by simpa using he)
              rwa [show s.1.index + (e + 1) = s.1.index + 1 + e by omega] at this), k2]
            have := hq 0 (by simp)
            rw [Nat.add_zero] at this
            simp only [Store.save]
            rw [if_neg this]

/-- All models of the trainings with some seeds. -/
structure AllStored (a : RunArgs π μ) (name : Str → Str) (train : Str → π → List (Round μ)) (params : π) (path : List Str)
    (seeds : List Str) (d d' : Store μ) : Prop where
  kept : ∀ s ∈ seeds, ∀ e r item, (train s params)[e]? = some r → r.outcome = .ok item →
    d' (a.modelDir ++ (path ++ [name s] ++ [epochName e])) = some item.2
  frame : ∀ q, (∀ s ∈ seeds, ∀ e, e < (train s params).length → q ≠ a.modelDir ++ (path ++ [name s] ++ [epochName e])) → d' q = d q

theorem single_keep {a : RunArgs π μ} (hd : a.deleteAfter = false) {name : Str → Str} {train : Str → π → List (Round μ)} {params : π}
    {path : List Str} {d : Store μ} {seed : Str} {r : (Option (List Str) × Option ScoreTable) × Store μ}
    (h : a.lazySingle name train params path d seed = .ok r) : AllStored a name train params path [seed] d r.2 := by
  unfold RunArgs.lazySingle at h
  split at h
  · cases h
  · rename_i st d' h1
    split at h
    · cases h
    · injection h with h
      subst h
      have := epochs_keep hd _ _ _ _ h1
      simp only [Nat.zero_add] at this
      constructor
      · intro s hs
        simp only [List.mem_singleton] at hs
        subst hs
        exact this.1
      · intro q hq
        exact this.2 q (hq seed (by simp))

theorem seeds_keep {a : RunArgs π μ} (hd : a.deleteAfter = false) {name : Str → Str} {train : Str → π → List (Round μ)} {params : π}
    {path : List Str} : ∀ {seeds : List Str} {d : Store μ} {r : List (Option (List Str) × Option ScoreTable) × Store μ},
    (seeds.map name).Nodup → a.lazySeeds name train params path d seeds = .ok r →
    AllStored a name train params path seeds d r.2
  | [], d, r, _, h => by
    injection h with h
    subst h
    exact ⟨fun s hs => by simp at hs, fun _ _ => rfl⟩
  | s :: ss, d, r, hn, h => by
    rw [RunArgs.lazySeeds] at h
    split at h
    · cases h
    · rename_i r1 d1 h1
      split at h
      · cases h
      · rename_i rs d2 h2
        injection h with h
        subst h
        rw [List.map_cons, List.nodup_cons] at hn
        have k1 := single_keep hd h1
        have k2 := seeds_keep hd hn.2 h2
        constructor
        · intro s' hs' e r item he hr
          rcases List.mem_cons.1 hs' with rfl | hs'
          · rw [k2.frame _ (by
              intro s hs j _ h
              rw [List.append_cancel_left_eq, List.append_assoc, List.append_assoc, List.append_cancel_left_eq] at h
              injection h with h
              exact hn.1 (List.mem_map.2 ⟨s, hs, h.symm⟩))]
            exact k1.kept s' (by simp) e r item he hr
          · exact k2.kept s' hs' e r item he hr
        · intro q hq
          rw [k2.frame q (fun s hs => hq s (by simp [hs]))]
          exact k1.frame q (fun s hs => by
            simp only [List.mem_singleton] at hs
            subst hs
            exact hq s (by simp))

theorem evaluate_keep {a : RunArgs π μ} (hd : a.deleteAfter = false) {name : Str → Str} (hn : (a.seeds.list.map name).Nodup)
    {train : Str → π → List (Round μ)} {params : π} {path : List Str} {d : Store μ}
    {r : (List (Option (List Str)) × Option ScoreTable) × Store μ} (h : a.lazyEvaluate name train params path d = .ok r) :
    AllStored a name train params path a.seeds.list d r.2 := by
  unfold RunArgs.lazyEvaluate at h
  split at h
  · rename_i seed hs
    rw [hs]
    split at h
    · cases h
    · rename_i r1 d1 h1
      injection h with h
      subst h
      exact single_keep hd h1
  · rename_i seeds hs
    rw [hs] at hn ⊢
    split at h
    · cases h
    · rename_i rs d1 h1
      split at h
      · cases h
      · split at h
        · cases h
        · injection h with h
          subst h
          exact seeds_keep hd hn h1

/-- The models of all trainings are stored, from a number of parameters on. -/
theorem search_keep {a : RunArgs π μ} (hd : a.deleteAfter = false) {name : Str → Str} (hn : (a.seeds.list.map name).Nodup)
    {train : Str → π → List (Round μ)} : ∀ (ps : List π) (s s' : Pick (π × List (Option (List Str))) × Store μ),
    forM' (a.lazyParams name train) s ps = .ok s' →
    (∀ i p, ps[i]? = some p → ∀ sd ∈ a.seeds.list, ∀ e r item, (train sd p)[e]? = some r → r.outcome = .ok item →
      s'.2 (a.modelDir ++ [paramsName (s.1.index + i), name sd, epochName e]) = some item.2) ∧
    ∀ q, (∀ i p, ps[i]? = some p → ∀ sd ∈ a.seeds.list, ∀ e, e < (train sd p).length →
      q ≠ a.modelDir ++ [paramsName (s.1.index + i), name sd, epochName e]) → s'.2 q = s.2 q
  | [], s, s', h => by
    injection h with h
    subst h
    exact ⟨fun i p hi => by simp at hi, fun _ _ => rfl⟩
  | p :: ps, s, s', h => by
    rw [forM'] at h
    cases h1 : a.lazyParams name train s p with
    | error e => rw [h1] at h; cases h
    | ok t =>
      rw [h1] at h
      have ih := search_keep hd hn ps t s' h
      unfold RunArgs.lazyParams at h1
      split at h1
      · cases h1
      · rename_i r d1 h2
        obtain ⟨k1, k2⟩ := lazyChoose_keep hd h1
        have k3 := evaluate_keep hd hn h2
        rw [k1] at ih
        constructor
        · intro i p' hi sd hsd e r item he hr
          cases i with
          | zero =>
            simp only [List.getElem?_cons_zero, Option.some.injEq] at hi
            subst hi
            rw [ih.2 _ (by
              intro i p _ sd _ e _ h
              rw [List.append_cancel_left_eq] at h
              injection h with h
              have := paramsName_inj h
              omega), k2]
            exact k3.kept sd hsd e r item he hr
          | succ i =>
            have := ih.1 i p' (by simpa using hi) sd hsd e r item he hr
            rwa [show s.1.index + 1 + i = s.1.index + (i + 1) by omega] at this
        · intro q hq
          rw [ih.2 q (fun i p' hi => by
            have := hq (i + 1) p' (by simpa using hi)
            rwa [show s.1.index + (i + 1) = s.1.index + 1 + i by omega] at this), k2]
          exact k3.frame q (hq 0 p (by simp))

theorem forM_inv {σ α : Type} {f : σ → α → Res σ} {I : σ → Prop} (hf : ∀ s a t, I s → f s a = .ok t → I t) :
    ∀ (l : List α) (s t : σ), I s → forM' f s l = .ok t → I t
  | [], s, t, hs, h => by injection h with h; subst h; exact hs
  | a :: l, s, t, hs, h => by
    rw [forM'] at h
    cases h1 : f s a with
    | error e => rw [h1] at h; cases h
    | ok u =>
      rw [h1] at h
      exact forM_inv hf l u t (hf s a u hs h1) h

/-- Nothing is changed outside of the model directory. -/
theorem lazyChoose_outside (a : RunArgs π μ) {κ : Type} {path : List Str} {st : Pick κ} {cand : κ} {q : List Str}
    (hq : ¬ a.modelDir <+: q) {scores : Option ScoreTable} {d : Store μ} {r : Pick κ × Store μ}
    (h : a.lazyChoose path st cand scores d = .ok r) : r.2 q = d q := by
  have hp : ∀ o : Option (List Str), a.lazyDispose d o q = d q := fun o =>
    lazyDispose_frame a d (fun p _ hpre => hq ((List.prefix_append _ _).trans hpre))
  unfold RunArgs.lazyChoose at h
  split at h
  · cases h
  · injection h with h; rw [← h]; exact hp st.path
  · injection h with h; rw [← h]; exact hp (some path)

theorem lazySingle_outside (a : RunArgs π μ) {name : Str → Str} {train : Str → π → List (Round μ)} {params : π} {path : List Str}
    {d : Store μ} {seed : Str} {r : (Option (List Str) × Option ScoreTable) × Store μ} {q : List Str} (hq : ¬ a.modelDir <+: q)
    (h : a.lazySingle name train params path d seed = .ok r) : r.2 q = d q := by
  unfold RunArgs.lazySingle at h
  split at h
  · cases h
  · rename_i st d' h1
    split at h
    · cases h
    · injection h with h
      rw [← h]
      refine forM_inv (I := fun s => s.2 q = d q) ?_ _ _ _ rfl h1
      intro s x t hs ht
      unfold RunArgs.lazyEpoch at ht
      split at ht
      · cases ht
      · split at ht
        · cases ht
        · rw [lazyChoose_outside a hq ht]
          simp only [Store.save]
          rw [if_neg (fun h => hq (by rw [h]; exact List.prefix_append _ _))]
          exact hs

theorem lazySeeds_outside (a : RunArgs π μ) {name : Str → Str} {train : Str → π → List (Round μ)} {params : π} {path : List Str}
    {q : List Str} (hq : ¬ a.modelDir <+: q) : ∀ {seeds : List Str} {d : Store μ}
    {r : List (Option (List Str) × Option ScoreTable) × Store μ},
    a.lazySeeds name train params path d seeds = .ok r → r.2 q = d q
  | [], d, r, h => by injection h with h; rw [← h]
  | s :: ss, d, r, h => by
    rw [RunArgs.lazySeeds] at h
    split at h
    · cases h
    · rename_i r1 d1 h1
      split at h
      · cases h
      · rename_i rs d2 h2
        injection h with h
        rw [← h]
        have := lazySeeds_outside a hq h2
        exact this.trans (lazySingle_outside a hq h1)

theorem lazyParams_outside (a : RunArgs π μ) {name : Str → Str} {train : Str → π → List (Round μ)} {q : List Str}
    (hq : ¬ a.modelDir <+: q) {s t : Pick (π × List (Option (List Str))) × Store μ} {params : π}
    (h : a.lazyParams name train s params = .ok t) : t.2 q = s.2 q := by
  unfold RunArgs.lazyParams at h
  split at h
  · cases h
  · rename_i r d h1
    rw [lazyChoose_outside a hq h]
    unfold RunArgs.lazyEvaluate at h1
    split at h1
    · split at h1
      · cases h1
      · rename_i r1 d1 h2
        injection h1 with h1
        rw [Prod.mk.injEq] at h1
        rw [← h1.2]
        exact lazySingle_outside a hq h2
    · split at h1
      · cases h1
      · rename_i rs d1 h2
        split at h1
        · cases h1
        · split at h1
          · cases h1
          · injection h1 with h1
            rw [Prod.mk.injEq] at h1
            rw [← h1.2]
            exact lazySeeds_outside a hq h2

/-- The parts of a run that ends normally. -/
theorem lazyRun_ok {a : RunArgs π μ} {name : Str → Str} {gone : Err} {disk : List (List Str)} {d d' : Store μ} {fin : Final π}
    (h : a.lazyRun name gone disk d = .ok (fin, d')) : ∃ train st d₁, a.trainer = some train ∧
      forM' (a.lazyParams name train) ({}, d) (hyperList a.hyperparams) = .ok (st, d₁) ∧
      d' = if a.deleteAfter then d₁.remove a.modelDir else d₁ := by
  unfold RunArgs.lazyRun at h
  split at h
  · cases h
  · split at h
    · cases h
    · rename_i train ht
      split at h
      · cases h
      · rename_i st d₁ h1
        split at h
        · cases h
        · split at h
          · cases h
          · injection h with h
            rw [Prod.mk.injEq] at h
            exact ⟨train, st, d₁, ht, h1, h.2.symm⟩

end Verif
