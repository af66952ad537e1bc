import Verif.Proofs.GridOrder
import Verif.Props.MoreParams

/-! # C171: the settings that a grid search tries -/

namespace Verif

variable {τ : Type}

theorem separate_pairwise {grid : List (Str × List (List (Str × Json)))} (h : Separate grid) {bs : List (List (Str × Json))}
    (hbs : bs ∈ product (grid.map Prod.snd)) : bs.Pairwise fun b b' => ∀ p, Sets b p → ¬ Sets b' p := by
  rw [mem_product] at hbs
  unfold Separate at h
  induction grid generalizing bs with
  | nil => cases hbs; exact .nil
  | cons e grid ih =>
    rw [List.pairwise_cons] at h
    cases hbs with
    | @cons b _ bs _ hb hbs =>
      refine List.pairwise_cons.2 ⟨fun b' hb' => ?_, ih h.2 hbs⟩
      obtain ⟨i, hi⟩ := List.mem_iff_getElem?.1 hb'
      obtain ⟨l, hl, hm⟩ := forall₂_getElem?_left hbs hi
      rw [List.getElem?_map, Option.map_eq_some_iff] at hl
      obtain ⟨e', he', rfl⟩ := hl
      exact h.1 e' (List.mem_of_getElem? he') b hb b' hm

theorem product_mem {grid : List (Str × List (List (Str × Json)))} {P : List (Str × Json) → Prop}
    (h : ∀ e ∈ grid, ∀ b ∈ e.2, P b) {bs : List (List (Str × Json))} (hbs : bs ∈ product (grid.map Prod.snd)) :
    ∀ b ∈ bs, P b := by
  rw [mem_product] at hbs
  intro b hb
  obtain ⟨i, hi⟩ := List.mem_iff_getElem?.1 hb
  obtain ⟨l, hl, hm⟩ := forall₂_getElem?_left hbs hi
  rw [List.getElem?_map, Option.map_eq_some_iff] at hl
  obtain ⟨e', he', rfl⟩ := hl
  exact h e' (List.mem_of_getElem? he') b hm

theorem product_perm {α : Type} {ls ls' : List (List α)} (h : ls.Perm ls') {bs : List α} (hbs : bs ∈ product ls) :
    ∃ bs' ∈ product ls', bs.Perm bs' := by
  simp only [mem_product] at hbs ⊢
  induction h generalizing bs with
  | nil => cases hbs; exact ⟨[], .nil, .nil⟩
  | cons l _ ih =>
    cases hbs with
    | cons h1 h2 =>
      obtain ⟨bs', k1, k2⟩ := ih h2
      exact ⟨_, .cons h1 k1, .cons _ k2⟩
  | swap l l' ls =>
    cases hbs with
    | cons h1 h2 =>
      cases h2 with
      | cons h2 h3 => exact ⟨_, .cons h2 (.cons h1 h3), .swap _ _ _⟩
  | trans _ _ ih1 ih2 =>
    obtain ⟨bs1, k1, k2⟩ := ih1 hbs
    obtain ⟨bs2, k3, k4⟩ := ih2 k1
    exact ⟨bs2, k3, k2.trans k4⟩

/-- C171: every parameter set has the settings of the base file, each with the value of the combination where a name of the
grid is about it and with the value of the base file otherwise.

Missing: values that put a dictionary in place of another value or the other way round (see `C54_refuted`) and names about
the same settings (see `C171_order_refuted`). -/
theorem C171_settings_partial {n : Nat} {grid : List (Str × List (List (Str × Json)))} {base : List (Str × Json)}
    (hbase : (Json.obj base).WF) (hgrid : ∀ e ∈ grid, ∀ b ∈ e.2, (Json.obj b).WF) (fbase : Fits n (.obj base))
    (fgrid : ∀ e ∈ grid, ∀ b ∈ e.2, Fits n (.obj b)) (hs : ∀ e ∈ grid, ∀ b ∈ e.2, SameShape base b) (hsep : Separate grid)
    {ps : List Json} (h : gridParams n (grid.map fun e => (e.1, e.2.map Json.obj)) (.obj base) = .ok ps) :
    List.Forall₂ (fun bs j => ∃ d, j = Json.obj d ∧ (∀ p, Sets d p ↔ Sets base p) ∧ ∀ p s, ValueAt d p s ↔
      (∃ b ∈ bs, ValueAt b p s) ∨ ((∀ b ∈ bs, ¬ Sets b p) ∧ ValueAt base p s)) (product (grid.map Prod.snd)) ps := by
  rcases C54_same_shape_partial hbase hgrid fbase fgrid hs with ⟨h1, _⟩ | ⟨rs, h1, h2⟩
  · rw [h1] at h; cases h
  · rw [h1] at h
    cases h
    rw [List.forall₂_map_right_iff]
    rw [List.forall₂_iff_get] at h2 ⊢
    refine ⟨h2.1, fun i hi hi' => ⟨_, rfl, ?_, ?_⟩⟩
    · have hsh := product_mem hs (List.get_mem (product (grid.map Prod.snd)) ⟨i, hi⟩)
      have hk := (h2.2 i hi hi').sameKeys hsh
      have go : ∀ {a c : List (Str × Json)} {p : List Str}, SameKeys a c → Sets a p → Sets c p := by
        intro a c p hk hp
        induction hp generalizing c with
        | @leaf l k s hl =>
          cases hk with
          | mk g1 g2 g3 =>
            obtain ⟨w, hc⟩ := assocGet_some_iff.2 (g1 ▸ assocGet_some_iff.1 ⟨_, hl⟩)
            cases w with
            | atom t => exact .leaf hc
            | obj y => exact ((g2 k _ _ hl hc).2 trivial).elim
        | @sub l x k p hl _ ih =>
          cases hk with
          | mk g1 g2 g3 =>
            obtain ⟨w, hc⟩ := assocGet_some_iff.2 (g1 ▸ assocGet_some_iff.1 ⟨_, hl⟩)
            obtain ⟨y, rfl⟩ := getObj ((g2 k _ w hl hc).1 trivial)
            exact .sub hc (ih (g3 k x y hl hc))
      exact fun p => ⟨go hk.symm, go hk⟩
    · exact fun p s => (h2.2 i hi hi').valueAt (product_mem hs (List.get_mem _ ⟨i, hi⟩))
        (separate_pairwise hsep (List.get_mem _ ⟨i, hi⟩)) p s

/-- C171: the check of the grid does not depend on the order of its names. -/
theorem C171_check {grid grid' : List (Str × List (List (Str × Json)))} (hp : grid.Perm grid') :
    checkGrid grid = checkGrid grid' := by
  have key : checkGrid grid = .ok () ↔ checkGrid grid' = .ok () := by
    rw [(C81_check_partial grid).2, (C81_check_partial grid').2]
    refine and_congr ⟨fun h e he => h e (hp.mem_iff.2 he), fun h e he => h e (hp.mem_iff.1 he)⟩ (hp.pairwise_iff ?_)
    intro e e' h a ha b hb hs
    refine h b hb a ha ?_
    rcases hs with ⟨p, h1, h2⟩ | ⟨h1, h2⟩
    · exact .inl ⟨p, h2, h1⟩
    · exact .inr ⟨h2, h1⟩
  rcases (C81_check_partial grid).1 with h | h
  · rw [h, key.1 h]
  · rcases (C81_check_partial grid').1 with h' | h'
    · rw [h', key.2 h']
    · rw [h, h']

theorem separate_perm {grid grid' : List (Str × List (List (Str × Json)))} (hp : grid.Perm grid') (h : Separate grid) :
    Separate grid' := (hp.pairwise_iff (fun h a ha b hb p h1 h2 => h b hb a ha p h2 h1)).1 h

/-- C171: the order of the names in the grid does not matter: as many parameter sets are tried and they are the same ones.

Missing: as in `C171_settings_partial`. -/
theorem C171_order_partial {n : Nat} {grid grid' : List (Str × List (List (Str × Json)))} {base : List (Str × Json)}
    (hp : grid.Perm grid')
    (hbase : (Json.obj base).WF) (hgrid : ∀ e ∈ grid, ∀ b ∈ e.2, (Json.obj b).WF) (fbase : Fits n (.obj base))
    (fgrid : ∀ e ∈ grid, ∀ b ∈ e.2, Fits n (.obj b)) (hs : ∀ e ∈ grid, ∀ b ∈ e.2, SameShape base b) (hsep : Separate grid)
    {ps : List Json} (h : gridParams n (grid.map fun e => (e.1, e.2.map Json.obj)) (.obj base) = .ok ps) :
    ∃ ps', gridParams n (grid'.map fun e => (e.1, e.2.map Json.obj)) (.obj base) = .ok ps' ∧ ps'.length = ps.length ∧
      ∀ j, j ∈ ps' ↔ j ∈ ps := by
  have mem' : ∀ {e}, e ∈ grid' → e ∈ grid := fun he => hp.mem_iff.2 he
  have hgrid' : ∀ e ∈ grid', ∀ b ∈ e.2, (Json.obj b).WF := fun e he => hgrid e (mem' he)
  have hs' : ∀ e ∈ grid', ∀ b ∈ e.2, SameShape base b := fun e he => hs e (mem' he)
  have hpp := hp.map Prod.snd
  rcases C54_same_shape_partial hbase hgrid fbase fgrid hs with ⟨h1, _⟩ | ⟨rs, h1, h2⟩
  · rw [h1] at h; cases h
  rw [h1] at h
  cases h
  rcases C54_same_shape_partial (n := n) hbase hgrid' fbase (fun e he => fgrid e (mem' he)) hs' with ⟨k1, bs', m1, m2⟩ | ⟨rs', k1, k2⟩
  · exfalso
    obtain ⟨b, hb, m⟩ := m2.some (product_mem hs' m1)
    obtain ⟨bs, n1, n2⟩ := product_perm hpp.symm m1
    obtain ⟨i, hi⟩ := List.mem_iff_getElem?.1 n1
    obtain ⟨d, _, o⟩ := forall₂_getElem?_left h2 hi
    exact o.not_missing (product_mem hs n1) b (n2.mem_iff.1 hb) m
  refine ⟨_, k1, ?_, ?_⟩
  · rw [List.length_map, List.length_map, ← h2.length_eq, ← k2.length_eq, product_length, product_length]
    exact ((hpp.map List.length).prod_eq).symm
  · have go : ∀ {g g' : List (Str × List (List (Str × Json)))} {rs rs' : List (List (Str × Json))}, g.Perm g' →
        (∀ e ∈ g, ∀ b ∈ e.2, (Json.obj b).WF) → (∀ e ∈ g, ∀ b ∈ e.2, SameShape base b) → Separate g →
        List.Forall₂ (OverridesAll base) (product (g.map Prod.snd)) rs →
        List.Forall₂ (OverridesAll base) (product (g'.map Prod.snd)) rs' → ∀ d ∈ rs, d ∈ rs' := by
      intro g g' rs rs' hg hw hsh hse f f' d hd
      obtain ⟨i, hi⟩ := List.mem_iff_getElem?.1 hd
      obtain ⟨bs, hbs, o⟩ := forall₂_getElem?_right f hi
      have hbm := List.mem_of_getElem? hbs
      obtain ⟨bs', n1, n2⟩ := product_perm (hg.map Prod.snd) hbm
      obtain ⟨j, hj⟩ := List.mem_iff_getElem?.1 n1
      obtain ⟨d', hd', o'⟩ := forall₂_getElem?_left f' hj
      have sh := product_mem hsh hbm
      have sh' : ∀ b ∈ bs', SameShape base b := fun b hb => sh b (n2.mem_iff.2 hb)
      have pw := separate_pairwise hse hbm
      have pw' := (n2.pairwise_iff (fun {_ _} (h : ∀ p, Sets _ p → ¬ Sets _ p) p h1 h2 => h p h2 h1)).1 pw
      have : d = d' := by
        refine ((o.sameKeys sh).symm.trans (o'.sameKeys sh')).ext (o.wf hbase (product_mem hw hbm)) fun p s hv => ?_
        rw [o.valueAt sh pw] at hv
        rw [o'.valueAt sh' pw']
        rcases hv with ⟨b, hb, hv⟩ | ⟨hn, hv⟩
        · exact .inl ⟨b, n2.mem_iff.1 hb, hv⟩
        · exact .inr ⟨fun b hb => hn b (n2.mem_iff.2 hb), hv⟩
      rw [this]
      exact List.mem_of_getElem? hd'
    intro j
    simp only [List.mem_map]
    constructor
    · rintro ⟨d, hd, rfl⟩
      exact ⟨d, go hp.symm hgrid' hs' (separate_perm hp hsep) k2 h2 d hd, rfl⟩
    · rintro ⟨d, hd, rfl⟩
      exact ⟨d, go hp hgrid hs hsep h2 k2 d hd, rfl⟩

/-- C171: what the grid search reports does not depend on the order of the names in the grid: the best comparison scores are
the same, and everything is if one parameter set is better than all others.

Missing: as in `C171_settings_partial`. -/
theorem C171_report_partial {n : Nat} (a : RunArgs Json τ) {grid grid' : List (Str × List (List (Str × Json)))}
    {base : List (Str × Json)} (hp : grid.Perm grid')
    (hbase : (Json.obj base).WF) (hgrid : ∀ e ∈ grid, ∀ b ∈ e.2, (Json.obj b).WF) (fbase : Fits n (.obj base))
    (fgrid : ∀ e ∈ grid, ∀ b ∈ e.2, Fits n (.obj b)) (hs : ∀ e ∈ grid, ∀ b ∈ e.2, SameShape base b) (hsep : Separate grid)
    {train : Str → Json → List (Round τ)} (ht : a.trainer = some train) (hne : a.printFields ≠ [])
    {disk disk' : List (List Str)} {fin fin' : Final Json}
    (h : (gridMain n a grid base disk).value = .ok fin) (h' : (gridMain n a grid' base disk').value = .ok fin') :
    NotWorse a fin.dev fin'.dev ∧ NotWorse a fin'.dev fin.dev ∧
    ∀ ps p, gridParams n (grid.map fun e => (e.1, e.2.map Json.obj)) (.obj base) = .ok ps → fin.params = some p →
      OnlyBest a train ps p → fin' = fin := by
  unfold gridMain at h h'
  rw [← C171_check hp] at h'
  cases hc : checkGrid grid with
  | error e => rw [hc] at h; cases h
  | ok u =>
    rw [hc] at h h'
    cases hg : gridParams n (grid.map fun e => (e.1, e.2.map Json.obj)) (.obj base) with
    | error e => rw [hg] at h; cases h
    | ok ps =>
      obtain ⟨ps', hg', _, hmem⟩ := C171_order_partial hp hbase hgrid fbase fgrid hs hsep hg
      rw [hg] at h
      rw [hg'] at h'
      have h : (({ a with deleteAfter := true, hyperparams := .inr ps } : RunArgs Json τ).main disk).value = .ok fin := by
        simpa [Tr.lift, Tr.bind] using h
      have h' : (({ a with deleteAfter := true, hyperparams := .inr ps' } : RunArgs Json τ).main disk').value = .ok fin' := by
        simpa [Tr.lift, Tr.bind] using h'
      refine ⟨?_, ?_, ?_⟩
      · exact not_worse { a with deleteAfter := true, hyperparams := .inr ps } { a with deleteAfter := true, hyperparams := .inr ps' }
          rfl rfl rfl rfl ht ht hne h h' fun p hp => ⟨p, (hmem p).2 hp, fun _ _ => rfl⟩
      · exact not_worse { a with deleteAfter := true, hyperparams := .inr ps' } { a with deleteAfter := true, hyperparams := .inr ps }
          rfl rfl rfl rfl ht ht hne h' h fun p hp => ⟨p, (hmem p).1 hp, fun _ _ => rfl⟩
      · intro ps0 p e1 e2 hb
        cases e1
        have hpin : p ∈ ps := by
          obtain ⟨i, p0, _, _, g1, g2, _⟩ :=
            C103_report { a with deleteAfter := true, hyperparams := .inr ps } disk ht hne h
          rw [e2] at g2
          cases g2
          exact List.mem_of_getElem? g1
        exact C166_same { a with deleteAfter := true, hyperparams := .inr ps } ht hne h e2 hb
          (fun q hq => (hmem q).1 hq) ((hmem p).2 hpin) h'

/-- C171: a further name, one of whose values is what the base file says anyway, does not make the reported comparison score
worse, wherever it stands in the grid.

Missing: as in `C171_settings_partial`. -/
theorem C171_name_partial {n : Nat} (a : RunArgs Json τ) {grid grid' : List (Str × List (List (Str × Json)))}
    {e : Str × List (List (Str × Json))} {same : List (Str × Json)}
    {base : List (Str × Json)} (hp : (e :: grid).Perm grid') (hin : same ∈ e.2) (hsame : ∀ p s, ValueAt same p s → ValueAt base p s)
    (hbase : (Json.obj base).WF) (hgrid : ∀ e ∈ grid', ∀ b ∈ e.2, (Json.obj b).WF) (fbase : Fits n (.obj base))
    (fgrid : ∀ e ∈ grid', ∀ b ∈ e.2, Fits n (.obj b)) (hs : ∀ e ∈ grid', ∀ b ∈ e.2, SameShape base b) (hsep : Separate grid')
    {train : Str → Json → List (Round τ)} (ht : a.trainer = some train) (hne : a.printFields ≠ [])
    {disk disk' : List (List Str)} {fin fin' : Final Json}
    (h : (gridMain n a grid base disk).value = .ok fin) (h' : (gridMain n a grid' base disk').value = .ok fin') :
    NotWorse a fin.dev fin'.dev := by
  have up : ∀ {x}, x ∈ grid → x ∈ grid' := fun hx => hp.mem_iff.1 (List.mem_cons_of_mem _ hx)
  have hsep1 := separate_perm hp.symm hsep
  have hsep0 : Separate grid := (List.pairwise_cons.1 hsep1).2
  have hs0 : ∀ e ∈ grid, ∀ b ∈ e.2, SameShape base b := fun x hx => hs x (up hx)
  have hw0 : ∀ e ∈ grid, ∀ b ∈ e.2, (Json.obj b).WF := fun x hx => hgrid x (up hx)
  have meet : ∀ {g : List (Str × List (List (Str × Json)))}, (∀ e ∈ g, ∀ b ∈ e.2, SameShape base b) →
      ∀ bs ∈ product (g.map Prod.snd), DictsMeetAll base bs := fun hg bs hbs => sameShape_meetAll (product_mem hg hbs)
  obtain ⟨rs, h1, h2⟩ := gridMain_ok (n := n) a disk hbase hw0 fbase (fun x hx => fgrid x (up hx)) (meet hs0) h
  obtain ⟨rs', k1, k2⟩ := gridMain_ok (n := n) a disk' hbase hgrid fbase fgrid (meet hs) h'
  refine not_worse { a with deleteAfter := true, hyperparams := .inr (rs.map Json.obj) }
    { a with deleteAfter := true, hyperparams := .inr (rs'.map Json.obj) } rfl rfl rfl rfl ht ht hne h2 k2 ?_
  intro q hq
  refine ⟨q, ?_, fun _ _ => rfl⟩
  simp only [hyperList, List.mem_map] at hq ⊢
  obtain ⟨d, hd, rfl⟩ := hq
  obtain ⟨i, hi⟩ := List.mem_iff_getElem?.1 hd
  obtain ⟨bs, hbs, o⟩ := forall₂_getElem?_right h1 hi
  have hbm := List.mem_of_getElem? hbs
  have hbm1 : same :: bs ∈ product ((e :: grid).map Prod.snd) := by
    rw [mem_product] at hbm ⊢
    exact .cons hin hbm
  obtain ⟨bs', n1, n2⟩ := product_perm (hp.map Prod.snd) hbm1
  obtain ⟨j, hj⟩ := List.mem_iff_getElem?.1 n1
  obtain ⟨d', hd', o'⟩ := forall₂_getElem?_left k1 hj
  refine ⟨d', List.mem_of_getElem? hd', ?_⟩
  have sh := product_mem hs0 hbm
  have sh' := product_mem hs n1
  have pw1 := separate_pairwise hsep1 hbm1
  have : d = d' := by
    refine ((o.sameKeys sh).symm.trans (o'.sameKeys sh')).ext (o.wf hbase (product_mem hw0 hbm)) fun p s hv => ?_
    rw [o.valueAt sh (List.pairwise_cons.1 pw1).2] at hv
    rw [o'.valueAt sh' (separate_pairwise hsep n1)]
    rcases hv with ⟨b, hb, hv⟩ | ⟨hn, hv⟩
    · exact .inl ⟨b, n2.mem_iff.1 (List.mem_cons_of_mem _ hb), hv⟩
    · by_cases hset : Sets same p
      · obtain ⟨s', hs'⟩ := sets_iff_valueAt.1 hset
        have : s' = s := by
          have hu : ∀ {l : List (Str × Json)} {p : List Str} {s s' : Str}, ValueAt l p s → ValueAt l p s' → s' = s := by
            intro l p s s' h h'
            induction h with
            | leaf h =>
              cases h' with
              | leaf h' => rw [h] at h'; cases h'; rfl
              | sub _ h' => cases h'
            | sub h hh ih =>
              cases h' with
              | leaf h' => cases hh
              | sub h' hh' => rw [h] at h'; cases h'; exact ih hh'
          exact hu hv (hsame p s' hs')
        subst this
        exact .inl ⟨same, n2.mem_iff.1 (by simp), hs'⟩
      · refine .inr ⟨fun b hb => ?_, hv⟩
        rcases List.mem_cons.1 (n2.mem_iff.2 hb) with rfl | hb
        · exact hset
        · exact hn b hb
  rw [this]

open GridDemo in
/-- C171 is false for names that set the same settings, which the check can miss: the last one in the file wins. -/
theorem C171_order_refuted : ∃ (grid grid' : List (Str × List (List (Str × Json)))) (base : List (Str × Json)) (r r' : List Json),
    grid.Perm grid' ∧ (∀ e ∈ grid, ∀ b ∈ e.2, SameShape base b) ∧ checkGrid grid = .ok () ∧ checkGrid grid' = .ok () ∧
    gridParams 2 (grid.map fun e => (e.1, e.2.map Json.obj)) (.obj base) = .ok r ∧
    gridParams 2 (grid'.map fun e => (e.1, e.2.map Json.obj)) (.obj base) = .ok r' ∧ ∃ j ∈ r, j ∉ r' := by
  refine ⟨[(['A'], [[(x, at1), (y, at2)]]), (['B'], [[(y, at3)]])], [(['B'], [[(y, at3)]]), (['A'], [[(x, at1), (y, at2)]])],
    [(x, at4), (y, at4)], _, _, .swap _ _ _, ?_, rfl, rfl, rfl, rfl, .obj [(x, at1), (y, at3)], ?_, ?_⟩
  · have atoms : ∀ {l l' : List (Str × Json)}, (∀ e ∈ l, ¬ e.2.IsObj) → (∀ e ∈ l', ¬ e.2.IsObj) → SameShape l l' := by
      intro l l' h h'
      refine .mk (fun k v w hv hw => ?_) (fun k u w hu hw => absurd trivial (h _ (assocGet_mem hu)))
      exact iff_of_false (h _ (assocGet_mem hv)) (h' _ (assocGet_mem hw))
    simp only [List.mem_cons, List.not_mem_nil, or_false, forall_eq_or_imp, forall_eq]
    constructor <;> refine atoms ?_ ?_ <;> simp [at1, at2, at3, at4, Json.IsObj]
  · exact List.mem_cons_self
  · intro h
    simp only [List.mem_cons, List.not_mem_nil, or_false] at h
    injection h with h
    simp [at1, at2, at3, at4] at h

open GridDemo in
example : Separate GridDemo.grid ∧ (∀ e ∈ GridDemo.grid, ∀ b ∈ e.2, SameShape GridDemo.base b) ∧ GridDemo.grid.Perm GridDemo.grid.reverse ∧
    checkGrid GridDemo.grid.reverse = .ok () :=
  ⟨C81_single_partial rfl (by
    simp only [GridDemo.grid, List.mem_cons, List.not_mem_nil, or_false, forall_eq_or_imp, forall_eq]
    have one : ∀ {k s : Str} {p : List Str}, Sets [(k, .atom s)] p → p = [k] := by
      intro k s p h
      cases h with
      | @leaf _ k' _ h =>
        simp only [assocGet] at h
        split at h
        · rename_i hk; rw [hk]
        · cases h
      | sub h _ =>
        simp only [assocGet] at h
        split at h <;> cases h
    have two : ∀ {k k' s : Str} {p : List Str}, Sets [(k, .obj [(k', .atom s)])] p → p = [k, k'] := by
      intro k k' s p h
      cases h with
      | leaf h =>
        simp only [assocGet] at h
        split at h <;> cases h
      | sub h hh =>
        simp only [assocGet] at h
        split at h
        · rename_i hk; cases h; rw [hk, one hh]
        · cases h
    exact ⟨⟨⟨_, .sub _ _ (.leaf _ _ _), fun p h => two h⟩, ⟨_, .sub _ _ (.leaf _ _ _), fun p h => two h⟩⟩,
      ⟨_, .leaf _ _ _, fun p h => one h⟩, ⟨_, .leaf _ _ _, fun p h => one h⟩⟩),
    GridDemo.grid_shape, (List.reverse_perm _).symm, rfl⟩

open GridDemo in
/-- A value that says the same as the base file. -/
example : ∀ p s, ValueAt [(y, at3)] p s → ValueAt GridDemo.base p s := by
  intro p s h
  cases h with
  | leaf h =>
    simp only [assocGet] at h
    split at h
    · rename_i hk
      cases hk
      cases h
      exact .leaf rfl
    · cases h
  | sub h _ =>
    simp only [assocGet] at h
    split at h <;> cases h

end Verif
