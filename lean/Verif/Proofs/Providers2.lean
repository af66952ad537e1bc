import Verif.Proofs.Providers

/-! # Proofs about assembled extractors: padding keeps ranges, merged initializers -/

namespace Verif

variable {F : Type}

/-! ### padding -/

theorem padValue_good {u v : Feat} (h : padValue u = .ok v) :
    u.isList = true ∧ ∃ shape, v.HasShape shape ∧ u.Keeps v ∧ u.AddsPadding v ∧
      ∀ (k : Nat) m, shape[k]? = some m → ∃ l, u.AtDepth k (.list l) ∧ l.length = m := by
  obtain ⟨h1, h2, h3⟩ := C38_padding u
  cases hl : u.isList with
  | false => rw [h1 hl] at h; simp at h
  | true =>
    by_cases hu : u.Uniform
    · obtain ⟨v', shape, e, r⟩ := h3 hl hu
      rw [h] at e
      injection e with e
      subst e
      exact ⟨rfl, shape, r⟩
    · rw [h2 hl hu] at h; simp at h

/-- Padding keeps a property of all scalars that `PADDING` has. -/
theorem pad_scalars {P : Feat → Prop} (hP : P (.int PADDING)) {u v : Feat} (h : padValue u = .ok v)
    (hu : ∀ p x, u.at p = some x → x.isList = false → P x) (p : List Nat) (x : Feat)
    (hx : v.at p = some x) (hl : x.isList = false) : P x := by
  obtain ⟨_, shape, _, hk, ha, _⟩ := padValue_good h
  cases hup : u.at p with
  | none => rw [ha p x hx hl hup]; exact hP
  | some y =>
    obtain ⟨z, hz, h1, h2⟩ := hk p y hup
    rw [hx] at hz
    injection hz with hz
    subst hz
    cases hy : y.isList with
    | false => rw [h1 hy]; exact hu p y hup hy
    | true => rw [h2 hy] at hl; simp at hl

theorem hasShape_at {shape : List Nat} {v x : Feat} (h : v.HasShape shape) {p : List Nat}
    (hx : v.at p = some x) : x.HasShape (shape.drop p.length) ∧ p.length ≤ shape.length := by
  induction p generalizing v shape with
  | nil =>
    rw [Feat.at_nil] at hx
    injection hx with hx
    subst hx
    exact ⟨by simpa using h, by simp⟩
  | cons i p ih =>
    cases shape with
    | nil =>
      have : v.isList = false := h
      rw [Feat.at_leaf this] at hx
      simp at hx
    | cons n s =>
      obtain ⟨l, rfl, hn, hall⟩ := h
      rw [Feat.at_list_cons] at hx
      obtain ⟨y, hy, hyx⟩ := Option.bind_eq_some_iff.1 hx
      obtain ⟨h1, h2⟩ := ih (hall y (List.mem_of_getElem? hy)) hyx
      exact ⟨by simpa using h1, by simpa using h2⟩

/-- A vector of `n` scalars per token, the `j`-th satisfying `P j`. -/
def Vectors (n : Nat) (P : Nat → Feat → Prop) (v : Feat) : Prop :=
  ∀ (s w : Nat) x, v.at [s, w] = some x → ∃ l, x = .list l ∧ l.length = n ∧
    ∀ (j : Nat) y, l[j]? = some y → y.isList = false ∧ P j y

theorem pad_vectors {n : Nat} {P : Nat → Feat → Prop} (hP : ∀ j, j < n → P j (.int PADDING))
    {u v : Feat} (h : padValue u = .ok v) (hu : Vectors n P u) : Vectors n P v := by
  obtain ⟨_, shape, hs, hk, ha, hmin⟩ := padValue_good h
  intro s w x hx
  obtain ⟨hxs, hlen⟩ := hasShape_at hs hx
  have hlen : 2 ≤ shape.length := hlen
  -- some token
  have htok : ∃ s' w' y, u.at [s', w'] = some y := by
    obtain ⟨m, hm⟩ : ∃ m, shape[1]? = some m := ⟨_, List.getElem?_eq_getElem (by omega)⟩
    obtain ⟨l, ⟨p, hp, hpl⟩, hl⟩ := hmin 1 m hm
    have hpos : 0 < m := by
      match shape, hlen, hs with
      | a :: b :: r, _, hs =>
        obtain ⟨l1, rfl, _, hall⟩ := hs
        rw [Feat.at_list_cons] at hx
        obtain ⟨y, hy, hyx⟩ := Option.bind_eq_some_iff.1 hx
        obtain ⟨l2, rfl, hb, _⟩ := hall y (List.mem_of_getElem? hy)
        rw [Feat.at_list_cons] at hyx
        obtain ⟨z, hz, _⟩ := Option.bind_eq_some_iff.1 hyx
        have := (List.getElem?_eq_some_iff.1 hz).1
        simp only [List.getElem?_cons_succ, List.getElem?_cons_zero, Option.some.injEq] at hm
        omega
    match p, hp with
    | [a], _ =>
      cases hu' : u with
      | list ul =>
        rw [hu', Feat.at_list_cons] at hpl
        obtain ⟨y, hy, hyx⟩ := Option.bind_eq_some_iff.1 hpl
        rw [Feat.at_nil] at hyx
        injection hyx with hyx
        subst hyx
        refine ⟨a, 0, l[0], ?_⟩
        rw [Feat.at_list_cons, hy, Option.bind_some, Feat.at_list_cons,
          List.getElem?_eq_getElem (by omega), Option.bind_some, Feat.at_nil]
      | int _ => rw [hu', Feat.at_leaf rfl] at hpl; simp at hpl
      | bool _ => rw [hu', Feat.at_leaf rfl] at hpl; simp at hpl
      | other _ => rw [hu', Feat.at_leaf rfl] at hpl; simp at hpl
  obtain ⟨s', w', y, hy⟩ := htok
  obtain ⟨ly, rfl, hyl, hyP⟩ := hu s' w' y hy
  obtain ⟨z, hz, _, hz2⟩ := hk _ _ hy
  obtain ⟨hzs, _⟩ := hasShape_at hs hz
  have hzlist : z.isList = true := hz2 rfl
  -- the third dimension
  have h3 : ∃ r, shape.drop 2 = n :: r := by
    cases hr : shape.drop 2 with
    | nil =>
      have hzs' : z.HasShape (shape.drop 2) := hzs
      rw [hr] at hzs'
      have : z.isList = false := hzs'
      rw [hzlist] at this
      simp at this
    | cons m r =>
      have hm : shape[2]? = some m := by
        have := List.getElem?_drop (xs := shape) (i := 2) (j := 0)
        rw [hr] at this
        simpa using this.symm
      obtain ⟨l, ⟨p, hp, hpl⟩, hl⟩ := hmin 2 m hm
      match p, hp with
      | [a, b], _ =>
        obtain ⟨l', hl', hl'n, _⟩ := hu a b _ hpl
        injection hl' with hl'
        subst hl'
        exact ⟨r, by rw [← hl, hl'n]⟩
  obtain ⟨r, hr⟩ := h3
  have hxs' : x.HasShape (n :: r) := by rw [← hr]; exact hxs
  obtain ⟨l, rfl, hln, hall⟩ := hxs'
  refine ⟨l, rfl, hln, ?_⟩
  intro j e he
  have hj : j < n := by rw [← hln]; exact (List.getElem?_eq_some_iff.1 he).1
  -- no further dimension
  have hr0 : r = [] := by
    cases r with
    | nil => rfl
    | cons m r' =>
      exfalso
      have hyj : (ly)[j]? = some ly[j] := List.getElem?_eq_getElem (by omega)
      have hat : u.at [s', w', j] = some ly[j] := by
        cases hu' : u with
        | list ul =>
          rw [hu', Feat.at_list_cons] at hy
          obtain ⟨a, ha', hay⟩ := Option.bind_eq_some_iff.1 hy
          rw [Feat.at_list_cons, ha', Option.bind_some]
          cases a with
          | list al =>
            rw [Feat.at_list_cons] at hay ⊢
            obtain ⟨b, hb, hby⟩ := Option.bind_eq_some_iff.1 hay
            rw [Feat.at_nil] at hby
            injection hby with hby
            subst hby
            rw [hb, Option.bind_some, Feat.at_list_cons, hyj, Option.bind_some, Feat.at_nil]
          | int _ => rw [Feat.at_leaf rfl] at hay; simp at hay
          | bool _ => rw [Feat.at_leaf rfl] at hay; simp at hay
          | other _ => rw [Feat.at_leaf rfl] at hay; simp at hay
        | int _ => rw [hu', Feat.at_leaf rfl] at hy; simp at hy
        | bool _ => rw [hu', Feat.at_leaf rfl] at hy; simp at hy
        | other _ => rw [hu', Feat.at_leaf rfl] at hy; simp at hy
      obtain ⟨q, hq, hq1, _⟩ := hk _ _ hat
      have hleaf := (hyP j _ hyj).1
      have hqs := (hasShape_at hs hq).1
      have : shape.drop 3 = m :: r' := by
        have h := congrArg List.tail hr
        simpa [List.tail_drop] using h
      have hqs' : q.HasShape (m :: r') := by rw [← this]; exact hqs
      obtain ⟨lq, rfl, _⟩ := hqs'
      rw [← hq1 hleaf] at hleaf
      simp [Feat.isList] at hleaf
  subst hr0
  have heleaf : e.isList = false := hall e (List.mem_of_getElem? he)
  refine ⟨heleaf, ?_⟩
  have hve : v.at [s, w, j] = some e := by
    have hsplit : ∀ (f : Feat) (s w j : Nat) (l : List Feat), f.at [s, w] = some (.list l) →
        f.at [s, w, j] = l[j]? := by
      intro f s w j l hf
      cases f with
      | list ul =>
        rw [Feat.at_list_cons] at hf ⊢
        obtain ⟨a, ha', hay⟩ := Option.bind_eq_some_iff.1 hf
        rw [ha', Option.bind_some]
        cases a with
        | list al =>
          rw [Feat.at_list_cons] at hay ⊢
          obtain ⟨b, hb, hby⟩ := Option.bind_eq_some_iff.1 hay
          rw [Feat.at_nil] at hby
          injection hby with hby
          subst hby
          rw [hb, Option.bind_some, Feat.at_list_cons]
          cases l[j]? <;> simp [Feat.at_nil]
        | int _ => rw [Feat.at_leaf rfl] at hay; simp at hay
        | bool _ => rw [Feat.at_leaf rfl] at hay; simp at hay
        | other _ => rw [Feat.at_leaf rfl] at hay; simp at hay
      | int _ => rw [Feat.at_leaf rfl] at hf; simp at hf
      | bool _ => rw [Feat.at_leaf rfl] at hf; simp at hf
      | other _ => rw [Feat.at_leaf rfl] at hf; simp at hf
    rw [hsplit v s w j l hx, he]
  cases hup : u.at [s, w, j] with
  | none => rw [ha _ _ hve heleaf hup]; exact hP j hj
  | some y' =>
    obtain ⟨q, hq, hq1, hq2⟩ := hk _ _ hup
    rw [hve] at hq
    injection hq with hq
    subst hq
    cases hy' : y'.isList with
    | true => rw [hq2 hy'] at heleaf; simp at heleaf
    | false =>
      rw [hq1 hy']
      -- the token of `u`
      have : ∃ l', u.at [s, w] = some (.list l') ∧ l'[j]? = some y' := by
        cases hu' : u with
        | list ul =>
          rw [hu', Feat.at_list_cons] at hup
          obtain ⟨a, ha', hay⟩ := Option.bind_eq_some_iff.1 hup
          cases a with
          | list al =>
            rw [Feat.at_list_cons] at hay
            obtain ⟨b, hb, hby⟩ := Option.bind_eq_some_iff.1 hay
            cases b with
            | list bl =>
              rw [Feat.at_list_cons] at hby
              obtain ⟨c, hc, hcy⟩ := Option.bind_eq_some_iff.1 hby
              rw [Feat.at_nil] at hcy
              injection hcy with hcy
              subst hcy
              refine ⟨bl, ?_, hc⟩
              rw [Feat.at_list_cons, ha', Option.bind_some, Feat.at_list_cons, hb, Option.bind_some,
                Feat.at_nil]
            | int _ => rw [Feat.at_leaf rfl] at hby; simp at hby
            | bool _ => rw [Feat.at_leaf rfl] at hby; simp at hby
            | other _ => rw [Feat.at_leaf rfl] at hby; simp at hby
          | int _ => rw [Feat.at_leaf rfl] at hay; simp at hay
          | bool _ => rw [Feat.at_leaf rfl] at hay; simp at hay
          | other _ => rw [Feat.at_leaf rfl] at hay; simp at hay
        | int _ => rw [hu', Feat.at_leaf rfl] at hup; simp at hup
        | bool _ => rw [hu', Feat.at_leaf rfl] at hup; simp at hup
        | other _ => rw [hu', Feat.at_leaf rfl] at hup; simp at hup
      obtain ⟨l', hl', hl'j⟩ := this
      obtain ⟨l'', e1, _, e3⟩ := hu s w _ hl'
      injection e1 with e1
      subst e1
      exact (e3 j y' hl'j).2

/-! ### what the wrappers make of the values of a leaf -/

theorem scalars_list {P : Feat → Prop} {l : List Feat}
    (h : ∀ x ∈ l, ∀ p y, x.at p = some y → y.isList = false → P y) (p : List Nat) (y : Feat)
    (hy : (Feat.list l).at p = some y) (hl : y.isList = false) : P y := by
  cases p with
  | nil =>
    rw [Feat.at_nil] at hy
    injection hy with hy
    subst hy
    simp [Feat.isList] at hl
  | cons i p =>
    rw [Feat.at_list_cons] at hy
    obtain ⟨x, hx, hxy⟩ := Option.bind_eq_some_iff.1 hy
    exact h x (List.mem_of_getElem? hx) p y hxy hl

/-- Whatever the wrappers, scalars stay in range if `PADDING` and `OOV` are. -/
theorem form_scalars {P : Feat → Prop} (h0 : P (.int PADDING)) (h1 : P (.int OOV))
    {Q : Obj → Feat → Prop} (hQ : ∀ o v, Q o v → ∀ p x, v.at p = some x → x.isList = false → P x)
    (ws : List Wrapper) (o : Obj) (v : Feat) (h : Form Q ws o v) :
    ∀ p x, v.at p = some x → x.isList = false → P x := by
  induction ws generalizing o v with
  | nil => exact hQ o v h
  | cons w ws ih =>
    cases w with
    | iter =>
      obtain ⟨ls, rfl, hf, _⟩ := h
      refine scalars_list ?_
      intro x hx
      obtain ⟨l, hl, hxl⟩ := List.mem_flatten.1 hx
      obtain ⟨i, _, hi⟩ := forall₂_mem_right hf hl
      exact ih i x (hi x hxl)
    | padding =>
      obtain ⟨u, hu, hp⟩ := h
      exact pad_scalars h0 hp (ih o u hu)
    | sparse =>
      obtain ⟨u, hu, hs⟩ := h
      intro p x hx hl
      cases hup : u.at p with
      | none => rw [(hs p).2.2 hup] at hx; simp at hx
      | some y =>
        cases hy : y.isList with
        | true =>
          obtain ⟨l, rfl⟩ : ∃ l, y = .list l := ⟨_, Feat.isList_iff.1 hy⟩
          obtain ⟨l', hl', _⟩ := (hs p).2.1 l hup
          rw [hx] at hl'
          injection hl' with hl'
          subst hl'
          simp [Feat.isList] at hl
        | false =>
          obtain ⟨z, hz, _, hr⟩ := (hs p).1 y hup hy
          rw [hx] at hz
          injection hz with hz
          subst hz
          rcases hr with rfl | rfl
          · exact ih o u hu p x hup hy
          · exact h1

/-- Word-level values without sparsification are vectors if those of the leaf are. -/
theorem form_vectors {n : Nat} {P : Nat → Feat → Prop} (hP : ∀ j, j < n → P j (.int PADDING))
    {Q : Obj → Feat → Prop} {batch : Obj} {v : Feat}
    (hQ : ∀ s ∈ batch.items, ∀ t ∈ s.items, ∀ x, Q t x →
      ∃ l, x = .list l ∧ l.length = n ∧ ∀ (j : Nat) y, l[j]? = some y → y.isList = false ∧ P j y)
    (h : Form Q [.padding, .iter, .iter] batch v) : Vectors n P v := by
  obtain ⟨u, ⟨ls, rfl, hf, _⟩, hp⟩ := h
  refine pad_vectors hP hp ?_
  intro s w x hx
  rw [Feat.at_list_cons] at hx
  obtain ⟨a, ha, hax⟩ := Option.bind_eq_some_iff.1 hx
  obtain ⟨l, hl, hal⟩ := List.mem_flatten.1 (List.mem_of_getElem? ha)
  obtain ⟨sent, hsent, hi⟩ := forall₂_mem_right hf hl
  obtain ⟨ls', rfl, hf', _⟩ := hi a hal
  rw [Feat.at_list_cons] at hax
  obtain ⟨b, hb, hbx⟩ := Option.bind_eq_some_iff.1 hax
  rw [Feat.at_nil] at hbx
  injection hbx with hbx
  subst hbx
  obtain ⟨l2, hl2, hbl⟩ := List.mem_flatten.1 (List.mem_of_getElem? hb)
  obtain ⟨t, ht, hi'⟩ := forall₂_mem_right hf' hl2
  exact hQ sent hsent t ht b (hi' b hbl)

/-! ### merged initializers -/

theorem IsUnion.keys {V : Type} {D : Dict Str V} {ds : List (Dict Str V)} (h : IsUnion D ds) (k : Str) :
    k ∈ D.keys ↔ ∃ d ∈ ds, k ∈ d.keys := by
  constructor
  · intro hk
    obtain ⟨v, hv⟩ := Option.isSome_iff_exists.1 (Dict.get?_isSome.2 hk)
    obtain ⟨d, hd, hdv⟩ := (h k v).1 hv
    exact ⟨d, hd, Dict.get?_isSome.1 (by rw [hdv]; rfl)⟩
  · rintro ⟨d, hd, hk⟩
    obtain ⟨v, hv⟩ := Option.isSome_iff_exists.1 (Dict.get?_isSome.2 hk)
    exact Dict.get?_isSome.1 (by rw [(h k v).2 ⟨d, hd, hv⟩]; rfl)

/-- The outcome of merging the dictionaries: their union if no key occurs twice, `ValueError`
otherwise. -/
def Merged {V : Type} (r : Res (Dict Str V)) (ds : List (Dict Str V)) : Prop :=
  (DisjointKeys ds → ∃ D, r = .ok D ∧ IsUnion D ds) ∧ (¬ DisjointKeys ds → r = .error .value)

theorem Merged.single {V : Type} (d : Dict Str V) : Merged (.ok d) [d] :=
  ⟨fun _ => ⟨d, rfl, fun k v => by simp⟩, fun h => absurd (by simp [DisjointKeys]) h⟩

theorem Merged.none {V : Type} : Merged (.ok (Dict.empty : Dict Str V)) [] :=
  ⟨fun _ => ⟨_, rfl, fun k v => by simp [Dict.get?, Dict.empty, assocGet]⟩,
    fun h => absurd (by simp [DisjointKeys]) h⟩

theorem mapM'_id_error {α : Type} {rs : List (Res α)} {e : Err} (h : ∀ r ∈ rs, ∀ e', r = .error e' → e' = e)
    (hex : ∃ r ∈ rs, ∃ e', r = .error e') : mapM' id rs = .error e := by
  induction rs with
  | nil => simp at hex
  | cons r rs ih =>
    simp only [mapM', id]
    cases r with
    | error e' => rw [h _ (by simp) e' rfl]
    | ok a =>
      obtain ⟨r', hr', e', rfl⟩ := hex
      rcases List.mem_cons.1 hr' with h1 | h1
      · simp at h1
      · simp only [ih (fun r hr => h r (List.mem_cons_of_mem _ hr)) ⟨_, h1, e', rfl⟩]

/-- Merging merged dictionaries. -/
theorem Merged.flatten {V : Type} {rs : List (Res (Dict Str V))} {dss : List (List (Dict Str V))}
    (h : List.Forall₂ Merged rs dss) : Merged (mergeInit rs) dss.flatten := by
  by_cases hall : ∀ ds ∈ dss, DisjointKeys ds
  · -- all parts succeed
    have hok : ∃ Ds : List (Dict Str V), mapM' id rs = .ok Ds ∧ List.Forall₂ IsUnion Ds dss := by
      clear * - h hall
      induction h with
      | nil => exact ⟨[], rfl, .nil⟩
      | @cons r ds rs dss h _ ih =>
        obtain ⟨D, rfl, hD⟩ := h.1 (hall ds (by simp))
        obtain ⟨Ds, h1, h2⟩ := ih (fun d hd => hall d (List.mem_cons_of_mem _ hd))
        exact ⟨D :: Ds, by simp [mapM', h1], .cons hD h2⟩
    obtain ⟨Ds, hDs, hU⟩ := hok
    have hiff : DisjointKeys Ds ↔ DisjointKeys dss.flatten := by
      clear hDs h
      induction hU with
      | nil => simp [DisjointKeys]
      | @cons D ds Ds dss hD hrest ih =>
        have ih := ih (fun d hd => hall d (List.mem_cons_of_mem _ hd))
        simp only [DisjointKeys, List.flatten_cons, List.pairwise_cons, List.pairwise_append] at ih ⊢
        rw [ih]
        constructor
        · rintro ⟨h1, h2⟩
          refine ⟨hall ds (by simp), h2, ?_⟩
          intro d hd e he k hk hke
          obtain ⟨es, hes, hee⟩ := List.mem_flatten.1 he
          obtain ⟨E, hE, hEu⟩ := forall₂_mem_right hrest hes
          exact h1 E hE k ((hD.keys k).2 ⟨d, hd, hk⟩) ((hEu.keys k).2 ⟨e, hee, hke⟩)
        · rintro ⟨_, h2, h3⟩
          refine ⟨?_, h2⟩
          intro E hE k hk hkE
          obtain ⟨es, hes, hEu⟩ := forall₂_mem_left hrest hE
          obtain ⟨d, hd, hdk⟩ := (hD.keys k).1 hk
          obtain ⟨e, he, hek⟩ := (hEu.keys k).1 hkE
          exact h3 d hd e (List.mem_flatten.2 ⟨es, hes, he⟩) k hdk hek
    refine ⟨fun hd => ?_, fun hd => ?_⟩
    · obtain ⟨r, h1, h2⟩ := mergeDicts_ok (hiff.2 hd)
      refine ⟨r, by simp [mergeInit, hDs, h1], ?_⟩
      intro k v
      rw [Dict.get?_mem, h2]
      simp only [List.mem_flatMap, ← Dict.get?_mem, List.mem_flatten]
      constructor
      · rintro ⟨D, hD, hv⟩
        obtain ⟨ds, hds, hu⟩ := forall₂_mem_left hU hD
        obtain ⟨d, hd, hdv⟩ := (hu k v).1 hv
        exact ⟨d, ⟨ds, hds, hd⟩, hdv⟩
      · rintro ⟨d, ⟨ds, hds, hd⟩, hv⟩
        obtain ⟨D, hD, hu⟩ := forall₂_mem_right hU hds
        exact ⟨D, hD, (hu k v).2 ⟨d, hd, hv⟩⟩
    · simp [mergeInit, hDs, mergeDicts_error (fun x => hd (hiff.1 x))]
  · have hnd : ¬ DisjointKeys dss.flatten := by
      intro hd
      exact hall (fun ds hds => List.Pairwise.sublist (List.sublist_flatten_of_mem hds) hd)
    refine ⟨fun hd => absurd hd hnd, fun _ => ?_⟩
    have herr : mapM' id rs = .error .value := by
      apply mapM'_id_error
      · intro r hr e' he
        obtain ⟨ds, hds, hm⟩ := forall₂_mem_left h hr
        subst he
        by_cases hd : DisjointKeys ds
        · obtain ⟨D, hD, _⟩ := hm.1 hd
          simp at hD
        · have := hm.2 hd
          injection this
      · push Not at hall
        obtain ⟨ds, hds, hn⟩ := hall
        obtain ⟨r, hr, hm⟩ := forall₂_mem_right h hds
        exact ⟨r, hr, _, hm.2 hn⟩
    simp [mergeInit, herr]

end Verif
