import Verif.Spec.Providers
import Verif.Props.Features
import Verif.Props.WrapperState
import Verif.Proofs.PosTable

/-! # Proofs about assembled extractors: where a value comes from, padding, shapes -/

namespace Verif

variable {F : Type}

/-! ### where a value comes from -/

/-- The value of an object: what a leaf yields (`Q`), with the wrappers around the leaf applied. -/
def Form (Q : Obj → Feat → Prop) : List Wrapper → Obj → Feat → Prop
  | [], o, v => Q o v
  | .iter :: ws, o, v => ∃ ls, v = .list (List.flatten ls) ∧
      List.Forall₂ (fun i l => ∀ x ∈ l, Form Q ws i x) o.items ls ∧
      (Wrapper.iter ∉ ws → ∀ l ∈ ls, l.length = 1)
  | .sparse :: ws, o, v => ∃ u, Form Q ws o u ∧ u.SameShape (fun x y => y = x ∨ y = .int OOV) v
  | .padding :: ws, o, v => ∃ u, Form Q ws o u ∧ padValue u = .ok v

theorem sparseAt_ok {sp : Sparsify} {x : Extractor} {o : Obj} {D : Features}
    (h : sparseAt sp x o = .ok D) {k : Str} {v : Feat} (hv : D.get? k = some v) :
    ∃ d u, x o = .ok d ∧ d.get? k = some u ∧ sp o k u = .ok v := by
  unfold sparseAt at h
  split at h
  · simp at h
  · rename_i d hd
    split at h
    · simp at h
    · rename_i l hl
      injection h with h
      subst h
      rw [mapM'_ok_iff] at hl
      have hm := ofList_mem_of_get? _ _ _ hv
      obtain ⟨p, hp, hpq⟩ := forall₂_mem_right hl hm
      split at hpq
      · simp at hpq
      · rename_i w hw
        injection hpq with hpq
        injection hpq with h1 h2
        subst h1 h2
        exact ⟨d, p.2, hd, Dict.get?_mem.2 hp, hw⟩

theorem valX_get {f : Feat → Res Feat} {x : Extractor} {o : Obj} {D : Features}
    (h : valX f x o = .ok D) {k : Str} {v : Feat} (hv : D.get? k = some v) :
    ∃ d u, x o = .ok d ∧ d.get? k = some u ∧ f u = .ok v := by
  obtain ⟨d, hd, hf⟩ := valX_ok.1 h
  rcases forall2_get hf k with ⟨_, h2⟩ | ⟨u, w, h1, h2, h3⟩
  · unfold Dict.get? at hv
    rw [h2] at hv
    simp at hv
  · unfold Dict.get? at hv
    rw [h2] at hv
    injection hv with hv
    subst hv
    exact ⟨d, u, hd, h1, h3⟩

/-- Leaves with different wrappers or identities have different names. -/
def NamesDistinct (nm : Nat → Str) (L : List (List Wrapper × Option (Nat × Nat))) : Prop :=
  ∀ ws ty id ws' ty' id', (ws, some (ty, id)) ∈ L → (ws', some (ty', id')) ∈ L → nm id = nm id' →
    ws = ws' ∧ ty = ty' ∧ id = id'

theorem NamesDistinct.wrap {nm : Nat → Str} {w : Wrapper} {L : List (List Wrapper × Option (Nat × Nat))}
    (h : NamesDistinct nm (L.map (fun x => (w :: x.1, x.2)))) : NamesDistinct nm L := by
  intro ws ty id ws' ty' id' h1 h2 hn
  have := h (w :: ws) ty id (w :: ws') ty' id' (List.mem_map.2 ⟨_, h1, rfl⟩)
    (List.mem_map.2 ⟨_, h2, rfl⟩) hn
  exact ⟨by injection this.1, this.2⟩

theorem NamesDistinct.sub {nm : Nat → Str} {L M : List (List Wrapper × Option (Nat × Nat))}
    (h : NamesDistinct nm L) (hs : ∀ a ∈ M, a ∈ L) : NamesDistinct nm M :=
  fun ws ty id ws' ty' id' h1 h2 => h ws ty id ws' ty' id' (hs _ h1) (hs _ h2)

/-- A leaf extractor yields one feature, with this name, and the value satisfies `Q`. -/
def LeafYields (lf : Nat → Res (BuiltX F)) (nm : Nat → Str) (Q : Nat → Obj → Feat → Prop) : Prop :=
  ∀ id x o D, lf id = .ok x → x.extract o = .ok D → ∃ v, D = Dict.ofList [(nm id, v)] ∧ Q id o v

theorem compBuilt_cases {xs : List (BuiltX F)} {x : BuiltX F} (h : compBuilt xs = .ok x) :
    xs ≠ [] ∧ ∀ o, x.extract o = compX (xs.map BuiltX.extract) o := by
  match xs, h with
  | [y], h =>
    simp only [compBuilt, Except.ok.injEq] at h
    subst h
    exact ⟨by simp, fun o => (compX_one _ o).symm⟩
  | y :: z :: r, h =>
    simp only [compBuilt, Except.ok.injEq] at h
    subst h
    exact ⟨by simp, fun o => rfl⟩

theorem compX_get {xs : List Extractor} {o : Obj} {D : Features} (h : compX xs o = .ok D) {k : Str}
    {v : Feat} : D.get? k = some v ↔ ∃ x ∈ xs, ∃ d, x o = .ok d ∧ d.get? k = some v := by
  obtain ⟨ds, hds, _, hD⟩ := compX_ok.1 h
  rw [mapM'_ok_iff] at hds
  rw [Dict.get?_mem, hD]
  simp only [List.mem_flatMap, ← Dict.get?_mem]
  constructor
  · rintro ⟨d, hd, hk⟩
    obtain ⟨x, hx, hxd⟩ := forall₂_mem_right hds hd
    exact ⟨x, hx, d, hxd, hk⟩
  · rintro ⟨x, hx, d, hxd, hk⟩
    obtain ⟨d', hd', hx'⟩ := forall₂_mem_left hds hx
    rw [hxd] at hx'
    injection hx' with hx'
    subst hx'
    exact ⟨d, hd', hk⟩

mutual
/-- A leaf that is not below an iteration contributes its feature. -/
theorem present {lf : Nat → Res (BuiltX F)} {sp : Sparsify} {nm : Nat → Str}
    {Q : Nat → Obj → Feat → Prop} (hlf : LeafYields lf nm Q) : ∀ (b : Builder) (x : BuiltX F),
    b.build lf sp = .ok x → ∀ o D, x.extract o = .ok D → ∀ ws ty id,
      (ws, some (ty, id)) ∈ b.leaves → Wrapper.iter ∉ ws → ∃ v, D.get? (nm id) = some v
  | .padding b, x, hb, o, D, hD, ws, ty, id, hl, hi => by
    simp only [Builder.build] at hb
    split at hb
    · simp at hb
    · rename_i y hy
      injection hb with hb
      subst hb
      simp only [Builder.leaves, List.mem_map, Prod.mk.injEq] at hl
      obtain ⟨⟨ws', s⟩, hm, rfl, rfl⟩ := hl
      obtain ⟨d, hd, hf⟩ := valX_ok.1 (show valX padValue y.extract o = .ok D from hD)
      obtain ⟨v, hv⟩ := present hlf b y hy o d hd ws' ty id hm (fun h => hi (List.mem_cons_of_mem _ h))
      rcases forall2_get hf (nm id) with ⟨h1, _⟩ | ⟨u, w, _, h2, _⟩
      · unfold Dict.get? at hv
        rw [h1] at hv
        simp at hv
      · exact ⟨w, h2⟩
  | .sparse b, x, hb, o, D, hD, ws, ty, id, hl, hi => by
    simp only [Builder.build] at hb
    split at hb
    · simp at hb
    · rename_i y hy
      injection hb with hb
      subst hb
      simp only [Builder.leaves, List.mem_map, Prod.mk.injEq] at hl
      obtain ⟨⟨ws', s⟩, hm, rfl, rfl⟩ := hl
      simp only [sparseAt] at hD
      split at hD
      · simp at hD
      · rename_i d hd
        split at hD
        · simp at hD
        · rename_i l hl'
          injection hD with hD
          subst hD
          obtain ⟨v, hv⟩ := present hlf b y hy o d hd ws' ty id hm
            (fun h => hi (List.mem_cons_of_mem _ h))
          rw [mapM'_ok_iff] at hl'
          have hkeys : l.map Prod.fst = d.entries.map Prod.fst := by
            clear hv hd
            generalize d.entries = es at hl'
            induction hl' with
            | nil => rfl
            | cons h _ ih =>
              split at h
              · simp at h
              · injection h with h
                subst h
                simp [ih]
          obtain ⟨q, hq, hq2⟩ := forall₂_mem_left hl' (Dict.get?_mem.1 hv)
          split at hq2
          · simp at hq2
          · rename_i w hw
            injection hq2 with hq2
            subst hq2
            refine ⟨w, ?_⟩
            rw [Dict.get?_mem, Dict.ofList_entries _ (by rw [hkeys]; exact d.nodup)]
            exact hq
  | .iter b, x, hb, o, D, hD, ws, ty, id, hl, hi => by
    simp only [Builder.leaves, List.mem_map, Prod.mk.injEq] at hl
    obtain ⟨⟨ws', s⟩, hm, rfl, rfl⟩ := hl
    exact absurd List.mem_cons_self hi
  | .comp l, x, hb, o, D, hD, ws, ty, id, hl, hi => by
    simp only [Builder.build] at hb
    split at hb
    · simp at hb
    · rename_i xs hxs
      obtain ⟨_, he⟩ := compBuilt_cases hb
      rw [he] at hD
      obtain ⟨y, hy, hyv⟩ := presentL hlf l xs hxs o (by
        intro y hy
        obtain ⟨ds, hds, _⟩ := compX_ok.1 hD
        rw [mapM'_ok_iff] at hds
        obtain ⟨d, _, hd⟩ := forall₂_mem_left hds (List.mem_map.2 ⟨y, hy, rfl⟩)
        exact ⟨d, hd⟩) ws ty id hl hi
      obtain ⟨d, hd, v, hv⟩ := hyv
      exact ⟨v, (compX_get hD).2 ⟨y.extract, List.mem_map.2 ⟨y, hy, rfl⟩, d, hd, hv⟩⟩
  | .empty, x, hb, o, D, hD, ws, ty, id, hl, hi => by
    simp [Builder.leaves] at hl
  | .leaf ty' id', x, hb, o, D, hD, ws, ty, id, hl, hi => by
    simp only [Builder.leaves, List.mem_singleton, Prod.mk.injEq, Option.some.injEq] at hl
    obtain ⟨rfl, rfl, rfl⟩ := hl
    obtain ⟨v, rfl, _⟩ := hlf id x o D hb hD
    exact ⟨v, by simp [Dict.get?_ofList, assocGet]⟩
theorem presentL {lf : Nat → Res (BuiltX F)} {sp : Sparsify} {nm : Nat → Str}
    {Q : Nat → Obj → Feat → Prop} (hlf : LeafYields lf nm Q) : ∀ (l : List Builder)
    (xs : List (BuiltX F)), Builder.buildL lf sp l = .ok xs → ∀ o,
    (∀ y ∈ xs, ∃ d, y.extract o = .ok d) → ∀ ws ty id,
      (ws, some (ty, id)) ∈ Builder.leavesL l → Wrapper.iter ∉ ws →
      ∃ y ∈ xs, ∃ d, y.extract o = .ok d ∧ ∃ v, d.get? (nm id) = some v
  | [], xs, hb, o, hall, ws, ty, id, hl, hi => by simp [Builder.leavesL] at hl
  | b :: bs, xs, hb, o, hall, ws, ty, id, hl, hi => by
    simp only [Builder.buildL] at hb
    split at hb
    · simp at hb
    · rename_i y hy
      split at hb
      · simp at hb
      · rename_i ys hys
        injection hb with hb
        subst hb
        simp only [Builder.leavesL, List.mem_append] at hl
        rcases hl with hl | hl
        · obtain ⟨d, hd⟩ := hall y (by simp)
          exact ⟨y, by simp, d, hd, present hlf b y hy o d hd ws ty id hl hi⟩
        · obtain ⟨z, hz, r⟩ := presentL hlf bs ys hys o (fun z hz => hall z (by simp [hz])) ws ty id hl hi
          exact ⟨z, by simp [hz], r⟩
end

mutual
/-- Every value of a feature comes from a leaf with the name of the feature. -/
theorem origin {lf : Nat → Res (BuiltX F)} {sp : Sparsify} {nm : Nat → Str}
    {Q : Nat → Obj → Feat → Prop} (hlf : LeafYields lf nm Q) (hsp : OnlySparsifies sp) :
    ∀ (b : Builder) (x : BuiltX F), b.build lf sp = .ok x → NamesDistinct nm b.leaves →
    ∀ o D k v, x.extract o = .ok D → D.get? k = some v →
      ∃ ws ty id, (ws, some (ty, id)) ∈ b.leaves ∧ nm id = k ∧ Form (Q id) ws o v
  | .padding b, x, hb, hn, o, D, k, v, hD, hv => by
    simp only [Builder.build] at hb
    split at hb
    · simp at hb
    · rename_i y hy
      injection hb with hb
      subst hb
      obtain ⟨d, u, hd, hu, hf⟩ := valX_get (show valX padValue y.extract o = .ok D from hD) hv
      obtain ⟨ws, ty, id, hm, hk, hform⟩ := origin hlf hsp b y hy hn.wrap o d k u hd hu
      exact ⟨.padding :: ws, ty, id, List.mem_map.2 ⟨_, hm, rfl⟩, hk, u, hform, hf⟩
  | .sparse b, x, hb, hn, o, D, k, v, hD, hv => by
    simp only [Builder.build] at hb
    split at hb
    · simp at hb
    · rename_i y hy
      injection hb with hb
      subst hb
      obtain ⟨d, u, hd, hu, hf⟩ := sparseAt_ok hD hv
      obtain ⟨ws, ty, id, hm, hk, hform⟩ := origin hlf hsp b y hy hn.wrap o d k u hd hu
      exact ⟨.sparse :: ws, ty, id, List.mem_map.2 ⟨_, hm, rfl⟩, hk, u, hform, hsp _ _ _ _ hf⟩
  | .iter b, x, hb, hn, o, D, k, v, hD, hv => by
    simp only [Builder.build] at hb
    split at hb
    · simp at hb
    · rename_i y hy
      injection hb with hb
      subst hb
      obtain ⟨ds, hds, rfl⟩ := iterX_ok.1 hD
      rw [iterX_get] at hv
      split at hv
      · rename_i hex
        injection hv with hv
        subst hv
        rw [mapM'_ok_iff] at hds
        have hone : ∀ i d u, y.extract i = .ok d → d.get? k = some u →
            ∃ ws ty id, (ws, some (ty, id)) ∈ b.leaves ∧ nm id = k ∧ Form (Q id) ws i u :=
          fun i d u h1 h2 => origin hlf hsp b y hy hn.wrap i d k u h1 h2
        obtain ⟨d0, hd0, hk0⟩ := hex
        obtain ⟨i0, _, hi0⟩ := forall₂_mem_right hds hd0
        obtain ⟨u0, hu0⟩ := Option.isSome_iff_exists.1 (Dict.get?_isSome.2 hk0)
        obtain ⟨ws, ty, id, hm, hk, _⟩ := hone i0 d0 u0 hi0 hu0
        refine ⟨.iter :: ws, ty, id, List.mem_map.2 ⟨_, hm, rfl⟩, hk,
          ds.map (fun d => (d.get? k).toList), ?_, ?_, ?_⟩
        · congr 1
          clear hds hd0 hD
          induction ds with
          | nil => rfl
          | cons d ds ih =>
            simp only [List.filterMap_cons, List.map_cons, List.flatten_cons]
            cases d.get? k <;> simp [ih]
        · rw [List.forall₂_map_right_iff]
          refine hds.imp ?_
          intro i d hid u hu
          simp only [Option.mem_toList] at hu
          obtain ⟨ws', ty', id', hm', hk', hform⟩ := hone i d u hid hu
          obtain ⟨rfl, rfl, rfl⟩ := hn.wrap ws ty id ws' ty' id' hm hm' (hk.trans hk'.symm)
          exact hform
        · intro hni l hl
          obtain ⟨d, hd, rfl⟩ := List.mem_map.1 hl
          obtain ⟨i, _, hi⟩ := forall₂_mem_right hds hd
          obtain ⟨u, hu⟩ := present hlf b y hy i d hi ws ty id hm hni
          rw [hk] at hu
          simp [hu]
      · simp at hv
  | .comp l, x, hb, hn, o, D, k, v, hD, hv => by
    simp only [Builder.build] at hb
    split at hb
    · simp at hb
    · rename_i xs hxs
      obtain ⟨_, he⟩ := compBuilt_cases hb
      rw [he] at hD
      obtain ⟨e, he, d, hd, hk⟩ := (compX_get hD).1 hv
      obtain ⟨y, hy, rfl⟩ := List.mem_map.1 he
      exact originL hlf hsp l xs hxs hn o y hy d k v hd hk
  | .empty, x, hb, hn, o, D, k, v, hD, hv => by
    simp only [Builder.build, Except.ok.injEq] at hb
    subst hb
    simp only [Except.ok.injEq] at hD
    subst hD
    simp [Dict.get?, Dict.empty, assocGet] at hv
  | .leaf ty id, x, hb, hn, o, D, k, v, hD, hv => by
    obtain ⟨w, rfl, hq⟩ := hlf id x o D hb hD
    simp only [Dict.get?_mem] at hv
    rw [Dict.ofList_entries _ (by simp)] at hv
    simp only [List.mem_singleton, Prod.mk.injEq] at hv
    obtain ⟨rfl, rfl⟩ := hv
    exact ⟨[], ty, id, by simp [Builder.leaves], rfl, hq⟩
theorem originL {lf : Nat → Res (BuiltX F)} {sp : Sparsify} {nm : Nat → Str}
    {Q : Nat → Obj → Feat → Prop} (hlf : LeafYields lf nm Q) (hsp : OnlySparsifies sp) :
    ∀ (l : List Builder) (xs : List (BuiltX F)), Builder.buildL lf sp l = .ok xs →
    NamesDistinct nm (Builder.leavesL l) → ∀ o, ∀ y ∈ xs, ∀ D k v, y.extract o = .ok D →
      D.get? k = some v →
      ∃ ws ty id, (ws, some (ty, id)) ∈ Builder.leavesL l ∧ nm id = k ∧ Form (Q id) ws o v
  | [], xs, hb, hn, o, y, hy, D, k, v, hD, hv => by
    simp only [Builder.buildL, Except.ok.injEq] at hb
    subst hb
    simp at hy
  | b :: bs, xs, hb, hn, o, y, hy, D, k, v, hD, hv => by
    simp only [Builder.buildL] at hb
    split at hb
    · simp at hb
    · rename_i z hz
      split at hb
      · simp at hb
      · rename_i zs hzs
        injection hb with hb
        subst hb
        simp only [Builder.leavesL] at hn ⊢
        rcases List.mem_cons.1 hy with rfl | hy
        · obtain ⟨ws, ty, id, hm, r⟩ := origin hlf hsp b y hz
            (hn.sub (fun a ha => List.mem_append_left _ ha)) o D k v hD hv
          exact ⟨ws, ty, id, List.mem_append_left _ hm, r⟩
        · obtain ⟨ws, ty, id, hm, r⟩ := originL hlf hsp bs zs hzs
            (hn.sub (fun a ha => List.mem_append_right _ ha)) o y hy D k v hD hv
          exact ⟨ws, ty, id, List.mem_append_right _ hm, r⟩
end

end Verif
