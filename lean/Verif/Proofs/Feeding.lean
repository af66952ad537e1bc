import Verif.Proofs.Tagger
import Verif.Model.Feeding
import Verif.Spec.Feeding
import Verif.Proofs.Training

/-! # Proofs about the values of features: exactly what the leaves yield, in the order of the objects -/

namespace Verif

variable {F : Type}

/-- The value of an object: what a leaf yields (`Q`), with the wrappers around the leaf applied; one value per element. -/
def Exact (sp : Sparsify) (k : Str) (Q : Obj → Feat → Prop) : List Wrapper → Obj → Feat → Prop
  | [], o, v => Q o v
  | .iter :: ws, o, v => ∃ vs, v = .list vs ∧ List.Forall₂ (Exact sp k Q ws) o.items vs
  | .sparse :: ws, o, v => ∃ u, Exact sp k Q ws o u ∧ sp o k u = .ok v
  | .padding :: ws, o, v => ∃ u, Exact sp k Q ws o u ∧ padValue u = .ok v

/-- Everything that is iterated over has elements. -/
def Peopled : List Wrapper → Obj → Prop
  | [], _ => True
  | .iter :: ws, o => o.items ≠ [] ∧ ∀ i ∈ o.items, Peopled ws i
  | .sparse :: ws, o => Peopled ws o
  | .padding :: ws, o => Peopled ws o

theorem Exact.det {sp : Sparsify} {k : Str} {Q : Obj → Feat → Prop} (hQ : ∀ o v v', Q o v → Q o v' → v = v')
    (ws : List Wrapper) : ∀ {o : Obj} {v v' : Feat}, Exact sp k Q ws o v → Exact sp k Q ws o v' → v = v' := by
  induction ws with
  | nil => intro o v v' h h'; exact hQ o v v' h h'
  | cons w ws ih =>
    intro o v v' h h'
    cases w with
    | padding =>
      obtain ⟨u, h1, h2⟩ := h
      obtain ⟨u', h1', h2'⟩ := h'
      rw [ih h1 h1', h2'] at h2
      injection h2 with h2
      exact h2.symm
    | sparse =>
      obtain ⟨u, h1, h2⟩ := h
      obtain ⟨u', h1', h2'⟩ := h'
      rw [ih h1 h1', h2'] at h2
      injection h2 with h2
      exact h2.symm
    | iter =>
      obtain ⟨vs, rfl, h1⟩ := h
      obtain ⟨vs', rfl, h1'⟩ := h'
      congr 1
      generalize o.items = l at h1 h1'
      induction h1 generalizing vs' with
      | nil => cases h1'; rfl
      | cons h _ ih2 =>
        cases h1' with
        | cons h' h2 => rw [ih h h', ih2 _ h2]

mutual
/-- Every leaf contributes its feature. -/
theorem exact_leaf {lf : Nat → Res (BuiltX F)} {sp : Sparsify} {nm : Nat → Str}
    {Q : Nat → Obj → Feat → Prop} (hlf : LeafYields lf nm Q) : ∀ (b : Builder) (x : BuiltX F),
    b.build lf sp = .ok x → ∀ o D, x.extract o = .ok D → ∀ ws ty id,
      (ws, some (ty, id)) ∈ b.leaves → Peopled ws o →
      ∃ v, D.get? (nm id) = some v ∧ Exact sp (nm id) (Q id) ws o v
  | .padding b, x, hb, o, D, hD, ws, ty, id, hl, hi => by
    simp only [Builder.build] at hb
    split at hb
    · simp at hb
    · rename_i y hy
      injection hb with hb
      subst hb
      simp only [Builder.leaves, List.mem_map, Prod.mk.injEq] at hl
      obtain ⟨⟨ws', s⟩, hm, rfl, rfl⟩ := hl
      obtain ⟨d, hd, hf⟩ := valX_ok.1 (show valX padValue y.extract o = .ok D from hD)
      obtain ⟨v, hv, hE⟩ := exact_leaf hlf b y hy o d hd ws' ty id hm hi
      rcases forall2_get hf (nm id) with ⟨h1, _⟩ | ⟨u, w, h1, h2, h3⟩
      · unfold Dict.get? at hv
        rw [h1] at hv
        simp at hv
      · unfold Dict.get? at hv
        rw [h1] at hv
        injection hv with hv
        subst hv
        exact ⟨w, h2, u, hE, h3⟩
  | .sparse b, x, hb, o, D, hD, ws, ty, id, hl, hi => by
    simp only [Builder.build] at hb
    split at hb
    · simp at hb
    · rename_i y hy
      injection hb with hb
      subst hb
      simp only [Builder.leaves, List.mem_map, Prod.mk.injEq] at hl
      obtain ⟨⟨ws', s⟩, hm, rfl, rfl⟩ := hl
      simp only [sparseAt] at hD
      split at hD
      · simp at hD
      · rename_i d hd
        split at hD
        · simp at hD
        · rename_i l hl'
          injection hD with hD
          subst hD
          obtain ⟨v, hv, hE⟩ := exact_leaf hlf b y hy o d hd ws' ty id hm hi
          rw [mapM'_ok_iff] at hl'
          have hkeys : l.map Prod.fst = d.entries.map Prod.fst := by
            clear hv hd
            generalize d.entries = es at hl'
            induction hl' with
            | nil => rfl
            | cons h _ ih =>
              split at h
              · simp at h
              · injection h with h
                subst h
                simp [ih]
          obtain ⟨q, hq, hq2⟩ := forall₂_mem_left hl' (Dict.get?_mem.1 hv)
          split at hq2
          · simp at hq2
          · rename_i w hw
            injection hq2 with hq2
            subst hq2
            refine ⟨w, ?_, v, hE, hw⟩
            rw [Dict.get?_mem, Dict.ofList_entries _ (by rw [hkeys]; exact d.nodup)]
            exact hq
  | .iter b, x, hb, o, D, hD, ws, ty, id, hl, hi => by
    simp only [Builder.leaves, List.mem_map, Prod.mk.injEq] at hl
    obtain ⟨⟨ws', s⟩, hm, rfl, rfl⟩ := hl
    simp only [Builder.build] at hb
    split at hb
    · simp at hb
    · rename_i y hy
      injection hb with hb
      subst hb
      obtain ⟨ds, hds, rfl⟩ := iterX_ok.1 hD
      rw [mapM'_ok_iff] at hds
      obtain ⟨hne, hfill⟩ := hi
      have hall : List.Forall₂ (fun i d => i ∈ o.items ∧ y.extract i = .ok d) o.items ds := by
        rw [List.forall₂_iff_get] at hds ⊢
        exact ⟨hds.1, fun j h1 h2 => ⟨List.get_mem _ _, hds.2 j h1 h2⟩⟩
      have hone : List.Forall₂ (fun i d => ∃ v, Dict.get? d (nm id) = some v ∧ Exact sp (nm id) (Q id) ws' i v)
          o.items ds := hall.imp (fun i d hid => exact_leaf hlf b y hy i d hid.2 ws' ty id hm (hfill i hid.1))
      rw [iterX_get, if_pos]
      · refine ⟨_, rfl, _, rfl, ?_⟩
        clear hds hall hfill hne hD
        generalize o.items = l at hone
        induction hone with
        | nil => exact .nil
        | cons h _ ih =>
          obtain ⟨v, hv, hE⟩ := h
          rw [List.filterMap_cons, hv]
          exact .cons hE ih
      · clear hds hall hfill hD
        generalize o.items = l at hone hne
        cases hone with
        | nil => exact absurd rfl hne
        | @cons i d _ _ h _ =>
          obtain ⟨v, hv, _⟩ := h
          exact ⟨d, by simp, Dict.get?_isSome.1 (by rw [hv]; rfl)⟩
  | .comp l, x, hb, o, D, hD, ws, ty, id, hl, hi => by
    simp only [Builder.build] at hb
    split at hb
    · simp at hb
    · rename_i xs hxs
      obtain ⟨_, he⟩ := compBuilt_cases hb
      rw [he] at hD
      obtain ⟨y, hy, hyv⟩ := exact_leafL hlf l xs hxs o (by
        intro y hy
        obtain ⟨ds, hds, _⟩ := compX_ok.1 hD
        rw [mapM'_ok_iff] at hds
        obtain ⟨d, _, hd⟩ := forall₂_mem_left hds (List.mem_map.2 ⟨y, hy, rfl⟩)
        exact ⟨d, hd⟩) ws ty id hl hi
      obtain ⟨d, hd, v, hv, hE⟩ := hyv
      exact ⟨v, (compX_get hD).2 ⟨y.extract, List.mem_map.2 ⟨y, hy, rfl⟩, d, hd, hv⟩, hE⟩
  | .empty, x, hb, o, D, hD, ws, ty, id, hl, hi => by
    simp [Builder.leaves] at hl
  | .leaf ty' id', x, hb, o, D, hD, ws, ty, id, hl, hi => by
    simp only [Builder.leaves, List.mem_singleton, Prod.mk.injEq, Option.some.injEq] at hl
    obtain ⟨rfl, rfl, rfl⟩ := hl
    obtain ⟨v, rfl, hq⟩ := hlf id x o D hb hD
    exact ⟨v, by simp [Dict.get?_ofList, assocGet], hq⟩
theorem exact_leafL {lf : Nat → Res (BuiltX F)} {sp : Sparsify} {nm : Nat → Str}
    {Q : Nat → Obj → Feat → Prop} (hlf : LeafYields lf nm Q) : ∀ (l : List Builder)
    (xs : List (BuiltX F)), Builder.buildL lf sp l = .ok xs → ∀ o,
    (∀ y ∈ xs, ∃ d, y.extract o = .ok d) → ∀ ws ty id,
      (ws, some (ty, id)) ∈ Builder.leavesL l → Peopled ws o →
      ∃ y ∈ xs, ∃ d, y.extract o = .ok d ∧ ∃ v, d.get? (nm id) = some v ∧ Exact sp (nm id) (Q id) ws o v
  | [], xs, hb, o, hall, ws, ty, id, hl, hi => by simp [Builder.leavesL] at hl
  | b :: bs, xs, hb, o, hall, ws, ty, id, hl, hi => by
    simp only [Builder.buildL] at hb
    split at hb
    · simp at hb
    · rename_i y hy
      split at hb
      · simp at hb
      · rename_i ys hys
        injection hb with hb
        subst hb
        simp only [Builder.leavesL, List.mem_append] at hl
        rcases hl with hl | hl
        · obtain ⟨d, hd⟩ := hall y (by simp)
          exact ⟨y, by simp, d, hd, exact_leaf hlf b y hy o d hd ws ty id hl hi⟩
        · obtain ⟨z, hz, r⟩ := exact_leafL hlf bs ys hys o (fun z hz => hall z (by simp [hz])) ws ty id hl hi
          exact ⟨z, by simp [hz], r⟩
end

/-! ### Rows of padded values -/

theorem Feat.at_append (v : Feat) (p q : List Nat) : v.at (p ++ q) = (v.at p).bind (·.at q) := by
  induction p generalizing v with
  | nil => simp [Feat.at_nil]
  | cons i p ih =>
    cases v with
    | list l =>
      simp only [List.cons_append, Feat.at]
      split
      · rfl
      · exact ih _
    | _ => rfl

theorem at_shape {shape : List Nat} {v : Feat} (h : v.HasShape shape) (p : List Nat) (hp : p.length = shape.length)
    (hlt : ∀ k m n : Nat, p[k]? = some m → shape[k]? = some n → m < n) : ∃ x, v.at p = some x ∧ x.isList = false := by
  induction p generalizing v shape with
  | nil =>
    cases shape with
    | nil => exact ⟨v, by rw [Feat.at_nil], h⟩
    | cons n s => simp at hp
  | cons i p ih =>
    cases shape with
    | nil => simp at hp
    | cons n s =>
      obtain ⟨l, rfl, hl, hs⟩ := h
      have hi : i < l.length := by rw [hl]; exact hlt 0 i n (by simp) (by simp)
      obtain ⟨x, hx⟩ := ih (hs l[i] (List.getElem_mem hi)) (by simpa using hp)
        (fun k m n h1 h2 => hlt (k + 1) m n (by simpa using h1) (by simpa using h2))
      refine ⟨x, ?_, hx.2⟩
      simp only [Feat.at, List.getElem?_eq_getElem hi]
      exact hx.1

theorem at_lt {shape : List Nat} {v x : Feat} (h : v.HasShape shape) {p : List Nat} (hx : v.at p = some x) :
    ∀ k m n : Nat, p[k]? = some m → shape[k]? = some n → m < n := by
  induction p generalizing v shape with
  | nil => intro k m n h1; simp at h1
  | cons i p ih =>
    cases shape with
    | nil => intro k m n _ h2; simp at h2
    | cons n0 s =>
      obtain ⟨l, rfl, hl, hs⟩ := h
      simp only [Feat.at] at hx
      split at hx
      · cases hx
      · next y hy =>
        intro k m n h1 h2
        cases k with
        | zero =>
          simp only [List.getElem?_cons_zero, Option.some.injEq] at h1 h2
          subst h1 h2
          obtain ⟨hi, _⟩ := List.getElem?_eq_some_iff.1 hy
          omega
        | succ k =>
          exact ih (hs y (List.mem_of_getElem? hy)) hx k m n (by simpa using h1) (by simpa using h2)

/-- A row of padded values: the padded row, with more padding. -/
theorem pad_row {us : List Feat} {v v' u : Feat} {i : Nat} (h : padValue (.list us) = .ok v) (hu : us[i]? = some u)
    (h' : padValue (.list [u]) = .ok v') :
    (∀ p x, v'.at (0 :: p) = some x → x.isList = false → v.at (i :: p) = some x) ∧
    (∀ p y, v.at (i :: p) = some y → y.isList = false → v'.at (0 :: p) = none → y = .int PADDING) := by
  obtain ⟨_, sh, hs, hk, ha, hmin⟩ := padValue_good h
  obtain ⟨_, sh', hs', hk', ha', hmin'⟩ := padValue_good h'
  have hat : ∀ p, (Feat.list us).at (i :: p) = u.at p := fun p => by simp [Feat.at, hu]
  have hat' : ∀ p, (Feat.list [u]).at (0 :: p) = u.at p := fun p => by simp [Feat.at]
  -- what is below the row comes from the row
  have hbelow : ∀ k m, sh'[k + 1]? = some m → ∃ n, sh[k + 1]? = some n ∧ m ≤ n := by
    intro k m hm
    obtain ⟨l, ⟨q, hq, hql⟩, hlen⟩ := hmin' (k + 1) m hm
    cases q with
    | nil => simp at hq
    | cons a q =>
      have ha0 : a = 0 := by
        cases a with
        | zero => rfl
        | succ a => simp [Feat.at] at hql
      subst ha0
      rw [hat'] at hql
      obtain ⟨y, hy, _, hyl⟩ := hk (i :: q) (.list l) (by rw [hat]; exact hql)
      cases y with
      | list l2 =>
        obtain ⟨hsh, _⟩ := hasShape_at hs hy
        simp only [List.length_cons] at hq hsh
        have hqk : q.length = k := by omega
        rw [hqk] at hsh
        cases hd : sh.drop (k + 1) with
        | nil => rw [hd] at hsh; cases hsh
        | cons n s =>
          have hn : sh[k + 1]? = some n := by
            have := congrArg (fun l => l[0]?) hd
            simpa using this
          refine ⟨n, hn, ?_⟩
          rw [hd] at hsh
          obtain ⟨l3, e, hl3, _⟩ := hsh
          injection e with e
          subst e
          rw [← hl3, ← hlen]
          by_contra hc
          push Not at hc
          obtain ⟨z, hz, _⟩ := hk (i :: q ++ [l2.length]) (l[l2.length]) (by
            rw [List.cons_append, hat, Feat.at_append, hql]
            simp [Feat.at, List.getElem?_eq_getElem hc])
          rw [List.cons_append, ← List.cons_append, Feat.at_append, hy] at hz
          simp [Feat.at] at hz
      | int n => simp [Feat.isList] at hyl
      | bool n => simp [Feat.isList] at hyl
      | other n => simp [Feat.isList] at hyl
  constructor
  · intro p x hx hl
    cases hup : u.at p with
    | some y =>
      obtain ⟨z, hz, h1, h2⟩ := hk' (0 :: p) y (by rw [hat']; exact hup)
      rw [hx] at hz
      injection hz with hz
      subst hz
      have hyl : y.isList = false := by
        cases hyl : y.isList with
        | false => rfl
        | true => rw [h2 hyl] at hl; cases hl
      have hxy := h1 hyl
      subst hxy
      obtain ⟨z, hz, h1, _⟩ := hk (i :: p) x (by rw [hat]; exact hup)
      rw [hz, h1 hyl]
    | none =>
      have hxp := ha' (0 :: p) x hx hl (by rw [hat']; exact hup)
      subst hxp
      have hlen' : (0 :: p).length = sh'.length := by
        obtain ⟨h1, h2⟩ := hasShape_at hs' hx
        cases hd : sh'.drop (0 :: p).length with
        | nil => rw [List.drop_eq_nil_iff] at hd; omega
        | cons n s => rw [hd] at h1; obtain ⟨l, e, _⟩ := h1; cases e
      -- a leaf of the row
      have hpos : ∃ q y, u.at q = some y ∧ y.isList = false ∧ q.length = p.length := by
        cases hp0 : p with
        | nil => subst hp0; rw [Feat.at_nil] at hup; cases hup
        | cons a p1 =>
          rw [← hp0]
          have hplen : p.length = p1.length + 1 := by rw [hp0]; simp
          have hlast : p1.length + 1 < sh'.length := by
            rw [← hlen', List.length_cons]; omega
          obtain ⟨l, ⟨q, hq, hql⟩, hll⟩ := hmin' (p1.length + 1) _ (List.getElem?_eq_getElem hlast)
          have hpl : ∃ m, (0 :: p)[p1.length + 1]? = some m := by
            have : p1.length + 1 < (0 :: p).length := by simp; omega
            exact ⟨_, List.getElem?_eq_getElem this⟩
          obtain ⟨m, hm⟩ := hpl
          have hlt := at_lt hs' hx (p1.length + 1) m _ hm (List.getElem?_eq_getElem hlast)
          rw [← hll] at hlt
          have hl0 : 0 < l.length := by omega
          cases q with
          | nil => simp at hq
          | cons a q =>
            have ha0 : a = 0 := by
              cases a with
              | zero => rfl
              | succ a => simp [Feat.at] at hql
            subst ha0
            have hleaf : (Feat.list [u]).at (0 :: (q ++ [0])) = some l[0] := by
              rw [← List.cons_append, Feat.at_append, hql]
              simp [Feat.at, List.getElem?_eq_getElem hl0]
            have hqlen : (q ++ [0]).length = p.length := by simp at hq ⊢; omega
            refine ⟨q ++ [0], l[0], by rw [← hat']; exact hleaf, ?_, hqlen⟩
            obtain ⟨z, hz, _, h2⟩ := hk' _ _ hleaf
            cases hb : l[0].isList with
            | false => rfl
            | true =>
              have h1 := (hasShape_at hs' hz).1
              have : (0 :: (q ++ [0])).length = sh'.length := by
                rw [List.length_cons, hqlen, ← hlen', List.length_cons]
              rw [this, List.drop_length] at h1
              have h3 : z.isList = false := h1
              rw [h2 hb] at h3
              cases h3
      obtain ⟨q, y, hq, hyl, hql⟩ := hpos
      have hlen : (i :: p).length = sh.length := by
        obtain ⟨z, hz, h1, _⟩ := hk (i :: q) y (by rw [hat]; exact hq)
        obtain ⟨h2, h3⟩ := hasShape_at hs hz
        rw [h1 hyl] at h2
        cases hd : sh.drop (i :: q).length with
        | nil => rw [List.drop_eq_nil_iff] at hd; simp only [List.length_cons] at *; omega
        | cons n s => rw [hd] at h2; obtain ⟨l, e, _⟩ := h2; subst e; cases hyl
      obtain ⟨x, hx2, hxl⟩ := at_shape hs (i :: p) hlen (by
        intro k m n h1 h2
        cases k with
        | zero =>
          simp only [List.getElem?_cons_zero, Option.some.injEq] at h1
          subst h1
          obtain ⟨z, hz, _⟩ := hk [i] u (by simp [Feat.at, hu])
          exact at_lt hs hz 0 i n (by simp) h2
        | succ k =>
          have hk1 : k + 1 < sh'.length := by
            have := (List.getElem?_eq_some_iff.1 h1).1
            rw [← hlen']
            simpa using this
          have h3 := at_lt hs' hx (k + 1) m _ (by simpa using h1) (List.getElem?_eq_getElem hk1)
          obtain ⟨n', hn', hle⟩ := hbelow k _ (List.getElem?_eq_getElem hk1)
          rw [h2] at hn'
          injection hn' with hn'
          omega)
      rw [hx2, ha (i :: p) x hx2 hxl (by rw [hat]; exact hup)]
  · intro p y hy hl hnone
    refine ha (i :: p) y hy hl ?_
    rw [hat]
    cases hup : u.at p with
    | none => rfl
    | some z =>
      obtain ⟨w, hw, _⟩ := hk' (0 :: p) z (by rw [hat']; exact hup)
      rw [hnone] at hw
      cases hw

/-! ### One sentence instead of several -/

theorem padValue_uniform {u : Feat} (h : ∃ v, padValue u = .ok v) : u.isList = true ∧ u.Uniform := by
  obtain ⟨v, h⟩ := h
  have hl : u.isList = true := by
    cases hl : u.isList with
    | true => rfl
    | false => rw [(C38_padding u).1 hl] at h; cases h
  refine ⟨hl, ?_⟩
  by_contra hu
  rw [(C38_padding u).2.1 hl hu] at h
  cases h

theorem padValue_total {u : Feat} (hl : u.isList = true) (hu : u.Uniform) : ∃ v, padValue u = .ok v := by
  obtain ⟨v, _, h, _⟩ := (C38_padding u).2.2 hl hu
  exact ⟨v, h⟩

/-- A value that can be padded if the other one can. -/
def PadsToo (v v' : Feat) : Prop := (∃ w, padValue v = .ok w) → ∃ w', padValue v' = .ok w'

theorem padsToo_row {us : List Feat} {u : Feat} (h : u ∈ us) : PadsToo (.list us) (.list [u]) := by
  intro hp
  obtain ⟨_, hu⟩ := padValue_uniform hp
  obtain ⟨i, hi, e⟩ := List.getElem_of_mem h
  refine padValue_total rfl ?_
  intro k x y hx hy
  obtain ⟨p, hp1, hp2⟩ := hx
  obtain ⟨q, hq1, hq2⟩ := hy
  cases p with
  | nil =>
    cases q with
    | nil =>
      rw [Feat.at_nil] at hp2 hq2
      rw [← Option.some.inj hp2, ← Option.some.inj hq2]
    | cons a q => simp at hp1 hq1; omega
  | cons a p =>
    cases q with
    | nil => simp at hp1 hq1; omega
    | cons b q =>
      have ha : ∀ (a : Nat) (p : List Nat) (z : Feat), (Feat.list [u]).at (a :: p) = some z →
          (Feat.list us).at (i :: p) = some z := by
        intro a p z hz
        cases a with
        | zero =>
          simp only [Feat.at, List.getElem?_cons_zero] at hz
          simp only [Feat.at, List.getElem?_eq_getElem hi, e]
          exact hz
        | succ a => simp [Feat.at] at hz
      exact hu k x y ⟨i :: p, by simpa using hp1, ha _ _ _ hp2⟩ ⟨i :: q, by simpa using hq1, ha _ _ _ hq2⟩

theorem padsToo_padded {v v' w w' : Feat} (h : padValue v' = .ok w') : PadsToo w w' := by
  intro _
  obtain ⟨hl, sh, hs, hk, _⟩ := padValue_good h
  have hwl : w'.isList = true := by
    obtain ⟨x, hx, _, h2⟩ := hk [] v' (Feat.at_nil v')
    rw [Feat.at_nil] at hx
    rw [Option.some.inj hx]
    exact h2 hl
  refine padValue_total hwl ?_
  intro k x y hx hy
  obtain ⟨p, hp1, hp2⟩ := hx
  obtain ⟨q, hq1, hq2⟩ := hy
  have h1 := (hasShape_at hs hp2).1
  have h2 := (hasShape_at hs hq2).1
  rw [hp1] at h1
  rw [hq1] at h2
  cases hd : sh.drop k with
  | nil => rw [hd] at h1 h2; exact h1.trans h2.symm
  | cons n s =>
    rw [hd] at h1 h2
    obtain ⟨_, rfl, _⟩ := h1
    obtain ⟨_, rfl, _⟩ := h2
    rfl

/-- Everything in `D'` is in `D`, and can be padded if that can. -/
def Within (D D' : Features) : Prop := ∀ k v', D'.get? k = some v' → ∃ v, D.get? k = some v ∧ PadsToo v v'

theorem Within.keys {D D' : Features} (h : Within D D') {k : Str} (hk : k ∈ D'.keys) : k ∈ D.keys := by
  obtain ⟨v', hv'⟩ := Option.isSome_iff_exists.1 (Dict.get?_isSome.2 hk)
  obtain ⟨v, hv, _⟩ := h k v' hv'
  exact Dict.get?_isSome.1 (by rw [hv]; rfl)

theorem disjoint_within {ds ds' : List Features} (h : List.Forall₂ Within ds ds') (hd : DisjointKeys ds) :
    DisjointKeys ds' := by
  induction h with
  | nil => exact .nil
  | cons h1 h2 ih =>
    obtain ⟨h3, h4⟩ := List.pairwise_cons.1 hd
    refine List.pairwise_cons.2 ⟨?_, ih h4⟩
    intro e' he' k hk hk'
    obtain ⟨e, he, hee⟩ := forall₂_mem_right h2 he'
    exact h3 e he k (h1.keys hk) (hee.keys hk')

/-- Without sparsification, the features are those that are there already. -/
theorem sparseAt_keepAll (x : Extractor) (o : Obj) : sparseAt keepAll x o = x o := by
  unfold sparseAt keepAll
  cases x o with
  | error e => rfl
  | ok d =>
    simp only
    have : ∀ l : List (Str × Feat), mapM' (fun p : Str × Feat => (.ok (p.1, p.2) : Res (Str × Feat))) l = .ok l := by
      intro l
      induction l with
      | nil => rfl
      | cons p l ih => simp only [mapM', ih]
    rw [this]
    simp only [Except.ok.injEq]
    exact Dict.ext (Dict.ofList_entries _ d.nodup)

mutual
/-- What can be extracted from several objects can be extracted from one of them. -/
theorem alone_ok {lf : Nat → Res (BuiltX F)} : ∀ (b : Builder) (x : BuiltX F), b.build lf keepAll = .ok x →
    (∀ ws ty id, (ws, some (ty, id)) ∈ b.leaves → Wrapper.iter ∈ ws) → ∀ (n : Nat) (os : List Obj) (D : Features),
    x.extract (.mk n os) = .ok D → ∀ o ∈ os, ∃ D', x.extract (.mk n [o]) = .ok D' ∧ Within D D'
  | .padding b, x, hb, hi, n, os, D, hD, o, ho => by
    simp only [Builder.build] at hb
    split at hb
    · simp at hb
    · rename_i y hy
      injection hb with hb
      subst hb
      obtain ⟨d, hd, hf⟩ := valX_ok.1 (show valX padValue y.extract (.mk n os) = .ok D from hD)
      obtain ⟨d', hd', hw⟩ := alone_ok b y hy (fun ws ty id hm => by
        have := hi (.padding :: ws) ty id (List.mem_map.2 ⟨_, hm, rfl⟩)
        simpa using this) n os d hd o ho
      have hpad : ∀ k v', d'.get? k = some v' → ∃ v w w', d.get? k = some v ∧ padValue v = .ok w ∧
          D.get? k = some w ∧ padValue v' = .ok w' := by
        intro k v' hv'
        obtain ⟨v, hv, hpv⟩ := hw k v' hv'
        rcases forall2_get hf k with ⟨h1, _⟩ | ⟨u, w, h1, h2, h3⟩
        · unfold Dict.get? at hv
          rw [h1] at hv
          cases hv
        · have h1' : d.get? k = some u := h1
          rw [h1'] at hv
          injection hv with hv
          subst hv
          obtain ⟨w', hw'⟩ := hpv ⟨w, h3⟩
          exact ⟨u, w, w', h1', h3, h2, hw'⟩
      have htot : ∃ l, mapM' (fun p : Str × Feat => (padValue p.2).map (fun w => (p.1, w))) d'.entries = .ok l := by
        refine mapM'_total ?_
        rintro ⟨k, v'⟩ hm
        obtain ⟨_, _, w', _, _, _, hw'⟩ := hpad k v' (Dict.get?_mem.2 hm)
        exact ⟨(k, w'), by simp [hw', Except.map]⟩
      obtain ⟨l, hl⟩ := htot
      have hfl : List.Forall₂ (fun p q : Str × Feat => p.1 = q.1 ∧ padValue p.2 = .ok q.2) d'.entries l := by
        refine (mapM'_ok_iff.1 hl).imp ?_
        rintro ⟨k, u⟩ q hq
        cases hp : padValue u with
        | error e => simp [hp, Except.map] at hq
        | ok w =>
          simp only [hp, Except.map, Except.ok.injEq] at hq
          subst hq
          exact ⟨rfl, rfl⟩
      have hkeys : l.map Prod.fst = d'.entries.map Prod.fst := by
        clear hl
        generalize d'.entries = es at hfl
        induction hfl with
        | nil => rfl
        | cons h _ ih => simp [ih, h.1]
      have hnd : (l.map Prod.fst).Nodup := by rw [hkeys]; exact d'.nodup
      have hE : valX padValue y.extract (.mk n [o]) = .ok (Dict.ofList l) :=
        valX_ok.2 ⟨d', hd', by rw [Dict.ofList_entries _ hnd]; exact hfl⟩
      refine ⟨Dict.ofList l, hE, ?_⟩
      intro k w0 hw0
      obtain ⟨d2, u, hd2, hu, hpu⟩ := valX_get hE hw0
      rw [hd'] at hd2
      injection hd2 with hd2
      subst hd2
      obtain ⟨v, w, w', h1, h2, h3, h4⟩ := hpad k u hu
      rw [hpu] at h4
      injection h4 with h4
      subst h4
      exact ⟨w, h3, padsToo_padded (v := v) hpu⟩
  | .sparse b, x, hb, hi, n, os, D, hD, o, ho => by
    simp only [Builder.build] at hb
    split at hb
    · simp at hb
    · rename_i y hy
      injection hb with hb
      subst hb
      simp only [sparseAt_keepAll] at hD ⊢
      exact alone_ok b y hy (fun ws ty id hm => by
        have := hi (.sparse :: ws) ty id (List.mem_map.2 ⟨_, hm, rfl⟩)
        simpa using this) n os D hD o ho
  | .iter b, x, hb, hi, n, os, D, hD, o, ho => by
    simp only [Builder.build] at hb
    split at hb
    · simp at hb
    · rename_i y hy
      injection hb with hb
      subst hb
      obtain ⟨ds, hds, rfl⟩ := iterX_ok.1 hD
      rw [mapM'_ok_iff] at hds
      obtain ⟨d, hdm, hd⟩ := forall₂_mem_left hds ho
      refine ⟨listFeatures (collect [d]), iterX_ok.2 ⟨[d], by simp [Obj.items, mapM', hd], rfl⟩, ?_⟩
      intro k v' hv'
      rw [iterX_get] at hv'
      split at hv'
      · rename_i hk
        obtain ⟨d2, hd2, hk⟩ := hk
        simp only [List.mem_singleton] at hd2
        subst hd2
        injection hv' with hv'
        subst hv'
        obtain ⟨u, hu⟩ := Option.isSome_iff_exists.1 (Dict.get?_isSome.2 hk)
        refine ⟨_, by rw [iterX_get, if_pos ⟨d2, hdm, hk⟩], ?_⟩
        simp only [List.filterMap_cons, hu, List.filterMap_nil]
        exact padsToo_row (List.mem_filterMap.2 ⟨d2, hdm, hu⟩)
      · cases hv'
  | .comp l, x, hb, hi, n, os, D, hD, o, ho => by
    simp only [Builder.build] at hb
    split at hb
    · simp at hb
    · rename_i xs hxs
      obtain ⟨_, he⟩ := compBuilt_cases hb
      rw [he] at hD
      obtain ⟨ds, hds, hdis, hDe⟩ := compX_ok.1 hD
      obtain ⟨ds', hds', hw⟩ := alone_okL l xs hxs hi n os ds hds o ho
      obtain ⟨D', hD'⟩ : ∃ D', compX (xs.map BuiltX.extract) (.mk n [o]) = .ok D' := by
        obtain ⟨D', h1, h2⟩ := mergeDicts_ok (disjoint_within hw hdis)
        exact ⟨D', compX_ok.2 ⟨ds', hds', disjoint_within hw hdis, h2⟩⟩
      refine ⟨D', by rw [he]; exact hD', ?_⟩
      intro k v' hv'
      obtain ⟨y, hy, d', hd', hk⟩ := (compX_get hD').1 hv'
      rw [mapM'_ok_iff] at hds hds'
      obtain ⟨j, hj, rfl⟩ := List.getElem_of_mem hy
      rw [List.forall₂_iff_get] at hds hds' hw
      have hj1 : j < ds.length := hds.1 ▸ hj
      have hj2 : j < ds'.length := hds'.1 ▸ hj
      have e1 := hds.2 j hj hj1
      have e2 := hds'.2 j hj hj2
      simp only [List.get_eq_getElem] at e1 e2
      rw [hd'] at e2
      injection e2 with e2
      subst e2
      obtain ⟨v, hv, hp⟩ := hw.2 j hj1 hj2 k v' hk
      exact ⟨v, (compX_get hD).2 ⟨_, List.getElem_mem hj, _, e1, hv⟩, hp⟩
  | .empty, x, hb, hi, n, os, D, hD, o, ho => by
    simp only [Builder.build, Except.ok.injEq] at hb
    subst hb
    exact ⟨Dict.empty, rfl, fun k v' hv' => by simp [Dict.empty, Dict.get?, assocGet] at hv'⟩
  | .leaf ty id, x, hb, hi, n, os, D, hD, o, ho => by
    have := hi [] ty id (by simp [Builder.leaves])
    simp at this
theorem alone_okL {lf : Nat → Res (BuiltX F)} : ∀ (l : List Builder) (xs : List (BuiltX F)),
    Builder.buildL lf keepAll l = .ok xs →
    (∀ ws ty id, (ws, some (ty, id)) ∈ Builder.leavesL l → Wrapper.iter ∈ ws) → ∀ (n : Nat) (os : List Obj)
    (ds : List Features), mapM' (fun x : Extractor => x (.mk n os)) (xs.map BuiltX.extract) = .ok ds → ∀ o ∈ os,
    ∃ ds', mapM' (fun x : Extractor => x (.mk n [o])) (xs.map BuiltX.extract) = .ok ds' ∧ List.Forall₂ Within ds ds'
  | [], xs, hb, hi, n, os, ds, hds, o, ho => by
    simp only [Builder.buildL, Except.ok.injEq] at hb
    subst hb
    simp only [List.map_nil, mapM', Except.ok.injEq] at hds
    subst hds
    exact ⟨[], rfl, .nil⟩
  | b :: bs, xs, hb, hi, n, os, ds, hds, o, ho => by
    simp only [Builder.buildL] at hb
    split at hb
    · simp at hb
    · rename_i y hy
      split at hb
      · simp at hb
      · rename_i ys hys
        injection hb with hb
        subst hb
        rw [List.map_cons, mapM'_cons_ok] at hds
        obtain ⟨d, ds1, h1, h2, rfl⟩ := hds
        obtain ⟨d', h3, h4⟩ := alone_ok b y hy (fun ws ty id hm => hi ws ty id (List.mem_append_left _ hm)) n os d h1 o ho
        obtain ⟨ds', h5, h6⟩ := alone_okL bs ys hys (fun ws ty id hm => hi ws ty id (List.mem_append_right _ hm)) n os ds1
          h2 o ho
        exact ⟨d' :: ds', by rw [List.map_cons, mapM'_cons_ok]; exact ⟨d', ds', h3, h5, rfl⟩, .cons h4 h6⟩
end

mutual
/-- Every feature is that of a leaf. -/
theorem key_leaf {lf : Nat → Res (BuiltX F)} {sp : Sparsify} {nm : Nat → Str}
    {Q : Nat → Obj → Feat → Prop} (hlf : LeafYields lf nm Q) : ∀ (b : Builder) (x : BuiltX F),
    b.build lf sp = .ok x → ∀ o D k v, x.extract o = .ok D → D.get? k = some v →
      ∃ ws ty id, (ws, some (ty, id)) ∈ b.leaves ∧ nm id = k
  | .padding b, x, hb, o, D, k, v, hD, hv => by
    simp only [Builder.build] at hb
    split at hb
    · simp at hb
    · rename_i y hy
      injection hb with hb
      subst hb
      obtain ⟨d, u, hd, hu, _⟩ := valX_get (show valX padValue y.extract o = .ok D from hD) hv
      obtain ⟨ws, ty, id, hm, hk⟩ := key_leaf hlf b y hy o d k u hd hu
      exact ⟨.padding :: ws, ty, id, List.mem_map.2 ⟨_, hm, rfl⟩, hk⟩
  | .sparse b, x, hb, o, D, k, v, hD, hv => by
    simp only [Builder.build] at hb
    split at hb
    · simp at hb
    · rename_i y hy
      injection hb with hb
      subst hb
      obtain ⟨d, u, hd, hu, _⟩ := sparseAt_ok hD hv
      obtain ⟨ws, ty, id, hm, hk⟩ := key_leaf hlf b y hy o d k u hd hu
      exact ⟨.sparse :: ws, ty, id, List.mem_map.2 ⟨_, hm, rfl⟩, hk⟩
  | .iter b, x, hb, o, D, k, v, hD, hv => by
    simp only [Builder.build] at hb
    split at hb
    · simp at hb
    · rename_i y hy
      injection hb with hb
      subst hb
      obtain ⟨ds, hds, rfl⟩ := iterX_ok.1 hD
      rw [iterX_get] at hv
      split at hv
      · rename_i h
        obtain ⟨d, hd, hk⟩ := h
        obtain ⟨u, hu⟩ := Option.isSome_iff_exists.1 (Dict.get?_isSome.2 hk)
        rw [mapM'_ok_iff] at hds
        obtain ⟨i, _, hid⟩ := forall₂_mem_right hds hd
        obtain ⟨ws, ty, id, hm, hk⟩ := key_leaf hlf b y hy i d k u hid hu
        exact ⟨.iter :: ws, ty, id, List.mem_map.2 ⟨_, hm, rfl⟩, hk⟩
      · cases hv
  | .comp l, x, hb, o, D, k, v, hD, hv => by
    simp only [Builder.build] at hb
    split at hb
    · simp at hb
    · rename_i xs hxs
      obtain ⟨_, he⟩ := compBuilt_cases hb
      rw [he] at hD
      obtain ⟨e, hem, d, hd, hk⟩ := (compX_get hD).1 hv
      obtain ⟨y, hy, rfl⟩ := List.mem_map.1 hem
      exact key_leafL hlf l xs hxs o y hy d k v hd hk
  | .empty, x, hb, o, D, k, v, hD, hv => by
    simp only [Builder.build, Except.ok.injEq] at hb
    subst hb
    simp only [Except.ok.injEq] at hD
    subst hD
    simp [Dict.empty, Dict.get?, assocGet] at hv
  | .leaf ty id, x, hb, o, D, k, v, hD, hv => by
    obtain ⟨w, rfl, _⟩ := hlf id x o D hb hD
    have := (get?_single ..).1 hv
    exact ⟨[], ty, id, by simp [Builder.leaves], this.1.symm⟩
theorem key_leafL {lf : Nat → Res (BuiltX F)} {sp : Sparsify} {nm : Nat → Str}
    {Q : Nat → Obj → Feat → Prop} (hlf : LeafYields lf nm Q) : ∀ (l : List Builder)
    (xs : List (BuiltX F)), Builder.buildL lf sp l = .ok xs → ∀ o, ∀ y ∈ xs, ∀ D k v, y.extract o = .ok D →
      D.get? k = some v → ∃ ws ty id, (ws, some (ty, id)) ∈ Builder.leavesL l ∧ nm id = k
  | [], xs, hb, o, y, hy, D, k, v, hD, hv => by
    simp only [Builder.buildL, Except.ok.injEq] at hb
    subst hb
    simp at hy
  | b :: bs, xs, hb, o, y, hy, D, k, v, hD, hv => by
    simp only [Builder.buildL] at hb
    split at hb
    · simp at hb
    · rename_i z hz
      split at hb
      · simp at hb
      · rename_i zs hzs
        injection hb with hb
        subst hb
        rcases List.mem_cons.1 hy with rfl | hy
        · obtain ⟨ws, ty, id, hm, hk⟩ := key_leaf hlf b y hz o D k v hD hv
          exact ⟨ws, ty, id, List.mem_append_left _ hm, hk⟩
        · obtain ⟨ws, ty, id, hm, hk⟩ := key_leafL hlf bs zs hzs o y hy D k v hD hv
          exact ⟨ws, ty, id, List.mem_append_right _ hm, hk⟩
end

/-! ### A row of a batch -/

/-- Every value is a tensor with a row per object, and one of the rows is the value of one object, with padding. -/
theorem batch_row {lf : Nat → Res (BuiltX F)} {nm : Nat → Str} {Q : Nat → Obj → Feat → Prop}
    (hlf : LeafYields lf nm Q) (hQ : ∀ id o v v', Q id o v → Q id o v' → v = v') {b : Builder} {x : BuiltX F}
    (hb : b.build lf keepAll = .ok x) {n : Nat} {os : List Obj} (hos : os ≠ [])
    (hl : ∀ ws ty id, (ws, some (ty, id)) ∈ b.leaves → ∃ ws', ws = .padding :: .iter :: ws' ∧ ∀ o ∈ os, Peopled ws' o)
    {D : Features} (hD : x.extract (.mk n os) = .ok D) {i : Nat} {o : Obj} (hi : os[i]? = some o) :
    ∃ D', x.extract (.mk n [o]) = .ok D' ∧ ∀ k, Option.Rel (fun v v' => ∃ ws ty id us u,
      (.padding :: .iter :: ws, some (ty, id)) ∈ b.leaves ∧ nm id = k ∧
      List.Forall₂ (Exact keepAll k (Q id) ws) os us ∧ us[i]? = some u ∧
      padValue (.list us) = .ok v ∧ padValue (.list [u]) = .ok v') (D.get? k) (D'.get? k) := by
  have ho : o ∈ os := List.mem_of_getElem? hi
  obtain ⟨D', hD', _⟩ := alone_ok b x hb (fun ws ty id hm => by
    obtain ⟨ws', rfl, _⟩ := hl ws ty id hm
    simp) n os D hD o ho
  refine ⟨D', hD', fun k => ?_⟩
  have key : ∀ ws ty id, (ws, some (ty, id)) ∈ b.leaves → nm id = k → Option.Rel (fun v v' => ∃ ws ty id us u,
      (.padding :: .iter :: ws, some (ty, id)) ∈ b.leaves ∧ nm id = k ∧
      List.Forall₂ (Exact keepAll k (Q id) ws) os us ∧ us[i]? = some u ∧
      padValue (.list us) = .ok v ∧ padValue (.list [u]) = .ok v') (D.get? k) (D'.get? k) := by
    intro ws ty id hm hk
    obtain ⟨ws', rfl, hp⟩ := hl ws ty id hm
    subst hk
    obtain ⟨v, hv, _, ⟨us, rfl, hus⟩, hpv⟩ := exact_leaf hlf b x hb (.mk n os) D hD _ ty id hm
      (show Peopled (.padding :: .iter :: ws') (.mk n os) from ⟨hos, hp⟩)
    obtain ⟨v', hv', _, ⟨us', rfl, hus'⟩, hpv'⟩ := exact_leaf hlf b x hb (.mk n [o]) D' hD' _ ty id hm
      (show Peopled (.padding :: .iter :: ws') (.mk n [o]) from ⟨by simp [Obj.items], by
        intro o' ho'
        simp only [Obj.items, List.mem_singleton] at ho'
        subst ho'
        exact hp _ ho⟩)
    cases hus' with
    | @cons _ u _ _ hu hrest =>
      cases hrest
      have hg := get_of_forall₂ hus i
      simp only [Obj.items] at hg hus
      rw [hi] at hg
      cases hux : us[i]? with
      | none => rw [hux] at hg; cases hg
      | some u2 =>
        rw [hux] at hg
        cases hg with
        | some hg =>
          have := Exact.det (hQ id) ws' hg hu
          subst this
          rw [hv, hv']
          exact .some ⟨ws', ty, id, us, u2, hm, rfl, hus, hux, hpv, hpv'⟩
  cases h1 : D.get? k with
  | some v =>
    obtain ⟨ws, ty, id, hm, hk⟩ := key_leaf hlf b x hb _ D k v hD h1
    have := key ws ty id hm hk
    rwa [h1] at this
  | none =>
    cases h2 : D'.get? k with
    | none => exact .none
    | some v' =>
      obtain ⟨ws, ty, id, hm, hk⟩ := key_leaf hlf b x hb _ D' k v' hD' h2
      have := key ws ty id hm hk
      rw [h1, h2] at this
      cases this

theorem padValue_rows {us : List Feat} {v : Feat} (h : padValue (.list us) = .ok v) : HasRows us.length v := by
  obtain ⟨_, sh, hs, hkp, _, hmin⟩ := padValue_good h
  obtain ⟨w, hw, _, hwl⟩ := hkp [] (.list us) (Feat.at_nil _)
  rw [Feat.at_nil] at hw
  injection hw with hw
  subst hw
  cases sh with
  | nil =>
    have : v.isList = false := hs
    rw [hwl rfl] at this
    cases this
  | cons m s =>
    obtain ⟨l, rfl, hl1, _⟩ := hs
    obtain ⟨l', ⟨p, hp1, hp2⟩, hl2⟩ := hmin 0 m rfl
    have := List.length_eq_zero_iff.1 hp1
    subst this
    rw [Feat.at_nil] at hp2
    injection hp2 with hp2
    injection hp2 with hp2
    subst hp2
    exact ⟨l, rfl, by omega⟩

/-- Rows for any sparsification: every value has a row per object. -/
theorem batch_rows {lf : Nat → Res (BuiltX F)} {nm : Nat → Str} {Q : Nat → Obj → Feat → Prop} {sp : Sparsify}
    (hlf : LeafYields lf nm Q) {b : Builder} {x : BuiltX F} (hb : b.build lf sp = .ok x) {n : Nat} {os : List Obj}
    (hos : os ≠ [])
    (hl : ∀ ws ty id, (ws, some (ty, id)) ∈ b.leaves → ∃ ws', ws = .padding :: .iter :: ws' ∧ ∀ o ∈ os, Peopled ws' o)
    {D : Features} (hD : x.extract (.mk n os) = .ok D) {k : Str} {v : Feat} (hv : D.get? k = some v) :
    HasRows os.length v := by
  obtain ⟨ws, ty, id, hm, hk⟩ := key_leaf hlf b x hb _ D k v hD hv
  obtain ⟨ws', rfl, hp⟩ := hl ws ty id hm
  subst hk
  obtain ⟨v2, hv2, _, ⟨us, rfl, hus⟩, hpv⟩ := exact_leaf hlf b x hb (.mk n os) D hD _ ty id hm
    (show Peopled (.padding :: .iter :: ws') (.mk n os) from ⟨hos, hp⟩)
  rw [hv] at hv2
  injection hv2 with hv2
  subst hv2
  have hlen := hus.length_eq
  simp only [Obj.items] at hlen
  rw [hlen]
  exact padValue_rows hpv

section
variable {lower : Str → Str} {float : Str → Res F} {zero : F} {tok : Nat → TextToken} {dataset : List Document} {seen : Seen}
  {ps : List Provider}

/-- What the leaf of a provider yields. -/
def SpecYields (lower : Str → Str) (float : Str → Res F) (zero : F) (tok : Nat → TextToken) (seen : Seen)
    (spec : Provider → Option LeafSpec) (ps : List Provider) (id : Nat) (o : Obj) (v : Feat) : Prop :=
  ∃ y, buildSpec lower float zero tok seen spec ps id = .ok y ∧
    y.extract o = .ok (Dict.ofList [(specName spec ps id, v)])

theorem specYields_leaf (spec : Provider → Option LeafSpec) :
    LeafYields (buildSpec lower float zero tok seen spec ps) (specName spec ps)
      (SpecYields lower float zero tok seen spec ps) := by
  intro id y o D hy hD
  obtain ⟨p, s, hp, hs, hb⟩ := buildSpec_ok.1 hy
  obtain ⟨v, hv⟩ := leaf_yields hb hD
  have e := specName_eq hp hs
  exact ⟨v, by rw [e]; exact hv, y, hy, by rw [hD, hv, e]⟩

theorem specYields_det (spec : Provider → Option LeafSpec) (id : Nat) (o : Obj) (v v' : Feat)
    (h : SpecYields lower float zero tok seen spec ps id o v)
    (h' : SpecYields lower float zero tok seen spec ps id o v') : v = v' := by
  obtain ⟨y, hy, h1⟩ := h
  obtain ⟨y', hy', h2⟩ := h'
  rw [hy] at hy'
  injection hy' with hy'
  subst hy'
  rw [h1] at h2
  injection h2 with h2
  have := (get?_single (specName spec ps id) v (specName spec ps id) v).2 ⟨rfl, rfl⟩
  rw [h2] at this
  exact ((get?_single ..).1 this).2

theorem sentenceObj_items (off : Nat) (s : Sentence) : (sentenceObj off s).items ≠ [] := by
  have := s.lt
  simp only [sentenceObj, Obj.items, ne_eq, List.map_eq_nil_iff, List.range'_eq_nil_iff]
  omega

theorem feature_peopled {f : Builder} (hf : mergeBuilders (ps.zipIdx.map (fun p => Provider.feature p.2 p.1)) = .ok f)
    {os : List Obj} (hos : ∀ o ∈ os, o.items ≠ []) : ∀ ws ty id, (ws, some (ty, id)) ∈ f.leaves →
    ∃ ws', ws = .padding :: .iter :: ws' ∧ ∀ o ∈ os, Peopled ws' o := by
  intro ws ty id hm
  obtain ⟨p, s, hp, hs, _, hl⟩ := merged_leaves feature_mk hf hm
  rw [feature_leaves, hs] at hl
  simp only [List.cons.injEq, Prod.mk.injEq, and_true] at hl
  rw [← hl.1]
  cases p <;> first
    | exact ⟨_, rfl, fun o ho => ⟨hos o ho, fun _ _ => trivial⟩⟩
    | exact ⟨_, rfl, fun o ho => trivial⟩

theorem label_peopled {l : Builder} (hf : mergeBuilders (ps.zipIdx.map (fun p => Provider.label p.2 p.1)) = .ok l)
    {os : List Obj} (hos : ∀ o ∈ os, o.items ≠ []) : ∀ ws ty id, (ws, some (ty, id)) ∈ l.leaves →
    ws = [.padding, .iter, .iter] ∧ ∀ o ∈ os, Peopled [.iter] o := by
  intro ws ty id hm
  obtain ⟨p, s, hp, hs, _, hl⟩ := merged_leaves label_mk hf hm
  rw [label_leaves, hs] at hl
  simp only [List.cons.injEq, Prod.mk.injEq, and_true] at hl
  exact ⟨hl.1.symm, fun o ho => ⟨hos o ho, fun _ _ => trivial⟩⟩

/-- All labels of a provider have the same width. -/
theorem label_width {p : Provider} {s : LeafSpec} (hp : p.labelSpec = some s) {y : BuiltX F}
    (hy : s.build lower float zero tok dataset = .ok y) :
    ∃ m, ∀ o v, y.extract o = .ok (Dict.ofList [(s.name, v)]) → ∃ ids, v = idsFeat ids ∧ ids.length = m := by
  cases p <;> simp only [Provider.labelSpec, reduceCtorEq, Option.some.injEq] at hp <;> subst hp
  case posDict lab splitting =>
    obtain ⟨parts, _, _, h⟩ := leaf_pos hy
    refine ⟨parts.length, fun o v hv => ?_⟩
    obtain ⟨ids, h1, h2⟩ := h o v hv
    exact ⟨ids, h1, h2.length_eq⟩
  case lemmaDict lab =>
    obtain ⟨n, _, _, h⟩ := leaf_lemmas hy
    refine ⟨1, fun o v hv => ?_⟩
    obtain ⟨i, _, h1, _⟩ := h o v hv
    exact ⟨[i], h1, rfl⟩
  case lemmaRules f lab t =>
    obtain ⟨n, _, _, h⟩ := leaf_rules hy
    refine ⟨1, fun o v hv => ?_⟩
    obtain ⟨i, _, h1⟩ := h o v hv
    exact ⟨[(i : Int)], h1, rfl⟩
  case lemmaChars lab t m seg =>
    refine ⟨m, fun o v hv => ?_⟩
    simp only [LeafSpec.build] at hy
    split at hy
    · cases hy
    · injection hy with hy
      subst hy
      simp only [constInit] at hv
      obtain ⟨w, hw, he⟩ := tokenX_ok hv
      have hvw : v = w := by
        have := (get?_single lab w lab w).2 ⟨rfl, rfl⟩
        rw [← he] at this
        exact ((get?_single ..).1 this).2.symm
      subst hvw
      cases hl : (tok o.handle).2.lemma' with
      | none => rw [hl] at hw; simp [encodeChars, Except.map] at hw
      | some l =>
        rw [hl] at hw
        simp only [encodeChars, Except.map, Except.ok.injEq] at hw
        refine ⟨_, hw.symm, ?_⟩
        unfold fitLength
        split
        · simp; omega
        · simp; omega

/-- The labels of a sentence in a batch. -/
theorem pad_rowWords {us : List Feat} {m : Nat}
    (hus : ∀ u ∈ us, ∃ rows : List (List Int), u = .list (rows.map idsFeat) ∧ ∀ r ∈ rows, r.length = m)
    {v : Feat} (h : padValue (.list us) = .ok v) {i : Nat} {rows : List (List Int)}
    (hi : us[i]? = some (.list (rows.map idsFeat))) :
    rowWords i rows.length v = some (.list [.list (rows.map idsFeat)]) := by
  obtain ⟨_, sh, hs, hk, _, hmin⟩ := padValue_good h
  have hat : ∀ p, (Feat.list us).at (i :: p) = (Feat.list (rows.map idsFeat)).at p := fun p => by simp [Feat.at, hi]
  obtain ⟨w, hw, _, hwl⟩ := hk [] (.list us) (Feat.at_nil _)
  rw [Feat.at_nil] at hw
  injection hw with hw
  subst hw
  obtain ⟨l, rfl⟩ : ∃ l, v = .list l := by
    have := hwl rfl
    cases v <;> simp [Feat.isList] at this
    exact ⟨_, rfl⟩
  obtain ⟨w, hw, _, hwl⟩ := hk [i] _ (by rw [hat, Feat.at_nil])
  obtain ⟨ws, rfl⟩ : ∃ ws, w = .list ws := by
    have := hwl rfl
    cases w <;> simp [Feat.isList] at this
    exact ⟨_, rfl⟩
  have hli : l[i]? = some (.list ws) := by
    cases hli : l[i]? with
    | none => simp [Feat.at, hli] at hw
    | some z =>
      simp only [Feat.at, hli, Feat.at_nil] at hw
      rw [hw]
  have hvat : ∀ p, (Feat.list l).at (i :: p) = (Feat.list ws).at p := fun p => by simp [Feat.at, hli]
  simp only [rowWords, hli, Option.some.injEq, Feat.list.injEq, List.cons.injEq, and_true]
  refine List.ext_getElem? fun j => ?_
  rw [List.getElem?_take, List.getElem?_map]
  split
  · rename_i hj
    rw [List.getElem?_eq_getElem hj, Option.map_some]
    have hrow : (Feat.list us).at [i, j] = some (idsFeat rows[j]) := by
      rw [hat]
      simp [Feat.at, Feat.at_nil, hj]
    obtain ⟨w, hw, _, hwl⟩ := hk [i, j] _ hrow
    rw [hvat] at hw
    have hwj : ws[j]? = some w := by
      cases hz : ws[j]? with
      | none => simp [Feat.at, hz] at hw
      | some z =>
        simp only [Feat.at, hz, Feat.at_nil] at hw
        rw [hw]
    obtain ⟨l2, rfl⟩ : ∃ l2, w = .list l2 := by
      have := hwl rfl
      cases w <;> simp [Feat.isList] at this
      exact ⟨_, rfl⟩
    rw [hwj, Option.some.injEq, idsFeat, Feat.list.injEq]
    -- the width
    have hlen : l2.length = m := by
      have hsh := (hasShape_at hs (show (Feat.list l).at [i, j] = some (.list l2) by rw [hvat]; exact hw)).1
      simp only [List.length_cons, List.length_nil] at hsh
      cases hd : sh.drop 2 with
      | nil => rw [hd] at hsh; cases hsh
      | cons a s =>
        have ha : sh[2]? = some a := by
          have := congrArg (fun l => l[0]?) hd
          simpa using this
        rw [hd] at hsh
        obtain ⟨l3, e, hl3, _⟩ := hsh
        injection e with e
        subst e
        obtain ⟨l4, ⟨q, hq1, hq2⟩, hl4⟩ := hmin 2 a ha
        match q, hq1 with
        | [b, c], _ =>
          cases hb : us[b]? with
          | none => simp [Feat.at, hb] at hq2
          | some u =>
            obtain ⟨rows', rfl, hr⟩ := hus u (List.mem_of_getElem? hb)
            cases hc : rows'[c]? with
            | none => simp [Feat.at, hb, hc] at hq2
            | some r =>
              simp only [Feat.at, hb, List.getElem?_map, hc, Option.map_some, idsFeat, Option.some.injEq,
                Feat.list.injEq] at hq2
              have := hr r (List.mem_of_getElem? hc)
              rw [← hq2, List.length_map] at hl4
              omega
    have hm : rows[j].length = m := by
      obtain ⟨rows', e, hr⟩ := hus _ (List.mem_of_getElem? hi)
      injection e with e
      have : rows = rows' := by
        refine List.map_injective_iff.2 ?_ e
        intro a b hab
        exact idsFeat_inj hab
      subst this
      exact hr _ (List.getElem_mem hj)
    refine List.ext_getElem (by simp [hlen, hm]) fun c h1 h2 => ?_
    have hc : c < rows[j].length := by simpa using h2
    obtain ⟨w, hw2, heq, _⟩ := hk [i, j, c] (.int rows[j][c]) (by
      rw [hat]
      simp [Feat.at, Feat.at_nil, hj, idsFeat, hc])
    rw [hvat] at hw2
    simp only [Feat.at, hwj, List.getElem?_eq_getElem h1, Feat.at_nil, Option.some.injEq] at hw2
    rw [hw2, heq rfl]
    simp
  · rename_i hj
    rw [List.getElem?_eq_none (by omega)]
    rfl

end

/-! ### The same tokens under other handles -/

section
variable {lower : Str → Str} {float : Str → Res F} {zero : F} {tok tok' : Nat → TextToken} {dataset : List Document} {seen : Seen}
  {ps : List Provider}

/-- Objects of the same tokens: batches of one sentence, sentences, tokens. -/
def SameTokens (tok tok' : Nat → TextToken) (hs hs' : List Nat) : Nat → Obj → Obj → Prop
  | 0, o, o' => o = .mk 0 [.mk 0 (hs.map (fun k => .mk k []))] ∧ o' = .mk 0 [.mk 0 (hs'.map (fun k => .mk k []))]
  | 1, o, o' => o = .mk 0 (hs.map (fun k => .mk k [])) ∧ o' = .mk 0 (hs'.map (fun k => .mk k []))
  | 2, o, o' => ∃ k k', o = .mk k [] ∧ o' = .mk k' [] ∧ tok k = tok' k'
  | _, _, _ => False

theorem SameTokens.items {hs hs' : List Nat} (h : List.Forall₂ (fun k k' => tok k = tok' k') hs hs') :
    ∀ n o o', SameTokens tok tok' hs hs' n o o' → List.Forall₂ (SameTokens tok tok' hs hs' (n + 1)) o.items o'.items
  | 0, _, _, ⟨rfl, rfl⟩ => .cons ⟨rfl, rfl⟩ .nil
  | 1, _, _, ⟨rfl, rfl⟩ => by
    show List.Forall₂ _ (hs.map _) (hs'.map _)
    rw [List.forall₂_map_left_iff, List.forall₂_map_right_iff]
    exact h.imp (fun k k' hk => ⟨k, k', rfl, rfl, hk⟩)
  | 2, _, _, ⟨_, _, rfl, rfl, _⟩ => .nil
  | n + 3, _, _, h => h.elim

theorem tokenX_same {hs hs' : List Nat} {name : Str} {get : TextToken → Res Feat} :
    ∀ o o', SameTokens tok tok' hs hs' 2 o o' → tokenX tok name get o = tokenX tok' name get o' := by
  rintro _ _ ⟨k, k', rfl, rfl, h⟩
  simp only [tokenX, h]

/-- The labels of a sentence are the same for the same tokens, and so is whether they can be extracted. -/
theorem labels_same {sp sp' : Sparsify} {hs hs' : List Nat} (h : List.Forall₂ (fun k k' => tok k = tok' k') hs hs')
    (hsp : ∀ n o o' k v, SameTokens tok tok' hs hs' n o o' → sp o k v = sp' o' k v) {l : Builder}
    (hl : mergeBuilders (ps.zipIdx.map (fun p => Provider.label p.2 p.1)) = .ok l) :
    OutRel (BuiltRel (SameTokens tok tok' hs hs') 0)
      (l.build (buildSpec lower float zero tok seen Provider.labelSpec ps) sp)
      (l.build (buildSpec lower float zero tok' seen Provider.labelSpec ps) sp') := by
  refine build_rel (SameTokens.items h) hsp l 0 ?_
  intro ws ty id hm
  obtain ⟨p, s, hp, hps, _, hlv⟩ := merged_leaves label_mk hl hm
  have hb : ∀ tok : Nat → TextToken, buildSpec lower float zero tok seen Provider.labelSpec ps id =
      s.build lower float zero tok (seen s) := by
    intro tok
    simp [buildSpec, hp, hps]
  rw [hb, hb, Nat.zero_add]
  rw [label_leaves, hps] at hlv
  simp only [List.cons.injEq, Prod.mk.injEq, and_true] at hlv
  rw [← hlv.1]
  cases p <;> simp only [Provider.labelSpec, reduceCtorEq, Option.some.injEq] at hps <;> subst hps <;>
    simp only [LeafSpec.build] <;> (repeat' split) <;>
    first
      | exact .error _
      | exact .ok ⟨rfl, rfl, by simp only [constInit]; exact tokenX_same⟩

/-- Features and labels of the same tokens. -/
theorem assemble_same {hs hs' : List Nat} (h : List.Forall₂ (fun k k' => tok k = tok' k') hs hs')
    {r : Assembled F} (hr : assemble lower float zero tok keepAll seen ps = .ok r) :
    ∃ r', assemble lower float zero tok' keepAll seen ps = .ok r' ∧
      r.features (.mk 0 [.mk 0 (hs.map (fun k => .mk k []))]) = r'.features (.mk 0 [.mk 0 (hs'.map (fun k => .mk k []))]) ∧
      r.labels (.mk 0 [.mk 0 (hs.map (fun k => .mk k []))]) = r'.labels (.mk 0 [.mk 0 (hs'.map (fun k => .mk k []))]) := by
  obtain ⟨f, l, x, y, hf, hl, hx, hy, rfl⟩ := assemble_ok.1 hr
  rcases (features_rel (lower := lower) (float := float) (zero := zero) (seen := seen) (tok := tok) (tok' := tok')
    (sp := keepAll) (sp' := keepAll) (h.imp (fun _ _ e => congrArg Prod.fst e)) (fun _ _ _ _ _ _ => rfl) hf).elim with
    ⟨x1, x', e1, e2, hxx⟩ | ⟨e, e1, _⟩
  rotate_left
  · rw [hx] at e1; cases e1
  rw [hx] at e1
  injection e1 with e1
  subst e1
  rcases (labels_same (lower := lower) (float := float) (zero := zero) (seen := seen)
    (sp := keepAll) (sp' := keepAll) h (fun _ _ _ _ _ _ => rfl) hl).elim with ⟨y1, y', e3, e4, hyy⟩ | ⟨e, e3, _⟩
  rotate_left
  · rw [hy] at e3; cases e3
  rw [hy] at e3
  injection e3 with e3
  subst e3
  exact ⟨_, assemble_ok.2 ⟨f, l, x', y', hf, hl, e2, e4, rfl⟩, hxx.extract _ _ ⟨rfl, rfl⟩, hyy.extract _ _ ⟨rfl, rfl⟩⟩

end

/-! ### The sentences of the training data -/

theorem minibatches_forall₂ {α β : Type} {R : α → β → Prop} (n : Int) {l : List α} {l' : List β}
    (h : List.Forall₂ R l l') : List.Forall₂ (List.Forall₂ R) (minibatches n l) (minibatches n l') := by
  have key : ∀ (st : List α × List (List α)) (st' : List β × List (List β)), List.Forall₂ R st.1 st'.1 →
      List.Forall₂ (List.Forall₂ R) st.2 st'.2 →
      List.Forall₂ R (l.foldl (minibatchStep n) st).1 (l'.foldl (minibatchStep n) st').1 ∧
      List.Forall₂ (List.Forall₂ R) (l.foldl (minibatchStep n) st).2 (l'.foldl (minibatchStep n) st').2 := by
    induction h with
    | nil => exact fun st st' h1 h2 => ⟨h1, h2⟩
    | @cons a b l l' hab _ ih =>
      intro st st' h1 h2
      rw [List.foldl_cons, List.foldl_cons]
      have h3 : List.Forall₂ R (st.1 ++ [a]) (st'.1 ++ [b]) := List.rel_append h1 (.cons hab .nil)
      have hlen := h3.length_eq
      unfold minibatchStep
      rw [hlen]
      split
      · exact ih _ _ .nil (List.rel_append h2 (.cons h3 .nil))
      · exact ih _ _ h3 h2
  obtain ⟨h1, h2⟩ := key ([], []) ([], []) .nil .nil
  unfold minibatches
  simp only [h1.length_eq]
  split
  · exact List.rel_append h2 (.cons h1 .nil)
  · exact h2

/-- An object stands for a sentence of the documents. -/
structure StandsFor (docs : List Document) (o : Obj) (p : Document × Sentence) : Prop where
  doc : p.1 ∈ docs
  sentence : p.2 ∈ p.1.sentences
  tokens : ∃ off, o = sentenceObj off p.2 ∧ ∀ j t, p.1.textTokens[j]? = some t → (datasetTokens docs)[off + j]? = some t

theorem sentenceObjs_stand (docs : List Document) :
    List.Forall₂ (StandsFor docs) (sentenceObjs 0 docs) (datasetSentences docs) := by
  have key : ∀ (rest before : List Document), docs = before ++ rest →
      List.Forall₂ (StandsFor docs) (sentenceObjs (datasetTokens before).length rest) (datasetSentences rest) := by
    intro rest
    induction rest with
    | nil => exact fun _ _ => .nil
    | cons d rest ih =>
      intro before hdocs
      have h2 := ih (before ++ [d]) (by rw [hdocs]; simp)
      have hlen : (datasetTokens (before ++ [d])).length = (datasetTokens before).length + d.tokens.length := by
        simp [datasetTokens, Document.textTokens]
      rw [hlen] at h2
      simp only [sentenceObjs, datasetSentences, List.flatMap_cons]
      refine List.rel_append ?_ h2
      rw [List.forall₂_map_left_iff, List.forall₂_map_right_iff, List.forall₂_same]
      intro s hs
      refine ⟨by rw [hdocs]; simp, hs, _, rfl, ?_⟩
      intro j t hj
      have hj' : j < d.textTokens.length := (List.getElem?_eq_some_iff.1 hj).1
      rw [hdocs]
      simp only [datasetTokens, List.flatMap_append, List.flatMap_cons]
      rw [List.getElem?_append_right (by omega), Nat.add_sub_cancel_left, List.getElem?_append_left hj', hj]
  exact key docs [] rfl

/-- The tokens of a sentence are the same under both handles. -/
theorem StandsFor.same {docs : List Document} {o : Obj} {p : Document × Sentence} (h : StandsFor docs o p)
    (hb : Built p.1) (other : TextToken) : ∃ hs, o = .mk 0 (hs.map (fun k => .mk k [])) ∧
    List.Forall₂ (fun k k' => datasetTok other docs k = docTok other p.1 k') hs
      (List.range' p.2.start (p.2.stop - p.2.start)) := by
  obtain ⟨off, rfl, ht⟩ := h.tokens
  refine ⟨List.range' (off + p.2.start) (p.2.stop - p.2.start), rfl, ?_⟩
  have hstop := (hb.docOk.tiles.mem h.sentence).2
  rw [List.forall₂_iff_get]
  refine ⟨by simp, ?_⟩
  intro j h1 h2
  have hj : j < p.2.stop - p.2.start := by simpa using h2
  simp only [List.get_eq_getElem, List.getElem_range', Nat.one_mul, datasetTok, docTok, List.getD_eq_getElem?_getD]
  have hlt : p.2.start + j < p.1.textTokens.length := by
    have : p.1.textTokens.length = p.1.tokens.length := by simp [Document.textTokens]
    omega
  rw [List.getElem?_eq_getElem hlt, Nat.add_assoc, ht _ _ (List.getElem?_eq_getElem hlt)]

/-! ### Rows of the training steps -/

theorem optRel_imp {α β : Type} {R S : α → β → Prop} (h : ∀ a b, R a b → S a b) {a : Option α} {b : Option β}
    (hab : Option.Rel R a b) : Option.Rel S a b := by
  cases hab with
  | some hr => exact .some (h _ _ hr)
  | none => exact .none

theorem Chunks.get {α : Type} {n : Nat} {sents : List α} {bs : List (List α)} (h : Chunks n sents bs) (b i : Nat)
    (hi : i < n) : sents[b * n + i]? = (bs[b]?).bind (fun l => l[i]?) := by
  induction bs generalizing sents b with
  | nil =>
    obtain ⟨h1, _⟩ := h
    subst h1
    simp
  | cons l bs ih =>
    obtain ⟨h1, h2, h3⟩ := h
    subst h1
    rw [List.flatten_cons]
    cases bs with
    | nil =>
      simp only [List.flatten_nil, List.append_nil]
      cases b with
      | zero => simp
      | succ b =>
        simp only [List.getElem?_cons_succ, List.getElem?_nil, Option.bind_none]
        rw [List.getElem?_eq_none]
        have := (h2 l (by simp)).2
        rw [Nat.succ_mul]
        omega
    | cons l2 bs =>
      have hl : l.length = n := h3 l (by simp)
      cases b with
      | zero =>
        rw [Nat.zero_mul, Nat.zero_add, List.getElem?_append_left (by omega)]
        rfl
      | succ b =>
        rw [List.getElem?_append_right (by rw [Nat.succ_mul]; omega)]
        have : (b + 1) * n + i - l.length = b * n + i := by rw [Nat.succ_mul]; omega
        rw [this, List.getElem?_cons_succ]
        refine ih ⟨rfl, fun x hx => h2 x (List.mem_cons_of_mem _ hx), fun x hx => h3 x ?_⟩ b
        rw [List.dropLast_cons_of_ne_nil (by simp)]
        exact List.mem_cons_of_mem _ hx

section
variable {lower : Str → Str} {float : Str → Res F} {zero : F} {other : TextToken} {sp : Sparsify}
  {seen : Seen} {seen : Seen} {ps : List Provider} {n : Nat} {docs : List Document} {steps : List (Features × Features)}

/-- What a training step consists of. -/
structure StepOf (lower : Str → Str) (float : Str → Res F) (zero : F) (other : TextToken) (sp : Sparsify)
    (seen : Seen) (ps : List Provider) (docs : List Document) (step : Features × Features)
    (os : List Obj) (batch : List (Document × Sentence)) : Prop where
  stand : List.Forall₂ (StandsFor docs) os batch
  nonempty : os ≠ []
  features : ∃ r : Assembled F, assemble lower float zero (datasetTok other docs) sp seen ps = .ok r ∧
    r.features (.mk 0 os) = .ok step.1
  labels : ∃ r : Assembled F, assemble lower float zero (datasetTok other docs) keepAll seen ps = .ok r ∧
    r.labels (.mk 0 os) = .ok step.2

theorem feed_steps (h : trainingFeed lower float zero other sp seen ps n docs = .ok steps) :
    List.Forall₂ (fun step batch => ∃ os, StepOf lower float zero other sp seen ps docs step os batch) steps
      (minibatches n (datasetSentences docs)) := by
  unfold trainingFeed at h
  cases hr : assemble lower float zero (datasetTok other docs) sp seen ps with
  | error e => rw [hr] at h; cases h
  | ok r =>
    rw [hr] at h
    simp only at h
    cases hr' : assemble lower float zero (datasetTok other docs) keepAll seen ps with
    | error e => rw [hr'] at h; cases h
    | ok r' =>
      rw [hr'] at h
      simp only at h
      rw [mapM'_ok_iff] at h
      have hm := minibatches_forall₂ n (sentenceObjs_stand docs)
      have hne : ∀ os ∈ minibatches n (sentenceObjs 0 docs), os ≠ [] := fun os ho =>
        List.ne_nil_of_length_pos ((minibatches_chunks (n : Int) (sentenceObjs 0 docs)).2.1 os ho).1
      rw [List.forall₂_iff_get] at h hm ⊢
      refine ⟨by rw [← h.1, hm.1], fun j h1 h2 => ?_⟩
      have hj : j < (minibatches n (sentenceObjs 0 docs)).length := h.1 ▸ h1
      have e := h.2 j hj h1
      suffices hs : (∃ r : Assembled F, assemble lower float zero (datasetTok other docs) sp seen ps = .ok r ∧
          r.features (.mk 0 ((minibatches n (sentenceObjs 0 docs)).get ⟨j, hj⟩)) = .ok (steps.get ⟨j, h1⟩).1) ∧
          ∃ r : Assembled F, assemble lower float zero (datasetTok other docs) keepAll seen ps = .ok r ∧
          r.labels (.mk 0 ((minibatches n (sentenceObjs 0 docs)).get ⟨j, hj⟩)) = .ok (steps.get ⟨j, h1⟩).2 from
        ⟨_, hm.2 j hj h2, hne _ (List.get_mem _ _), hs.1, hs.2⟩
      unfold extractBatch at e
      split at e
      · cases e
      · rename_i f hf
        split at e
        · cases e
        · rename_i l hl
          injection e with e
          rw [← e]
          exact ⟨⟨r, hr, hf⟩, ⟨r', hr', hl⟩⟩

theorem StepOf.row {step : Features × Features} {os : List Obj} {batch : List (Document × Sentence)}
    (h : StepOf lower float zero other sp seen ps docs step os batch) {i : Nat} {p : Document × Sentence}
    (hi : batch[i]? = some p) : ∃ o, os[i]? = some o ∧ StandsFor docs o p := by
  have := get_of_forall₂ h.stand i
  rw [hi] at this
  cases ho : os[i]? with
  | none => rw [ho] at this; cases this
  | some o =>
    rw [ho] at this
    cases this with
    | some h => exact ⟨o, rfl, h⟩

theorem StepOf.items {step : Features × Features} {os : List Obj} {batch : List (Document × Sentence)}
    (h : StepOf lower float zero other sp seen ps docs step os batch) : ∀ o ∈ os, o.items ≠ [] := by
  intro o ho
  obtain ⟨p, _, hp⟩ := forall₂_mem_left h.stand ho
  obtain ⟨off, rfl, _⟩ := hp.tokens
  exact sentenceObj_items off p.2

theorem feed_row (hn : 0 < n) (h : trainingFeed lower float zero other sp seen ps n docs = .ok steps) {b i : Nat}
    {d : Document} {s : Sentence} (hrow : TrainingRow n docs b i d s) : ∃ step os batch, steps[b]? = some step ∧
    StepOf lower float zero other sp seen ps docs step os batch ∧ batch[i]? = some (d, s) := by
  obtain ⟨hi, hg⟩ := hrow
  have hc := minibatches_chunks (n : Int) (datasetSentences docs)
  have hmax : (max (n : Int) 1).toNat = n := by omega
  rw [hmax] at hc
  have hg2 := hc.get b i hi
  rw [datasetSentences, hg] at hg2
  have hsteps := get_of_forall₂ (feed_steps h) b
  cases hb : (minibatches n (datasetSentences docs))[b]? with
  | none =>
    rw [datasetSentences] at hb
    rw [hb] at hg2
    cases hg2
  | some batch =>
    rw [hb] at hsteps
    rw [datasetSentences] at hb
    rw [hb] at hg2
    cases hst : steps[b]? with
    | none => rw [hst] at hsteps; cases hsteps
    | some step =>
      rw [hst] at hsteps
      cases hsteps with
      | some hso =>
        obtain ⟨os, hso⟩ := hso
        exact ⟨step, os, batch, rfl, hso, hg2.symm⟩

/-- The features of a training step, and those of its sentences. -/
theorem step_features {step : Features × Features} {os : List Obj} {batch : List (Document × Sentence)}
    (h : StepOf lower float zero other keepAll seen ps docs step os batch) {i : Nat} {d : Document} {s : Sentence}
    (hi : batch[i]? = some (d, s)) (hd : Built d) :
    ∃ f, predictSentence lower float zero other seen ps .ok d s = .ok f ∧ RowFeatures step.1 i f := by
  obtain ⟨o, ho, hso⟩ := h.row hi
  obtain ⟨r, hr, hf⟩ := h.features
  obtain ⟨hs, rfl, hsame⟩ := hso.same hd other
  obtain ⟨r', hr', e1, _⟩ := assemble_same hsame hr
  obtain ⟨f, l, x, y, hmf, hl, hx, hy, rfl⟩ := assemble_ok.1 hr
  obtain ⟨D', hD', hrel⟩ := batch_row (specYields_leaf Provider.featureSpec) (specYields_det Provider.featureSpec) hx
    h.nonempty (feature_peopled hmf h.items) hf ho
  simp only [hD'] at e1
  refine ⟨D', ?_, fun k => ?_⟩
  · unfold predictSentence
    rw [hr']
    simp only [sentenceBatch, ← e1]
  · refine optRel_imp ?_ (hrel k)
    rintro v v' ⟨ws, ty, id, us, u, _, _, _, hu, hp, hp'⟩
    obtain ⟨h1, h2⟩ := pad_row hp hu hp'
    exact ⟨padValue_rows hp', h1, h2⟩

/-- The labels of a training step, and those of its sentences. -/
theorem step_labels {step : Features × Features} {os : List Obj} {batch : List (Document × Sentence)}
    (h : StepOf lower float zero other sp seen ps docs step os batch) {i : Nat} {d : Document} {s : Sentence}
    (hi : batch[i]? = some (d, s)) (hd : Built d) :
    ∃ (r : Assembled F) (D : Features), assemble lower float zero (docTok other d) keepAll seen ps = .ok r ∧
      r.labels (sentenceBatch s) = .ok D ∧ RowLabels step.2 i (s.stop - s.start) D := by
  obtain ⟨o, ho, hso⟩ := h.row hi
  obtain ⟨r, hr, hf⟩ := h.labels
  obtain ⟨hs, rfl, hsame⟩ := hso.same hd other
  obtain ⟨r', hr', _, e2⟩ := assemble_same hsame hr
  obtain ⟨f, l, x, y, hmf, hl, hx, hy, rfl⟩ := assemble_ok.1 hr
  obtain ⟨D', hD', hrel⟩ := batch_row (specYields_leaf Provider.labelSpec) (specYields_det Provider.labelSpec) hy
    h.nonempty (fun ws ty id hm => ⟨[.iter], label_peopled hl h.items ws ty id hm⟩) hf ho
  simp only [hD'] at e2
  refine ⟨r', D', hr', e2.symm, fun k => ?_⟩
  refine optRel_imp ?_ (hrel k)
  rintro v v' ⟨ws, ty, id, us, u, hm, hk, hus, hu, hp, hp'⟩
  obtain ⟨hws, _⟩ := label_peopled hl h.items _ ty id hm
  simp only [List.cons.injEq, true_and] at hws
  subst hws
  obtain ⟨p, q, hpp, hq, _, _⟩ := merged_leaves label_mk hl hm
  -- the rows
  have hbuild : ∃ m, ∀ o v, SpecYields lower float zero (datasetTok other docs) seen Provider.labelSpec ps id o v →
      ∃ ids, v = idsFeat ids ∧ ids.length = m := by
    by_cases hex : ∃ z, buildSpec lower float zero (datasetTok other docs) seen Provider.labelSpec ps id = .ok z
    · obtain ⟨z, hz⟩ := hex
      obtain ⟨p2, q2, hp2, hq2, hz2⟩ := buildSpec_ok.1 hz
      obtain ⟨m, hm2⟩ := label_width hq2 hz2
      refine ⟨m, ?_⟩
      rintro o v ⟨z', hz', hzv⟩
      rw [hz] at hz'
      injection hz' with hz'
      subst hz'
      rw [specName_eq hp2 hq2] at hzv
      exact hm2 o v hzv
    · exact ⟨0, fun o v ⟨z, hz, _⟩ => absurd ⟨z, hz⟩ hex⟩
  obtain ⟨m, hm2⟩ := hbuild
  have hrows : ∀ (o : Obj) (u : Feat), Exact keepAll k
      (SpecYields lower float zero (datasetTok other docs) seen Provider.labelSpec ps id) [.iter] o u →
      ∃ rows : List (List Int), u = .list (rows.map idsFeat) ∧ (∀ r ∈ rows, r.length = m) ∧
        rows.length = o.items.length := by
    rintro o u ⟨vs, rfl, hvs⟩
    generalize o.items = items at hvs
    induction hvs with
    | nil => exact ⟨[], rfl, by simp, rfl⟩
    | @cons a v _ _ h1 _ ih =>
      obtain ⟨rows, e, h2, h3⟩ := ih
      obtain ⟨ids, rfl, h4⟩ := hm2 a v h1
      injection e with e
      refine ⟨ids :: rows, by simp [e], ?_, by simp [h3]⟩
      intro r hr
      rcases List.mem_cons.1 hr with rfl | hr
      · exact h4
      · exact h2 r hr
  have hex := get_of_forall₂ hus i
  rw [ho, hu] at hex
  cases hex with
  | some hex =>
    obtain ⟨rows, rfl, h2, h3⟩ := hrows _ _ hex
    have hlen : rows.length = s.stop - s.start := by
      rw [h3]
      simp only [Obj.items, List.length_map]
      have := hsame.length_eq
      simpa using this
    rw [pad_sentence rows m h2] at hp'
    injection hp' with hp'
    subst hp'
    rw [← hlen]
    refine pad_rowWords (m := m) (fun u hu2 => ?_) hp hu
    obtain ⟨o2, _, ho2⟩ := forall₂_mem_right hus hu2
    obtain ⟨rows2, e, h4, _⟩ := hrows o2 u ho2
    exact ⟨rows2, e, h4⟩

end

end Verif
