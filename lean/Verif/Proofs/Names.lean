import Verif.Proofs.Providers5
import Verif.Props.Features

/-! # Lemmas: names of features that are used twice are noticed -/

namespace Verif

section
variable {F : Type} {lower : Str → Str} {float : Str → Res F} {zero : F} {tok : Nat → TextToken}
  {sp : Sparsify} {dataset : List Document} {seen : Seen} {ps : List Provider}

/-- There is something at each of the levels below the object. -/
def Levels : Nat → Obj → Prop
  | 0, _ => True
  | n + 1, o => o.items ≠ [] ∧ ∀ x ∈ o.items, Levels n x

/-- The number of levels a leaf is below the object. -/
def levelsOf (ws : List Wrapper) : Nat := ws.countP (fun w => match w with | .iter => true | _ => false)

/-- The names of the leaves. -/
def namesOf (nm : Nat → Str) (l : List (List Wrapper × Option (Nat × Nat))) : List Str :=
  l.filterMap (fun x => x.2.map (fun q => nm q.2))

theorem namesOf_map {nm : Nat → Str} {l : List (List Wrapper × Option (Nat × Nat))} {g : List Wrapper → List Wrapper} :
    namesOf nm (l.map (fun x => (g x.1, x.2))) = namesOf nm l := by
  unfold namesOf
  rw [List.filterMap_map]
  rfl

theorem namesOf_append {nm : Nat → Str} {l m : List (List Wrapper × Option (Nat × Nat))} :
    namesOf nm (l ++ m) = namesOf nm l ++ namesOf nm m := List.filterMap_append

theorem sparseAt_keys {x : Extractor} {o : Obj} {D : Features} (h : sparseAt sp x o = .ok D) :
    ∃ d, x o = .ok d ∧ ∀ k, k ∈ D.keys ↔ k ∈ d.keys := by
  unfold sparseAt at h
  split at h
  · cases h
  · rename_i d hd
    split at h
    · cases h
    · rename_i l hl
      injection h with h
      subst h
      refine ⟨d, hd, fun k => ?_⟩
      rw [mapM'_ok_iff] at hl
      have hk : l.map Prod.fst = d.keys := by
        unfold Dict.keys
        generalize d.entries = es at hl
        induction hl with
        | nil => rfl
        | @cons a b es l h1 _ ih =>
          rw [List.map_cons, List.map_cons, ih]
          split at h1
          · cases h1
          · injection h1 with h1
            rw [← h1]
      have hn : (l.map Prod.fst).Nodup := hk ▸ d.nodup
      rw [← hk]
      unfold Dict.keys
      rw [Dict.ofList_entries _ hn]

mutual
theorem build_names {lf : Nat → Res (BuiltX F)} {nm : Nat → Str}
    (hleaf : ∀ id y, lf id = .ok y → ∀ o D, y.extract o = .ok D → ∀ k, k ∈ D.keys ↔ k = nm id) :
    ∀ (b : Builder) (x : BuiltX F), b.build lf sp = .ok x → ∀ (o : Obj) (D : Features), x.extract o = .ok D →
      (∀ ws q, (ws, some q) ∈ b.leaves → Levels (levelsOf ws) o) →
      (namesOf nm b.leaves).Nodup ∧ ∀ k, k ∈ D.keys ↔ k ∈ namesOf nm b.leaves
  | .padding b, x, h, o, D, hD, hl => by
    simp only [Builder.build] at h
    split at h
    · cases h
    · rename_i y hy
      injection h with h
      subst h
      rw [padX_eq, valX_ok] at hD
      obtain ⟨d, h1, h2⟩ := hD
      have ih := build_names hleaf b y hy o d h1 (by
        intro ws q hq
        have := hl (.padding :: ws) q (by
          simp only [Builder.leaves, List.mem_map]
          exact ⟨_, hq, rfl⟩)
        simpa [levelsOf] using this)
      have hk : D.keys = d.keys := by
        unfold Dict.keys
        generalize d.entries = a at h2
        generalize D.entries = b at h2
        induction h2 with
        | nil => rfl
        | cons h _ ih => rw [List.map_cons, List.map_cons, ih, h.1]
      simp only [Builder.leaves, namesOf_map]
      rw [hk]
      exact ih
  | .sparse b, x, h, o, D, hD, hl => by
    simp only [Builder.build] at h
    split at h
    · cases h
    · rename_i y hy
      injection h with h
      subst h
      obtain ⟨d, h1, h2⟩ := sparseAt_keys hD
      have ih := build_names hleaf b y hy o d h1 (by
        intro ws q hq
        have := hl (.sparse :: ws) q (by
          simp only [Builder.leaves, List.mem_map]
          exact ⟨_, hq, rfl⟩)
        simpa [levelsOf] using this)
      simp only [Builder.leaves, namesOf_map]
      exact ⟨ih.1, fun k => (h2 k).trans (ih.2 k)⟩
  | .iter b, x, h, o, D, hD, hl => by
    simp only [Builder.build] at h
    split at h
    · cases h
    · rename_i y hy
      injection h with h
      subst h
      obtain ⟨ds, h1, rfl⟩ := iterX_ok.1 hD
      rw [mapM'_ok_iff] at h1
      have hl' : ∀ ws q, (ws, some q) ∈ b.leaves → o.items ≠ [] ∧ ∀ x ∈ o.items, Levels (levelsOf ws) x := by
        intro ws q hq
        have := hl (.iter :: ws) q (by
          simp only [Builder.leaves, List.mem_map]
          exact ⟨_, hq, rfl⟩)
        have e : levelsOf (.iter :: ws) = levelsOf ws + 1 := by simp [levelsOf]
        rw [e] at this
        exact this
      have ih : ∀ o' d, o' ∈ o.items → y.extract o' = .ok d → (namesOf nm b.leaves).Nodup ∧
          ∀ k, k ∈ d.keys ↔ k ∈ namesOf nm b.leaves := fun o' d ho' hd =>
        build_names hleaf b y hy o' d hd (fun ws q hq => (hl' ws q hq).2 o' ho')
      simp only [Builder.leaves, namesOf_map]
      cases hitems : o.items with
      | nil =>
        have hnone : namesOf nm b.leaves = [] := by
          rw [List.eq_nil_iff_forall_not_mem]
          intro k hk
          obtain ⟨⟨ws, q⟩, hq, hqk⟩ := List.mem_filterMap.1 hk
          cases q with
          | none => cases hqk
          | some q => exact (hl' ws q hq).1 hitems
        rw [hnone]
        refine ⟨List.nodup_nil, fun k => ?_⟩
        rw [iterX_keys]
        rw [hitems] at h1
        cases h1
        simp
      | cons o' os =>
        have h1' := h1
        rw [hitems] at h1
        cases h1 with
        | @cons _ d _ ds h2 h3 =>
          have h4 := ih o' d (by rw [hitems]; simp) h2
          refine ⟨h4.1, fun k => ?_⟩
          rw [iterX_keys]
          constructor
          · rintro ⟨e, he, hk⟩
            obtain ⟨o'', ho'', h5⟩ := forall₂_mem_right h1' he
            exact ((ih o'' e ho'' h5).2 k).1 hk
          · intro hk
            exact ⟨d, by simp, (h4.2 k).2 hk⟩
  | .comp l, x, h, o, D, hD, hl => by
    simp only [Builder.build] at h
    split at h
    · cases h
    · rename_i xs hxs
      have hc : compX (xs.map BuiltX.extract) o = .ok D := by
        match xs, h with
        | [], h => cases h
        | [y], h =>
          injection h with h
          subst h
          rw [List.map_cons, List.map_nil, compX_one]
          exact hD
        | y :: z :: rest, h =>
          injection h with h
          subst h
          exact hD
      simp only [Builder.leaves]
      exact build_namesL hleaf l xs hxs o D hc hl
  | .empty, x, h, o, D, hD, hl => by
    injection h with h
    subst h
    injection hD with hD
    subst hD
    simp [Builder.leaves, namesOf, Dict.empty, Dict.keys]
  | .leaf ty id, x, h, o, D, hD, hl => by
    simp only [Builder.build] at h
    have := hleaf id x h o D hD
    simpa [Builder.leaves, namesOf] using this
theorem build_namesL {lf : Nat → Res (BuiltX F)} {nm : Nat → Str}
    (hleaf : ∀ id y, lf id = .ok y → ∀ o D, y.extract o = .ok D → ∀ k, k ∈ D.keys ↔ k = nm id) :
    ∀ (l : List Builder) (xs : List (BuiltX F)), Builder.buildL lf sp l = .ok xs → ∀ (o : Obj) (D : Features),
      compX (xs.map BuiltX.extract) o = .ok D →
      (∀ ws q, (ws, some q) ∈ Builder.leavesL l → Levels (levelsOf ws) o) →
      (namesOf nm (Builder.leavesL l)).Nodup ∧ ∀ k, k ∈ D.keys ↔ k ∈ namesOf nm (Builder.leavesL l)
  | [], xs, h, o, D, hD, hl => by
    injection h with h
    subst h
    rw [List.map_nil, compX_nil] at hD
    injection hD with hD
    subst hD
    simp [Builder.leavesL, namesOf, Dict.empty, Dict.keys]
  | b :: bs, xs, h, o, D, hD, hl => by
    simp only [Builder.buildL] at h
    split at h
    · cases h
    · rename_i y hy
      split at h
      · cases h
      · rename_i ys hys
        injection h with h
        subst h
        rw [List.map_cons] at hD
        obtain ⟨D1, D2, h1, h2, h3, h4⟩ := compX_cons.1 hD
        have ih1 := build_names hleaf b y hy o D1 h1 (fun ws q hq => hl ws q (by
          simp only [Builder.leavesL]; exact List.mem_append_left _ hq))
        have ih2 := build_namesL hleaf bs ys hys o D2 h2 (fun ws q hq => hl ws q (by
          simp only [Builder.leavesL]; exact List.mem_append_right _ hq))
        simp only [Builder.leavesL, namesOf_append]
        refine ⟨List.Nodup.append ih1.1 ih2.1 ?_, fun k => ?_⟩
        · intro k hk1 hk2
          exact h3 k ((ih1.2 k).2 hk1) ((ih2.2 k).2 hk2)
        · unfold Dict.keys
          rw [h4, List.map_append, List.mem_append, List.mem_append, ← ih1.2 k, ← ih2.2 k]
          rfl
end

theorem leaf_keys {s : LeafSpec} {y : BuiltX F} (hy : s.build lower float zero tok dataset = .ok y) {o : Obj}
    {D : Features} (hD : y.extract o = .ok D) (k : Str) : k ∈ D.keys ↔ k = s.name := by
  have key : ∀ v, k ∈ (Dict.ofList [(s.name, v)] : Features).keys ↔ k = s.name := by
    intro v
    rw [← Dict.get?_isSome, Option.isSome_iff_exists]
    constructor
    · rintro ⟨w, hw⟩
      exact ((get?_single ..).1 hw).1
    · rintro rfl
      exact ⟨v, (get?_single ..).2 ⟨rfl, rfl⟩⟩
  have tk : ∀ get, tokenX tok s.name get o = .ok D → (k ∈ D.keys ↔ k = s.name) := by
    intro get h
    obtain ⟨n, os⟩ := o
    simp only [tokenX] at h
    split at h
    · cases h
    · injection h with h
      subst h
      exact key _
  cases s <;> simp only [LeafSpec.build] at hy <;> simp only [LeafSpec.name] at tk key ⊢
  case sentLength n =>
    injection hy with hy
    subst hy
    injection hD with hD
    subst hD
    exact key _
  case trainable =>
    injection hy with hy
    subst hy
    simp only [constInit, embInit] at hD
    exact tk _ hD
  case subwords =>
    injection hy with hy
    subst hy
    simp only [constInit, embInit] at hD
    exact tk _ hD
  case posDict =>
    split at hy
    · cases hy
    · split at hy
      · cases hy
      · injection hy with hy
        subst hy
        simp only [constInit, embInit] at hD
        exact tk _ hD
  all_goals
    split at hy
    · cases hy
    · injection hy with hy
      subst hy
      simp only [constInit, embInit] at hD
      exact tk _ hD

theorem leavesL_map {α : Type} (f : α → Builder) : ∀ l : List α, Builder.leavesL (l.map f) = l.flatMap (fun a => (f a).leaves)
  | [] => rfl
  | a :: l => by rw [List.map_cons, Builder.leavesL, leavesL_map f l, List.flatMap_cons]

theorem namesOf_filter {nm : Nat → Str} (l : List (List Wrapper × Option (Nat × Nat))) :
    namesOf nm (l.filter (fun x => x.2.isSome)) = namesOf nm l := by
  unfold namesOf
  induction l with
  | nil => rfl
  | cons x l ih =>
    obtain ⟨ws, q⟩ := x
    cases q with
    | none => simpa using ih
    | some q => simpa using ih

/-- If a batch has features, no two are called alike, and these are the features there are. -/
theorem assembled_names {spec : Provider → Option LeafSpec} {mk : Nat → Provider → Builder}
    (hmk : ∀ id p, (spec p = none ∧ (mk id p).leaves = [([], none)]) ∨
      ∃ s ws, spec p = some s ∧ (mk id p).leaves = [(ws, some (s.ty, id))] ∧ levelsOf ws ≤ 2)
    {b : Builder} {x : BuiltX F} (hb : mergeBuilders (ps.zipIdx.map (fun p => mk p.2 p.1)) = .ok b)
    (hx : b.build (buildSpec lower float zero tok seen spec ps) sp = .ok x) {n : Nat} {os : List Obj} (hos : os ≠ [])
    (hitems : ∀ o ∈ os, o.items ≠ []) {D : Features} (hD : x.extract (.mk n os) = .ok D) :
    (ps.filterMap (fun p => (spec p).map LeafSpec.name)).Nodup ∧
      ∀ k, k ∈ D.keys ↔ k ∈ ps.filterMap (fun p => (spec p).map LeafSpec.name) := by
  have hperm := C39_leaves _ _ hb
  have hlev : ∀ ws q, (ws, some q) ∈ b.leaves → Levels (levelsOf ws) (.mk n os) := by
    intro ws q hq
    have hq' := hperm.mem_iff.1 (List.mem_filter.2 ⟨hq, rfl⟩)
    have hq' := (List.mem_filter.1 hq').1
    rw [leavesL_map, List.mem_flatMap] at hq'
    obtain ⟨⟨p, id⟩, _, hm⟩ := hq'
    rcases hmk id p with ⟨_, h2⟩ | ⟨s, ws', _, h2, h3⟩
    · simp only [h2, List.mem_singleton, Prod.mk.injEq, reduceCtorEq, and_false] at hm
    · simp only [h2, List.mem_singleton, Prod.mk.injEq] at hm
      rw [hm.1]
      revert h3
      generalize levelsOf ws' = m
      intro h3
      match m, h3 with
      | 0, _ => trivial
      | 1, _ => exact ⟨hos, fun _ _ => trivial⟩
      | 2, _ => exact ⟨hos, fun o ho => ⟨hitems o ho, fun _ _ => trivial⟩⟩
  have hn := build_names (nm := fun id => ((ps[id]?.bind spec).map LeafSpec.name).getD [])
    (fun id y hy o D hD k => by
      unfold buildSpec at hy
      cases hs : ps[id]?.bind spec with
      | none => rw [hs] at hy; cases hy
      | some s =>
        rw [hs] at hy
        exact leaf_keys hy hD k) b x hx _ D hD hlev
  have hnames : (namesOf (fun id => ((ps[id]?.bind spec).map LeafSpec.name).getD []) b.leaves).Perm
      (ps.filterMap (fun p => (spec p).map LeafSpec.name)) := by
    rw [← namesOf_filter]
    refine (hperm.filterMap _).trans (.of_eq ?_)
    have e := namesOf_filter (nm := fun id => ((ps[id]?.bind spec).map LeafSpec.name).getD [])
      (Builder.leavesL (ps.zipIdx.map (fun p => mk p.2 p.1)))
    unfold namesOf at e
    rw [e, leavesL_map, List.filterMap_flatMap]
    conv_rhs => rw [← List.zipIdx_map_fst 0 ps, List.filterMap_map, List.filterMap_eq_flatMap_toList]
    refine List.flatMap_congr (fun q hq => ?_)
    obtain ⟨p, id⟩ := q
    have hp : ps[id]? = some p := (List.mk_mem_zipIdx_iff_getElem? ..).1 hq
    rcases hmk id p with ⟨h1, h2⟩ | ⟨s, ws', h1, h2, _⟩
    · simp [h1, h2]
    · simp [h1, h2, hp]
  exact ⟨hnames.nodup_iff.1 hn.1, fun k => (hn.2 k).trans hnames.mem_iff⟩

theorem feature_levels (id : Nat) (p : Provider) :
    (p.featureSpec = none ∧ (p.feature id).leaves = [([], none)]) ∨
      ∃ s ws, p.featureSpec = some s ∧ (p.feature id).leaves = [(ws, some (s.ty, id))] ∧ levelsOf ws ≤ 2 := by
  rw [feature_leaves]
  cases p <;> first
    | exact Or.inl ⟨rfl, rfl⟩
    | exact Or.inr ⟨_, _, rfl, rfl, by simp [levelsOf]⟩

theorem label_levels (id : Nat) (p : Provider) :
    (p.labelSpec = none ∧ (p.label id).leaves = [([], none)]) ∨
      ∃ s ws, p.labelSpec = some s ∧ (p.label id).leaves = [(ws, some (s.ty, id))] ∧ levelsOf ws ≤ 2 := by
  rw [label_leaves]
  cases p <;> first
    | exact Or.inl ⟨rfl, rfl⟩
    | exact Or.inr ⟨_, _, rfl, rfl, by simp [levelsOf]⟩

end
end Verif
