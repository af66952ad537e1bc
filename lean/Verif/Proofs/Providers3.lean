import Verif.Proofs.Providers2

/-! # Proofs about assembled extractors: initializers, leaves of the providers -/

namespace Verif

variable {F : Type}

/-! ### initializers of built builders -/

/-- A dictionary of an initializer (`shapes()` or `initial_values()`). -/
structure InitPart (F V : Type) where
  get : BuiltX F → Res (Dict Str V)
  ext : ∀ x e, get { x with extract := e } = get x
  empty : ∀ e, get ⟨e, .ok Dict.empty, .ok Dict.empty⟩ = .ok Dict.empty
  comp : ∀ e (xs : List (BuiltX F)), get ⟨e, mergeInit (xs.map BuiltX.shapes), mergeInit (xs.map BuiltX.initial)⟩ =
    mergeInit (xs.map get)

def shapesPart : InitPart F Shape := ⟨BuiltX.shapes, fun _ _ => rfl, fun _ => rfl, fun _ _ => rfl⟩
def initialPart : InitPart F (InitRows F) :=
  ⟨BuiltX.initial, fun _ _ => rfl, fun _ => rfl, fun _ _ => rfl⟩

/-- The dictionaries of the leaves. -/
def leafDicts {V : Type} (sd : Nat → Dict Str V) (L : List (List Wrapper × Option (Nat × Nat))) :
    List (Dict Str V) :=
  L.filterMap (fun l => l.2.map (fun p => sd p.2))

theorem leafDicts_wrap {V : Type} (sd : Nat → Dict Str V) (w : Wrapper)
    (L : List (List Wrapper × Option (Nat × Nat))) :
    leafDicts sd (L.map (fun x => (w :: x.1, x.2))) = leafDicts sd L := by
  simp [leafDicts, List.filterMap_map, Function.comp_def]

theorem leafDicts_append {V : Type} (sd : Nat → Dict Str V)
    (L M : List (List Wrapper × Option (Nat × Nat))) :
    leafDicts sd (L ++ M) = leafDicts sd L ++ leafDicts sd M := by
  simp [leafDicts]

/-- Merging a single initializer or several. -/
theorem compBuilt_init {V : Type} (pt : InitPart F V) {xs : List (BuiltX F)} {x : BuiltX F}
    (h : compBuilt xs = .ok x) {dss : List (List (Dict Str V))}
    (hm : List.Forall₂ (fun x ds => Merged (pt.get x) ds) xs dss) : Merged (pt.get x) dss.flatten := by
  match xs, h, hm with
  | [y], h, .cons h1 .nil =>
    simp only [compBuilt, Except.ok.injEq] at h
    subst h
    simpa using h1
  | y :: z :: r, h, hm =>
    simp only [compBuilt, Except.ok.injEq] at h
    subst h
    rw [pt.comp]
    apply Merged.flatten
    rw [List.forall₂_map_left_iff]
    exact hm

mutual
theorem build_init {V : Type} (pt : InitPart F V) {lf : Nat → Res (BuiltX F)} {sp : Sparsify}
    {sd : Nat → Dict Str V} : ∀ (b : Builder) (x : BuiltX F), b.build lf sp = .ok x →
    (∀ ws ty id, (ws, some (ty, id)) ∈ b.leaves → ∀ x, lf id = .ok x → pt.get x = .ok (sd id)) →
    Merged (pt.get x) (leafDicts sd b.leaves)
  | .padding b, x, hb, hlf => by
    simp only [Builder.build] at hb
    split at hb
    · simp at hb
    · rename_i y hy
      injection hb with hb
      subst hb
      rw [pt.ext, Builder.leaves, leafDicts_wrap]
      exact build_init pt b y hy (fun ws ty id hm => hlf _ ty id (List.mem_map.2 ⟨_, hm, rfl⟩))
  | .sparse b, x, hb, hlf => by
    simp only [Builder.build] at hb
    split at hb
    · simp at hb
    · rename_i y hy
      injection hb with hb
      subst hb
      rw [pt.ext, Builder.leaves, leafDicts_wrap]
      exact build_init pt b y hy (fun ws ty id hm => hlf _ ty id (List.mem_map.2 ⟨_, hm, rfl⟩))
  | .iter b, x, hb, hlf => by
    simp only [Builder.build] at hb
    split at hb
    · simp at hb
    · rename_i y hy
      injection hb with hb
      subst hb
      rw [pt.ext, Builder.leaves, leafDicts_wrap]
      exact build_init pt b y hy (fun ws ty id hm => hlf _ ty id (List.mem_map.2 ⟨_, hm, rfl⟩))
  | .comp l, x, hb, hlf => by
    simp only [Builder.build] at hb
    split at hb
    · simp at hb
    · rename_i xs hxs
      have h := build_initL pt l xs hxs hlf
      have h2 := compBuilt_init pt hb h
      rw [Builder.leaves, leavesL_eq]
      have e : (l.map (fun b => leafDicts sd b.leaves)).flatten =
          leafDicts sd (l.flatMap Builder.leaves) := by
        clear * -
        induction l with
        | nil => rfl
        | cons b l ih => simp [leafDicts_append, ih]
      rw [← e]
      exact h2
  | .empty, x, hb, hlf => by
    simp only [Builder.build, Except.ok.injEq] at hb
    subst hb
    rw [pt.empty]
    exact Merged.none
  | .leaf ty id, x, hb, hlf => by
    rw [hlf [] ty id (by simp [Builder.leaves]) x hb]
    exact Merged.single _
theorem build_initL {V : Type} (pt : InitPart F V) {lf : Nat → Res (BuiltX F)} {sp : Sparsify}
    {sd : Nat → Dict Str V} : ∀ (l : List Builder) (xs : List (BuiltX F)),
    Builder.buildL lf sp l = .ok xs →
    (∀ ws ty id, (ws, some (ty, id)) ∈ Builder.leavesL l → ∀ x, lf id = .ok x →
      pt.get x = .ok (sd id)) →
    List.Forall₂ (fun x ds => Merged (pt.get x) ds) xs (l.map (fun b => leafDicts sd b.leaves))
  | [], xs, hb, hlf => by
    simp only [Builder.buildL, Except.ok.injEq] at hb
    subst hb
    exact .nil
  | b :: bs, xs, hb, hlf => by
    simp only [Builder.buildL] at hb
    split at hb
    · simp at hb
    · rename_i z hz
      split at hb
      · simp at hb
      · rename_i zs hzs
        injection hb with hb
        subst hb
        exact .cons
          (build_init pt b z hz (fun ws ty id hm => hlf ws ty id (List.mem_append_left _ hm)))
          (build_initL pt bs zs hzs (fun ws ty id hm => hlf ws ty id (List.mem_append_right _ hm)))
end

mutual
/-- All leaves of a built builder were built. -/
theorem build_leaves {lf : Nat → Res (BuiltX F)} {sp : Sparsify} : ∀ (b : Builder) (x : BuiltX F),
    b.build lf sp = .ok x → ∀ ws ty id, (ws, some (ty, id)) ∈ b.leaves → ∃ y, lf id = .ok y
  | .padding b, x, hb, ws, ty, id, hm => by
    simp only [Builder.build] at hb
    split at hb
    · simp at hb
    · rename_i y hy
      simp only [Builder.leaves, List.mem_map, Prod.mk.injEq] at hm
      obtain ⟨⟨ws', s⟩, hm, rfl, rfl⟩ := hm
      exact build_leaves b y hy ws' ty id hm
  | .sparse b, x, hb, ws, ty, id, hm => by
    simp only [Builder.build] at hb
    split at hb
    · simp at hb
    · rename_i y hy
      simp only [Builder.leaves, List.mem_map, Prod.mk.injEq] at hm
      obtain ⟨⟨ws', s⟩, hm, rfl, rfl⟩ := hm
      exact build_leaves b y hy ws' ty id hm
  | .iter b, x, hb, ws, ty, id, hm => by
    simp only [Builder.build] at hb
    split at hb
    · simp at hb
    · rename_i y hy
      simp only [Builder.leaves, List.mem_map, Prod.mk.injEq] at hm
      obtain ⟨⟨ws', s⟩, hm, rfl, rfl⟩ := hm
      exact build_leaves b y hy ws' ty id hm
  | .comp l, x, hb, ws, ty, id, hm => by
    simp only [Builder.build] at hb
    split at hb
    · simp at hb
    · rename_i xs hxs
      exact build_leavesL l xs hxs ws ty id hm
  | .empty, x, hb, ws, ty, id, hm => by simp [Builder.leaves] at hm
  | .leaf ty' id', x, hb, ws, ty, id, hm => by
    simp only [Builder.leaves, List.mem_singleton, Prod.mk.injEq, Option.some.injEq] at hm
    obtain ⟨rfl, rfl, rfl⟩ := hm
    exact ⟨x, hb⟩
theorem build_leavesL {lf : Nat → Res (BuiltX F)} {sp : Sparsify} : ∀ (l : List Builder)
    (xs : List (BuiltX F)), Builder.buildL lf sp l = .ok xs → ∀ ws ty id,
    (ws, some (ty, id)) ∈ Builder.leavesL l → ∃ y, lf id = .ok y
  | [], xs, hb, ws, ty, id, hm => by simp [Builder.leavesL] at hm
  | b :: bs, xs, hb, ws, ty, id, hm => by
    simp only [Builder.buildL] at hb
    split at hb
    · simp at hb
    · rename_i z hz
      split at hb
      · simp at hb
      · rename_i zs hzs
        rcases List.mem_append.1 hm with hm | hm
        · exact build_leaves b z hz ws ty id hm
        · exact build_leavesL bs zs hzs ws ty id hm
end

theorem Merged.perm {V : Type} {r : Res (Dict Str V)} {ds es : List (Dict Str V)} (h : Merged r ds)
    (hp : ds.Perm es) : Merged r es := by
  have hd : DisjointKeys ds ↔ DisjointKeys es :=
    hp.pairwise_iff (fun {a b} h k hk hk' => h k hk' hk)
  refine ⟨fun he => ?_, fun he => h.2 (fun hx => he (hd.1 hx))⟩
  obtain ⟨D, h1, h2⟩ := h.1 (hd.2 he)
  refine ⟨D, h1, fun k v => (h2 k v).trans ?_⟩
  simp only [hp.mem_iff]

theorem leafDicts_some {V : Type} (sd : Nat → Dict Str V) (L : List (List Wrapper × Option (Nat × Nat))) :
    leafDicts sd (L.filter (fun x => x.2.isSome)) = leafDicts sd L := by
  induction L with
  | nil => rfl
  | cons l L ih =>
    simp only [List.filter_cons]
    cases h : l.2 with
    | none =>
      simp only [Option.isSome_none, Bool.false_eq_true, if_false, ih]
      simp [leafDicts, h]
    | some p =>
      simp only [Option.isSome_some, if_true, leafDicts, List.filterMap_cons, h, Option.map_some]
      rw [← leafDicts, ← leafDicts, ih]

/-! ### the leaves of the providers -/

theorem feature_leaves (id : Nat) (p : Provider) :
    (p.feature id).leaves = match p.featureSpec with
      | none => [([], none)]
      | some s => [((match p with
          | .sentLength _ => [.padding, .iter]
          | .lemmaRules _ _ _ => [.padding, .iter, .iter]
          | _ => [.padding, .iter, .iter, .sparse]), some (s.ty, id))] := by
  cases p <;> rfl

theorem label_leaves (id : Nat) (p : Provider) :
    (p.label id).leaves = match p.labelSpec with
      | none => [([], none)]
      | some s => [([.padding, .iter, .iter], some (s.ty, id))] := by
  cases p <;> rfl

/-- The proper leaves of a list of providers, from position `n` on. -/
theorem leafDicts_providers {V : Type} (sd : Nat → Dict Str V) (spec : Provider → Option LeafSpec)
    (mk : Nat → Provider → Builder)
    (hmk : ∀ id p, (spec p = none ∧ (mk id p).leaves = [([], none)]) ∨
      ∃ s ws, spec p = some s ∧ (mk id p).leaves = [(ws, some (s.ty, id))])
    (ps : List Provider) (n : Nat) :
    leafDicts sd (Builder.leavesL ((ps.zipIdx n).map (fun p => mk p.2 p.1))) =
      (ps.zipIdx n).filterMap (fun p => (spec p.1).map (fun _ => sd p.2)) := by
  induction ps generalizing n with
  | nil => rfl
  | cons p ps ih =>
    simp only [List.zipIdx_cons, List.map_cons, Builder.leavesL, leafDicts_append, ih,
      List.filterMap_cons]
    rcases hmk n p with ⟨h1, h2⟩ | ⟨s, ws, h1, h2⟩
    · simp [h1, h2, leafDicts]
    · simp [h1, h2, leafDicts]

theorem mem_leaves_providers {spec : Provider → Option LeafSpec} {mk : Nat → Provider → Builder}
    (hmk : ∀ id p, (spec p = none ∧ (mk id p).leaves = [([], none)]) ∨
      ∃ s ws, spec p = some s ∧ (mk id p).leaves = [(ws, some (s.ty, id))])
    {ps : List Provider} {ws : List Wrapper} {ty id : Nat}
    (h : (ws, some (ty, id)) ∈ Builder.leavesL (ps.zipIdx.map (fun p => mk p.2 p.1))) :
    ∃ p s, ps[id]? = some p ∧ spec p = some s ∧ ty = s.ty ∧
      (mk id p).leaves = [(ws, some (ty, id))] := by
  rw [leavesL_eq] at h
  obtain ⟨b, hb, hm⟩ := List.mem_flatMap.1 h
  obtain ⟨⟨p, i⟩, hp, rfl⟩ := List.mem_map.1 hb
  simp only at hm
  rcases hmk i p with ⟨_, h2⟩ | ⟨s, ws', h1, h2⟩
  · rw [h2] at hm
    simp at hm
  · rw [h2] at hm
    simp only [List.mem_singleton, Prod.mk.injEq, Option.some.injEq] at hm
    obtain ⟨rfl, rfl, rfl⟩ := hm
    exact ⟨p, s, by simpa [List.mem_zipIdx_iff_getElem?] using hp, h1, rfl, h2⟩

theorem feature_mk (id : Nat) (p : Provider) :
    (p.featureSpec = none ∧ (p.feature id).leaves = [([], none)]) ∨
      ∃ s ws, p.featureSpec = some s ∧ (p.feature id).leaves = [(ws, some (s.ty, id))] := by
  rw [feature_leaves]
  cases h : p.featureSpec with
  | none => exact Or.inl ⟨rfl, rfl⟩
  | some s => exact Or.inr ⟨s, _, rfl, rfl⟩

theorem label_mk (id : Nat) (p : Provider) :
    (p.labelSpec = none ∧ (p.label id).leaves = [([], none)]) ∨
      ∃ s ws, p.labelSpec = some s ∧ (p.label id).leaves = [(ws, some (s.ty, id))] := by
  rw [label_leaves]
  cases h : p.labelSpec with
  | none => exact Or.inl ⟨rfl, rfl⟩
  | some s => exact Or.inr ⟨s, _, rfl, rfl⟩

theorem filterMap_nodup_inj {α β : Type} {f : α → Option β} {l : List α} (h : (l.filterMap f).Nodup)
    {i j : Nat} {a b : α} {x : β} (hi : l[i]? = some a) (hj : l[j]? = some b) (ha : f a = some x)
    (hb : f b = some x) : i = j := by
  induction l generalizing i j with
  | nil => simp at hi
  | cons c l ih =>
    have hmem : ∀ (m : Nat) (d : α), l[m]? = some d → f d = some x → x ∈ l.filterMap f :=
      fun m d hd hf => List.mem_filterMap.2 ⟨d, List.mem_of_getElem? hd, hf⟩
    have htail : (l.filterMap f).Nodup := by
      rw [List.filterMap_cons] at h
      split at h
      · exact h
      · exact (List.nodup_cons.1 h).2
    cases i with
    | zero =>
      cases j with
      | zero => rfl
      | succ j =>
        simp only [List.getElem?_cons_zero, Option.some.injEq] at hi
        subst hi
        rw [List.filterMap_cons, ha] at h
        exact absurd (hmem j b (by simpa using hj) hb) (List.nodup_cons.1 h).1
    | succ i =>
      cases j with
      | zero =>
        simp only [List.getElem?_cons_zero, Option.some.injEq] at hj
        subst hj
        rw [List.filterMap_cons, hb] at h
        exact absurd (hmem i a (by simpa using hi) ha) (List.nodup_cons.1 h).1
      | succ j =>
        have e : i = j := ih htail (by simpa using hi) (by simpa using hj)
        rw [e]

end Verif
