import Verif.Proofs.Providers4

/-! # Proofs about assembled extractors: putting the parts together -/

namespace Verif

section
variable {F : Type} {lower : Str → Str} {float : Str → Res F} {zero : F} {tok : Nat → TextToken}
  {sp : Sparsify} {dataset : List Document} {seen : Seen} {ps : List Provider}

theorem datasetTokens_perm {d e : List Document} (h : d.Perm e) : (datasetTokens d).Perm (datasetTokens e) :=
  h.flatMap_right _

theorem posLabels_perm {d e : List Document} (h : d.Perm e) : (posLabels d).Perm (posLabels e) :=
  (datasetTokens_perm h).map _

theorem assemble_ok {r : Assembled F} :
    assemble lower float zero tok sp seen ps = .ok r ↔ ∃ f l x y,
      mergeBuilders (ps.zipIdx.map (fun p => Provider.feature p.2 p.1)) = .ok f ∧
      mergeBuilders (ps.zipIdx.map (fun p => Provider.label p.2 p.1)) = .ok l ∧
      f.build (buildSpec lower float zero tok seen Provider.featureSpec ps) sp = .ok x ∧
      l.build (buildSpec lower float zero tok seen Provider.labelSpec ps) sp = .ok y ∧
      r = ⟨x.extract, y.extract, mergeInit [x.shapes, y.shapes], mergeInit [x.initial, y.initial]⟩ := by
  unfold assemble mergedProviders providerBuilders
  simp only [Bool.false_eq_true, if_false]
  cases h1 : mergeBuilders (ps.zipIdx.map (fun p => Provider.feature p.2 p.1)) with
  | error e => simp
  | ok f =>
    cases h2 : mergeBuilders (ps.zipIdx.map (fun p => Provider.label p.2 p.1)) with
    | error e => simp
    | ok l =>
      simp only [Except.ok.injEq]
      cases h3 : f.build (buildSpec lower float zero tok seen Provider.featureSpec ps) sp with
      | error e =>
        constructor
        · intro h; simp at h
        · rintro ⟨f', l', x, y, rfl, rfl, hx, _⟩
          rw [h3] at hx
          simp at hx
      | ok x =>
        cases h4 : l.build (buildSpec lower float zero tok seen Provider.labelSpec ps) sp with
        | error e =>
          constructor
          · intro h; simp at h
          · rintro ⟨f', l', x, y, rfl, rfl, _, hy, _⟩
            rw [h4] at hy
            simp at hy
        | ok y =>
          constructor
          · intro h
            injection h with h
            exact ⟨f, l, x, y, rfl, rfl, h3, h4, h.symm⟩
          · rintro ⟨f', l', x', y', rfl, rfl, hx, hy, rfl⟩
            rw [h3] at hx
            rw [h4] at hy
            injection hx with hx
            injection hy with hy
            subst hx hy
            rfl

theorem buildSpec_ok {spec : Provider → Option LeafSpec} {id : Nat} {x : BuiltX F} :
    buildSpec lower float zero tok seen spec ps id = .ok x ↔
      ∃ p s, ps[id]? = some p ∧ spec p = some s ∧ s.build lower float zero tok (seen s) = .ok x := by
  unfold buildSpec
  cases h : ps[id]?.bind spec with
  | none =>
    simp only [reduceCtorEq, false_iff]
    rintro ⟨p, s, hp, hs, _⟩
    simp [hp, hs] at h
  | some s =>
    obtain ⟨p, hp, hs⟩ := Option.bind_eq_some_iff.1 h
    constructor
    · intro hx
      exact ⟨p, s, hp, hs, hx⟩
    · rintro ⟨p', s', hp', hs', hx⟩
      rw [hp] at hp'
      injection hp' with hp'
      subst hp'
      rw [hs] at hs'
      injection hs' with hs'
      subst hs'
      exact hx

theorem merged_leaves {spec : Provider → Option LeafSpec} {mk : Nat → Provider → Builder}
    (hmk : ∀ id p, (spec p = none ∧ (mk id p).leaves = [([], none)]) ∨
      ∃ s ws, spec p = some s ∧ (mk id p).leaves = [(ws, some (s.ty, id))])
    {b : Builder} (hb : mergeBuilders (ps.zipIdx.map (fun p => mk p.2 p.1)) = .ok b)
    {ws : List Wrapper} {ty id : Nat} (h : (ws, some (ty, id)) ∈ b.leaves) :
    ∃ p s, ps[id]? = some p ∧ spec p = some s ∧ ty = s.ty ∧
      (mk id p).leaves = [(ws, some (ty, id))] := by
  have hp := C39_leaves _ b hb
  have : (ws, some (ty, id)) ∈ b.leaves.filter (fun x => x.2.isSome) := by simp [h]
  have := hp.mem_iff.1 this
  exact mem_leaves_providers hmk (List.mem_filter.1 this).1

theorem leaves_merged {spec : Provider → Option LeafSpec} {mk : Nat → Provider → Builder}
    (hmk : ∀ id p, (spec p = none ∧ (mk id p).leaves = [([], none)]) ∨
      ∃ s ws, spec p = some s ∧ (mk id p).leaves = [(ws, some (s.ty, id))])
    {b : Builder} (hb : mergeBuilders (ps.zipIdx.map (fun p => mk p.2 p.1)) = .ok b)
    {id : Nat} {p : Provider} {s : LeafSpec} (hp : ps[id]? = some p) (hs : spec p = some s) :
    ∃ ws, (ws, some (s.ty, id)) ∈ b.leaves := by
  rcases hmk id p with ⟨h1, _⟩ | ⟨s', ws, h1, h2⟩
  · rw [hs] at h1; simp at h1
  · rw [hs] at h1
    injection h1 with h1
    subst h1
    refine ⟨ws, ?_⟩
    have hm : (ws, some (s.ty, id)) ∈ (Builder.leavesL (ps.zipIdx.map (fun p => mk p.2 p.1))).filter
        (fun x => x.2.isSome) := by
      rw [List.mem_filter, leavesL_eq]
      refine ⟨List.mem_flatMap.2 ⟨mk id p, List.mem_map.2 ⟨(p, id), ?_, rfl⟩, by simp [h2]⟩, rfl⟩
      exact List.mem_zipIdx_iff_getElem?.2 hp
    exact (List.mem_filter.1 ((C39_leaves _ b hb).mem_iff.2 hm)).1

/-- The name of the leaf with this identity. -/
def specName (spec : Provider → Option LeafSpec) (ps : List Provider) (id : Nat) : Str :=
  ((ps[id]?.bind spec).map LeafSpec.name).getD []

theorem specName_eq {spec : Provider → Option LeafSpec} {id : Nat} {p : Provider} {s : LeafSpec}
    (hp : ps[id]? = some p) (hs : spec p = some s) : specName spec ps id = s.name := by
  simp [specName, hp, hs]

/-- Every value of an assembled extractor comes from a provider with this name. -/
theorem assembled_origin {spec : Provider → Option LeafSpec} {mk : Nat → Provider → Builder}
    (hmk : ∀ id p, (spec p = none ∧ (mk id p).leaves = [([], none)]) ∨
      ∃ s ws, spec p = some s ∧ (mk id p).leaves = [(ws, some (s.ty, id))])
    {b : Builder} (hb : mergeBuilders (ps.zipIdx.map (fun p => mk p.2 p.1)) = .ok b)
    {x : BuiltX F} (hx : b.build (buildSpec lower float zero tok seen spec ps) sp = .ok x)
    (hsp : OnlySparsifies sp)
    (hnames : (ps.filterMap (fun p => (spec p).map LeafSpec.name)).Nodup)
    {o : Obj} {D : Features} (hD : x.extract o = .ok D) {k : Str} {v : Feat}
    (hv : D.get? k = some v) :
    ∃ id p s ws y, ps[id]? = some p ∧ spec p = some s ∧ (mk id p).leaves = [(ws, some (s.ty, id))] ∧
      s.name = k ∧ s.build lower float zero tok (seen s) = .ok y ∧
      Form (fun o v => y.extract o = .ok (Dict.ofList [(s.name, v)])) ws o v := by
  have hyields : LeafYields (buildSpec lower float zero tok seen spec ps) (specName spec ps)
      (fun id o v => ∃ y, buildSpec lower float zero tok seen spec ps id = .ok y ∧
        y.extract o = .ok (Dict.ofList [(specName spec ps id, v)])) := by
    intro id y o D hy hD
    obtain ⟨p, s, hp, hs, hb⟩ := buildSpec_ok.1 hy
    obtain ⟨v, hv⟩ := leaf_yields hb hD
    have e := specName_eq hp hs
    exact ⟨v, by rw [e]; exact hv, y, hy, by rw [hD, hv, e]⟩
  have hdis : NamesDistinct (specName spec ps) b.leaves := by
    intro ws ty id ws' ty' id' h1 h2 hn
    obtain ⟨p, s, hp, hs, ht, hl⟩ := merged_leaves hmk hb h1
    obtain ⟨p', s', hp', hs', ht', hl'⟩ := merged_leaves hmk hb h2
    rw [specName_eq hp hs, specName_eq hp' hs'] at hn
    have : id = id' := filterMap_nodup_inj hnames hp hp' (x := s.name) (by simp [hs])
      (by simp [hs', hn])
    subst this
    rw [hp] at hp'
    injection hp' with hp'
    subst hp'
    rw [hl] at hl'
    simpa using hl'
  obtain ⟨ws, ty, id, hm, hk, hf⟩ := origin hyields hsp b x hx hdis o D k v hD hv
  obtain ⟨p, s, hp, hs, ht, hl⟩ := merged_leaves hmk hb hm
  subst ht
  obtain ⟨y, hy⟩ := build_leaves b x hx ws s.ty id hm
  obtain ⟨p', s', hp', hs', hyb⟩ := buildSpec_ok.1 hy
  rw [hp] at hp'
  injection hp' with hp'
  subst hp'
  rw [hs] at hs'
  injection hs' with hs'
  subst hs'
  refine ⟨id, p, s, ws, y, hp, hs, hl, ?_, hyb, ?_⟩
  · rw [← hk, specName_eq hp hs]
  · have e : (fun o v => ∃ y, buildSpec lower float zero tok seen spec ps id = .ok y ∧
        y.extract o = .ok (Dict.ofList [(specName spec ps id, v)])) =
        (fun o v => y.extract o = .ok (Dict.ofList [(s.name, v)])) := by
      funext o v
      rw [specName_eq hp hs, hy]
      simp
    rw [← e]
    exact hf

/-! ### initializers -/

theorem specs_dicts {V : Type} {R : LeafSpec → Dict Str V → Prop} (sd : Nat → Dict Str V)
    (spec : Provider → Option LeafSpec) (ps : List Provider) (n : Nat)
    (h : ∀ (i : Nat) p s, ps[i]? = some p → spec p = some s → R s (sd (n + i))) :
    List.Forall₂ R (ps.filterMap spec)
      ((ps.zipIdx n).filterMap (fun p => (spec p.1).map (fun _ => sd p.2))) := by
  induction ps generalizing n with
  | nil => exact .nil
  | cons p ps ih =>
    have hrest := ih (n + 1) (fun i q s hq hs => by
      have := h (i + 1) q s (by simpa using hq) hs
      rwa [show n + (i + 1) = n + 1 + i by omega] at this)
    rw [List.zipIdx_cons, List.filterMap_cons, List.filterMap_cons]
    cases hs : spec p with
    | none => simpa [hs] using hrest
    | some s =>
      simp only [Option.map_some]
      exact .cons (by simpa using h 0 p s (by simp) hs) hrest

/-- The dictionary of a leaf. -/
def leafInit {V : Type} (pt : InitPart F V) (r : Res (BuiltX F)) : Dict Str V :=
  match r with
  | .error _ => Dict.empty
  | .ok y => match pt.get y with
    | .error _ => Dict.empty
    | .ok d => d

theorem side_merged {V : Type} (pt : InitPart F V) {spec : Provider → Option LeafSpec}
    {mk : Nat → Provider → Builder}
    (hmk : ∀ id p, (spec p = none ∧ (mk id p).leaves = [([], none)]) ∨
      ∃ s ws, spec p = some s ∧ (mk id p).leaves = [(ws, some (s.ty, id))])
    {b : Builder} (hb : mergeBuilders (ps.zipIdx.map (fun p => mk p.2 p.1)) = .ok b)
    {x : BuiltX F} (hx : b.build (buildSpec lower float zero tok seen spec ps) sp = .ok x)
    (hok : ∀ p ∈ ps, ∀ s, spec p = some s → ∀ y, s.build lower float zero tok (seen s) = .ok y →
      ∃ d, pt.get y = .ok d) :
    ∃ ds, List.Forall₂ (fun s d => ∃ y, s.build lower float zero tok (seen s) = .ok y ∧
        pt.get y = .ok d) (ps.filterMap spec) ds ∧ Merged (pt.get x) ds := by
  have hinit : ∀ id y, buildSpec lower float zero tok seen spec ps id = .ok y →
      pt.get y = .ok (leafInit pt (buildSpec lower float zero tok seen spec ps id)) := by
    intro id y hy
    obtain ⟨p, s, hp, hs, hyb⟩ := buildSpec_ok.1 hy
    obtain ⟨d, hd⟩ := hok p (List.mem_of_getElem? hp) s hs y hyb
    simp [leafInit, hy, hd]
  refine ⟨_, specs_dicts (fun id => leafInit pt (buildSpec lower float zero tok seen spec ps id))
    spec ps 0 ?_, ?_⟩
  · intro i p s hp hs
    obtain ⟨ws, hm⟩ := leaves_merged hmk hb hp hs
    obtain ⟨y, hy⟩ := build_leaves b x hx ws s.ty i hm
    have hyi := hinit i y hy
    obtain ⟨p', s', hp', hs', hyb⟩ := buildSpec_ok.1 hy
    rw [hp] at hp'
    injection hp' with hp'
    subst hp'
    rw [hs] at hs'
    injection hs' with hs'
    subst hs'
    rw [Nat.zero_add]
    exact ⟨y, hyb, hyi⟩
  · rw [← leafDicts_providers
      (fun id => leafInit pt (buildSpec lower float zero tok seen spec ps id)) spec mk hmk ps 0]
    have h1 := build_init pt (sd := fun id => leafInit pt
      (buildSpec lower float zero tok seen spec ps id)) b x hx (fun ws ty id _ y hy => hinit id y hy)
    refine h1.perm ?_
    rw [← leafDicts_some, ← leafDicts_some (L := Builder.leavesL _)]
    exact (C39_leaves _ b hb).filterMap _

theorem assembled_merged {V : Type} (pt : InitPart F V) {f l : Builder} {x y : BuiltX F}
    (hf : mergeBuilders (ps.zipIdx.map (fun p => Provider.feature p.2 p.1)) = .ok f)
    (hl : mergeBuilders (ps.zipIdx.map (fun p => Provider.label p.2 p.1)) = .ok l)
    (hx : f.build (buildSpec lower float zero tok seen Provider.featureSpec ps) sp = .ok x)
    (hy : l.build (buildSpec lower float zero tok seen Provider.labelSpec ps) sp = .ok y)
    (hok : ∀ s ∈ leafSpecs ps, ∀ y, s.build lower float zero tok (seen s) = .ok y →
      ∃ d, pt.get y = .ok d) :
    ∃ ds, List.Forall₂ (fun s d => ∃ y, s.build lower float zero tok (seen s) = .ok y ∧
        pt.get y = .ok d) (leafSpecs ps) ds ∧ Merged (mergeInit [pt.get x, pt.get y]) ds := by
  obtain ⟨ds, h1, h2⟩ := side_merged pt (mk := fun id p => p.feature id) feature_mk hf hx
    (fun p hp s hs => hok s (List.mem_append_left _ (List.mem_filterMap.2 ⟨p, hp, hs⟩)))
  obtain ⟨es, h3, h4⟩ := side_merged pt (mk := fun id p => p.label id) label_mk hl hy
    (fun p hp s hs => hok s (List.mem_append_right _ (List.mem_filterMap.2 ⟨p, hp, hs⟩)))
  refine ⟨ds ++ es, List.rel_append h1 h3, ?_⟩
  have := Merged.flatten (List.Forall₂.cons h2 (List.Forall₂.cons h4 List.Forall₂.nil))
  simpa using this

theorem leaf_shapes {s : LeafSpec} {y : BuiltX F}
    (h : s.build lower float zero tok dataset = .ok y) :
    ∃ d, y.shapes = .ok d ∧ ∀ k, k ∈ d.keys ↔ s.announces = some k := by
  have hk : ∀ (n k : Str) (sh : Shape), k ∈ (Dict.ofList [(n, sh)]).keys ↔ some n = some k := by
    intro n k sh
    rw [Dict.keys, Dict.ofList_entries _ (by simp)]
    simp [eq_comm]
  cases s <;> simp only [LeafSpec.build] at h
  case sentLength n =>
    injection h with h
    subst h
    exact ⟨_, rfl, fun k => by simp [Dict.keys, Dict.empty, LeafSpec.announces]⟩
  case trainable | subwords =>
    injection h with h
    subst h
    exact ⟨_, rfl, fun k => hk _ k _⟩
  case posDict =>
    split at h
    · simp at h
    · split at h
      · simp at h
      · injection h with h
        subst h
        exact ⟨_, rfl, fun k => hk _ k _⟩
  all_goals
    split at h
    · simp at h
    · injection h with h
      subst h
      exact ⟨_, rfl, fun k => hk _ k _⟩

/-- Dictionaries with at most one key each are disjoint exactly if the keys are distinct. -/
theorem disjoint_iff_nodup {V : Type} {α : Type} {g : α → Option Str} {ss : List α}
    {ds : List (Dict Str V)} (h : List.Forall₂ (fun s d => ∀ k, k ∈ d.keys ↔ g s = some k) ss ds) :
    DisjointKeys ds ↔ (ss.filterMap g).Nodup := by
  induction h with
  | nil => simp [DisjointKeys]
  | @cons s d ss ds h1 h2 ih =>
    unfold DisjointKeys at ih ⊢
    rw [List.pairwise_cons, ih, List.filterMap_cons]
    cases hg : g s with
    | none =>
      simp only [and_iff_right_iff_imp]
      intro _ e _ k hk
      rw [h1 k, hg] at hk
      simp at hk
    | some n =>
      simp only [List.nodup_cons]
      refine and_congr ?_ Iff.rfl
      constructor
      · intro hall hn
        obtain ⟨s', hs', hg'⟩ := List.mem_filterMap.1 hn
        obtain ⟨e, he, hse⟩ := forall₂_mem_left h2 hs'
        exact hall e he n ((h1 n).2 hg) ((hse n).2 hg')
      · intro hn e he k hk hk'
        rw [h1 k, hg] at hk
        injection hk with hk
        subst hk
        obtain ⟨s', hs', hse⟩ := forall₂_mem_right h2 he
        exact hn (List.mem_filterMap.2 ⟨s', hs', (hse n).1 hk'⟩)

mutual
/-- A builder whose leaves can be built can be built. -/
theorem build_total {lf : Nat → Res (BuiltX F)} {sp : Sparsify} : ∀ (b : Builder), b.WellFormed →
    (∀ ws ty id, (ws, some (ty, id)) ∈ b.leaves → ∃ y, lf id = .ok y) → ∃ x, b.build lf sp = .ok x
  | .padding b, hw, h => by
    obtain ⟨x, hx⟩ := build_total (sp := sp) b hw
      (fun ws ty id hm => h (.padding :: ws) ty id (List.mem_map.2 ⟨_, hm, rfl⟩))
    exact ⟨_, by simp only [Builder.build, hx]; rfl⟩
  | .sparse b, hw, h => by
    obtain ⟨x, hx⟩ := build_total (sp := sp) b hw
      (fun ws ty id hm => h (.sparse :: ws) ty id (List.mem_map.2 ⟨_, hm, rfl⟩))
    exact ⟨_, by simp only [Builder.build, hx]; rfl⟩
  | .iter b, hw, h => by
    obtain ⟨x, hx⟩ := build_total (sp := sp) b hw
      (fun ws ty id hm => h (.iter :: ws) ty id (List.mem_map.2 ⟨_, hm, rfl⟩))
    exact ⟨_, by simp only [Builder.build, hx]; rfl⟩
  | .comp l, hw, h => by
    obtain ⟨xs, hxs, hlen⟩ := build_totalL (sp := sp) l hw.2 h
    have hne := hw.1
    match xs, hxs, hlen with
    | [], hxs, hlen =>
      cases l with
      | nil => exact absurd rfl hne
      | cons b l => simp at hlen
    | [x], hxs, _ => exact ⟨x, by simp only [Builder.build, hxs, compBuilt]⟩
    | x :: y :: r, hxs, _ => exact ⟨_, by simp only [Builder.build, hxs, compBuilt]; rfl⟩
  | .empty, _, _ => ⟨_, rfl⟩
  | .leaf ty id, _, h => h [] ty id (by simp [Builder.leaves])
theorem build_totalL {lf : Nat → Res (BuiltX F)} {sp : Sparsify} : ∀ (l : List Builder),
    Builder.WellFormedL l →
    (∀ ws ty id, (ws, some (ty, id)) ∈ Builder.leavesL l → ∃ y, lf id = .ok y) →
    ∃ xs, Builder.buildL lf sp l = .ok xs ∧ xs.length = l.length
  | [], _, _ => ⟨[], rfl, rfl⟩
  | b :: bs, hw, h => by
    obtain ⟨x, hx⟩ := build_total (sp := sp) b hw.1 (fun ws ty id hm => h ws ty id (List.mem_append_left _ hm))
    obtain ⟨xs, hxs, hlen⟩ := build_totalL (sp := sp) bs hw.2
      (fun ws ty id hm => h ws ty id (List.mem_append_right _ hm))
    exact ⟨x :: xs, by simp only [Builder.buildL, hx, hxs], by simp [hlen]⟩
end

mutual
/-- If the initializer gives a dictionary, so do those of the leaves. -/
theorem build_init_ok {V : Type} (pt : InitPart F V) {lf : Nat → Res (BuiltX F)} {sp : Sparsify} :
    ∀ (b : Builder) (x : BuiltX F), b.build lf sp = .ok x → ∀ D, pt.get x = .ok D →
    ∀ ws ty id, (ws, some (ty, id)) ∈ b.leaves → ∀ y, lf id = .ok y → ∃ d, pt.get y = .ok d
  | .padding b, x, hb, D, hD, ws, ty, id, hm, y, hy => by
    simp only [Builder.build] at hb
    split at hb
    · simp at hb
    · rename_i z hz
      injection hb with hb
      subst hb
      rw [pt.ext] at hD
      simp only [Builder.leaves, List.mem_map, Prod.mk.injEq] at hm
      obtain ⟨⟨ws', s⟩, hm, rfl, rfl⟩ := hm
      exact build_init_ok pt b z hz D hD ws' ty id hm y hy
  | .sparse b, x, hb, D, hD, ws, ty, id, hm, y, hy => by
    simp only [Builder.build] at hb
    split at hb
    · simp at hb
    · rename_i z hz
      injection hb with hb
      subst hb
      rw [pt.ext] at hD
      simp only [Builder.leaves, List.mem_map, Prod.mk.injEq] at hm
      obtain ⟨⟨ws', s⟩, hm, rfl, rfl⟩ := hm
      exact build_init_ok pt b z hz D hD ws' ty id hm y hy
  | .iter b, x, hb, D, hD, ws, ty, id, hm, y, hy => by
    simp only [Builder.build] at hb
    split at hb
    · simp at hb
    · rename_i z hz
      injection hb with hb
      subst hb
      rw [pt.ext] at hD
      simp only [Builder.leaves, List.mem_map, Prod.mk.injEq] at hm
      obtain ⟨⟨ws', s⟩, hm, rfl, rfl⟩ := hm
      exact build_init_ok pt b z hz D hD ws' ty id hm y hy
  | .comp l, x, hb, D, hD, ws, ty, id, hm, y, hy => by
    simp only [Builder.build] at hb
    split at hb
    · simp at hb
    · rename_i xs hxs
      refine build_init_okL pt l xs hxs ?_ ws ty id hm y hy
      match xs, hb with
      | [z], hb =>
        simp only [compBuilt, Except.ok.injEq] at hb
        subst hb
        intro z' hz'
        rw [List.mem_singleton] at hz'
        subst hz'
        exact ⟨D, hD⟩
      | z :: w :: r, hb =>
        simp only [compBuilt, Except.ok.injEq] at hb
        subst hb
        rw [pt.comp] at hD
        unfold mergeInit at hD
        split at hD
        · simp at hD
        · rename_i ds hds
          rw [mapM'_ok_iff, List.forall₂_map_left_iff] at hds
          intro z' hz'
          obtain ⟨d, _, hd⟩ := forall₂_mem_left hds hz'
          exact ⟨d, hd⟩
  | .empty, x, hb, D, hD, ws, ty, id, hm, y, hy => by simp [Builder.leaves] at hm
  | .leaf ty' id', x, hb, D, hD, ws, ty, id, hm, y, hy => by
    simp only [Builder.leaves, List.mem_singleton, Prod.mk.injEq, Option.some.injEq] at hm
    obtain ⟨rfl, rfl, rfl⟩ := hm
    simp only [Builder.build] at hb
    rw [hy] at hb
    injection hb with hb
    subst hb
    exact ⟨D, hD⟩
theorem build_init_okL {V : Type} (pt : InitPart F V) {lf : Nat → Res (BuiltX F)} {sp : Sparsify} :
    ∀ (l : List Builder) (xs : List (BuiltX F)), Builder.buildL lf sp l = .ok xs →
    (∀ x ∈ xs, ∃ D, pt.get x = .ok D) →
    ∀ ws ty id, (ws, some (ty, id)) ∈ Builder.leavesL l → ∀ y, lf id = .ok y → ∃ d, pt.get y = .ok d
  | [], xs, hb, hD, ws, ty, id, hm, y, hy => by simp [Builder.leavesL] at hm
  | b :: bs, xs, hb, hD, ws, ty, id, hm, y, hy => by
    simp only [Builder.buildL] at hb
    split at hb
    · simp at hb
    · rename_i z hz
      split at hb
      · simp at hb
      · rename_i zs hzs
        injection hb with hb
        subst hb
        rcases List.mem_append.1 hm with hm | hm
        · obtain ⟨D, hD⟩ := hD z (by simp)
          exact build_init_ok pt b z hz D hD ws ty id hm y hy
        · exact build_init_okL pt bs zs hzs (fun x hx => hD x (List.mem_cons_of_mem _ hx)) ws ty id hm y
            hy
end

/-- What a leaf announces is announced. -/
theorem shape_of {r : Assembled F} (h : assemble lower float zero tok sp seen ps = .ok r)
    {S : Dict Str Shape} (hS : r.shapes = .ok S) {s : LeafSpec} (hs : s ∈ leafSpecs ps) {y : BuiltX F}
    (hy : s.build lower float zero tok (seen s) = .ok y) {d : Dict Str Shape} (hd : y.shapes = .ok d)
    {k : Str} {sh : Shape} (hk : d.get? k = some sh) : S.get? k = some sh := by
  obtain ⟨f, l, x, x', hf, hl, hx, hx', rfl⟩ := assemble_ok.1 h
  obtain ⟨ds, h1, h2⟩ := assembled_merged (shapesPart (F := F)) hf hl hx hx'
    (fun s _ y hy => (leaf_shapes hy).imp (fun d h => h.1))
  have hdis : DisjointKeys ds := by
    by_contra hc
    have := h2.2 hc
    rw [show mergeInit [shapesPart.get x, shapesPart.get x'] = .ok S from hS] at this
    simp at this
  obtain ⟨D, hD, hu⟩ := h2.1 hdis
  rw [show mergeInit [shapesPart.get x, shapesPart.get x'] = .ok S from hS] at hD
  injection hD with hD
  subst hD
  obtain ⟨d', hd', y', hy', hyd⟩ := forall₂_mem_left h1 hs
  rw [hy] at hy'
  injection hy' with hy'
  subst hy'
  rw [show shapesPart.get y = .ok d from hd] at hyd
  injection hyd with hyd
  subst hyd
  exact (hu k sh).2 ⟨d, hd', hk⟩

theorem pad_flat (l : List Int) : padValue (.list (l.map Feat.int)) = .ok (.list (l.map Feat.int)) := by
  unfold padValue
  simp only [padSequence]
  rw [if_pos (by simp [List.all_eq_true, Feat.isList])]

end

end Verif
