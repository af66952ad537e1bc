import Verif.Props.Interpreters
import Verif.Proofs.Feeding
import Verif.Spec.Total

/-! # Lemmas: tagging never fails -/

namespace Verif

section
variable {F : Type} {lower : Str → Str} {float : Str → Res F} {zero : F} {tok : Nat → TextToken}
  {sp : Sparsify} {dataset : List Document} {seen : Seen} {ps : List Provider}

/-! ### What is built without sparsification -/

/-- The extractor of a leaf. -/
def leafX (lf : Nat → Res (BuiltX F)) (_ty id : Nat) : Extractor :=
  match lf id with
  | .error e => fun _ => .error e
  | .ok y => y.extract

mutual
theorem build_extractor {lf : Nat → Res (BuiltX F)} : ∀ (b : Builder) (x : BuiltX F), b.build lf keepAll = .ok x →
    x.extract = b.extractor (leafX lf) .ok
  | .padding b, x, h => by
    simp only [Builder.build] at h
    split at h
    · cases h
    · rename_i y hy
      injection h with h
      subst h
      simp only [Builder.extractor, build_extractor b y hy]
  | .sparse b, x, h => by
    simp only [Builder.build] at h
    split at h
    · cases h
    · rename_i y hy
      injection h with h
      subst h
      simp only [Builder.extractor, build_extractor b y hy]
      rfl
  | .iter b, x, h => by
    simp only [Builder.build] at h
    split at h
    · cases h
    · rename_i y hy
      injection h with h
      subst h
      simp only [Builder.extractor, build_extractor b y hy]
  | .comp l, x, h => by
    simp only [Builder.build] at h
    split at h
    · cases h
    · rename_i xs hxs
      simp only [Builder.extractor, ← build_extractorL l xs hxs]
      match xs, h with
      | [], h => cases h
      | [y], h => injection h with h; subst h; rfl
      | y :: z :: rest, h => injection h with h; subst h; rfl
  | .empty, x, h => by
    injection h with h
    subst h
    rfl
  | .leaf ty id, x, h => by
    simp only [Builder.build] at h
    simp only [Builder.extractor, leafX, h]
theorem build_extractorL {lf : Nat → Res (BuiltX F)} : ∀ (l : List Builder) (xs : List (BuiltX F)),
    Builder.buildL lf keepAll l = .ok xs → xs.map BuiltX.extract = Builder.extractorL (leafX lf) .ok l
  | [], xs, h => by
    injection h with h
    subst h
    rfl
  | b :: bs, xs, h => by
    simp only [Builder.buildL] at h
    split at h
    · cases h
    · rename_i y hy
      split at h
      · cases h
      · rename_i ys hys
        injection h with h
        subst h
        simp only [List.map_cons, Builder.extractorL, build_extractor b y hy, build_extractorL bs ys hys]
end

/-! ### Extractors of a single feature -/

/-- The dictionary has this entry only. -/
def Only (D : Features) (n : Str) (v : Feat) : Prop := ∀ k, D.get? k = if k = n then some v else none

theorem only_single (n : Str) (v : Feat) : Only (Dict.ofList [(n, v)]) n v := by
  intro k
  split
  · rename_i h
    subst h
    exact (get?_single ..).2 ⟨rfl, rfl⟩
  · rename_i h
    cases hk : (Dict.ofList [(n, v)]).get? k with
    | none => rfl
    | some w => exact absurd ((get?_single ..).1 hk).1 (by first | exact h | exact fun e => h e.symm)

theorem only_keys {D : Features} {n : Str} {v : Feat} (h : Only D n v) (k : Str) : k ∈ D.keys ↔ k = n := by
  rw [← Dict.get?_isSome, h k]
  split <;> simp_all

theorem iter_only {x : Extractor} {n : Str} {f : Obj → Feat} {ob : Obj} (hne : ob.items ≠ [])
    (h : ∀ o ∈ ob.items, ∃ D, x o = .ok D ∧ Only D n (f o)) :
    ∃ D, iterX x ob = .ok D ∧ Only D n (.list (ob.items.map f)) := by
  have hds : ∀ l : List Obj, (∀ o ∈ l, ∃ D, x o = .ok D ∧ Only D n (f o)) →
      ∃ ds, mapM' x l = .ok ds ∧ List.Forall₂ (fun o D => Only D n (f o)) l ds := by
    intro l
    induction l with
    | nil => exact fun _ => ⟨[], rfl, .nil⟩
    | cons o l ih =>
      intro h
      obtain ⟨D, h1, h2⟩ := h o (by simp)
      obtain ⟨ds, h3, h4⟩ := ih (fun o ho => h o (by simp [ho]))
      exact ⟨D :: ds, mapM'_cons_ok.2 ⟨D, ds, h1, h3, rfl⟩, .cons h2 h4⟩
  obtain ⟨ds, h1, h2⟩ := hds _ h
  refine ⟨_, iterX_ok.2 ⟨ds, h1, rfl⟩, fun k => ?_⟩
  rw [iterX_get]
  by_cases hk : k = n
  · subst hk
    rw [if_pos rfl, if_pos]
    · congr 2
      clear h1 h hne
      revert h2
      generalize ob.items = l
      intro h2
      induction h2 with
      | nil => rfl
      | @cons o D l ds h _ ih =>
        rw [List.filterMap_cons, h k, if_pos rfl, List.map_cons, ih]
    · obtain ⟨o, l, ho⟩ := List.exists_cons_of_ne_nil hne
      rw [ho] at h2
      cases h2 with
      | @cons _ D _ ds h3 _ => exact ⟨D, by simp, (only_keys h3 k).2 rfl⟩
  · rw [if_neg hk, if_neg]
    rintro ⟨D, hD, hkD⟩
    obtain ⟨o, _, h3⟩ := forall₂_mem_right h2 hD
    exact hk ((only_keys h3 k).1 hkD)

theorem val_only {f : Feat → Res Feat} {x : Extractor} {o : Obj} {n : Str} {v w : Feat} {D : Features}
    (h : x o = .ok D) (hD : Only D n v) (hf : f v = .ok w) : ∃ D', valX f x o = .ok D' ∧ Only D' n w := by
  have hall : ∀ p ∈ D.entries, f p.2 = .ok w ∧ p.1 = n := by
    intro p hp
    have hg := Dict.get?_mem.2 (show (p.1, p.2) ∈ D.entries from hp)
    rw [hD p.1] at hg
    split at hg
    · rename_i hn
      injection hg with hg
      subst hg
      exact ⟨hf, hn⟩
    · cases hg
  have hm : mapValues f D = .ok (D.entries.map (fun p => (p.1, w))) := by
    refine mapM'_pure (fun p hp => ?_)
    rw [(hall p hp).1]
  have hn : ((D.entries.map (fun p => (p.1, w))).map Prod.fst).Nodup := by
    simpa [Function.comp_def] using D.nodup
  refine ⟨Dict.ofList (D.entries.map (fun p => (p.1, w))), ?_, fun k => ?_⟩
  · simp only [valX, h, hm]
  · have hk : k ∈ D.keys ↔ k = n := only_keys hD k
    have hmem : ∀ u, (Dict.ofList (D.entries.map (fun p => (p.1, w)))).get? k = some u ↔ u = w ∧ k = n := by
      intro u
      rw [Dict.get?_mem, Dict.ofList_entries _ hn, ← hk, Dict.keys, List.mem_map, List.mem_map]
      constructor
      · rintro ⟨p, hp, e⟩
        injection e with e1 e2
        exact ⟨e2.symm, p, hp, e1⟩
      · rintro ⟨rfl, p, hp, e⟩
        exact ⟨p, hp, by rw [e]⟩
    split
    · rename_i hkn
      exact (hmem w).2 ⟨rfl, hkn⟩
    · rename_i hkn
      cases hc : (Dict.ofList (D.entries.map (fun p => (p.1, w)))).get? k with
      | none => rfl
      | some u => exact absurd ((hmem u).1 hc).2 hkn

/-! ### Uniform values -/

theorem uniform_list {l : List Feat} (h : ∀ a ∈ l, ∀ b ∈ l, ∀ k x y, a.AtDepth k x → b.AtDepth k y → x.isList = y.isList) :
    (Feat.list l).Uniform := by
  intro k x y hx hy
  cases k with
  | zero =>
    rw [Feat.atDepth_zero] at hx hy
    rw [hx, hy]
  | succ k =>
    rw [Feat.atDepth_succ] at hx hy
    obtain ⟨a, ha, hx⟩ := hx
    obtain ⟨b, hb, hy⟩ := hy
    exact h a ha b hb k x y hx hy

/-- The values have the same nesting. -/
def AlikeD (a b : Feat) : Prop := ∀ k x y, a.AtDepth k x → b.AtDepth k y → x.isList = y.isList

theorem alike_list {l m : List Feat} (h : ∀ a ∈ l, ∀ b ∈ m, AlikeD a b) : AlikeD (.list l) (.list m) := by
  intro k x y hx hy
  cases k with
  | zero =>
    rw [Feat.atDepth_zero] at hx hy
    rw [hx, hy]
    rfl
  | succ k =>
    rw [Feat.atDepth_succ] at hx hy
    obtain ⟨a, ha, hx⟩ := hx
    obtain ⟨b, hb, hy⟩ := hy
    exact h a ha b hb k x y hx hy

theorem alike_scalar {a b : Feat} (ha : a.isList = false) (hb : b.isList = false) : AlikeD a b := by
  intro k x y hx hy
  obtain ⟨p, hp, hx⟩ := hx
  obtain ⟨q, hq, hy⟩ := hy
  cases k with
  | zero =>
    have h1 : p = [] := List.length_eq_zero_iff.1 hp
    have h2 : q = [] := List.length_eq_zero_iff.1 hq
    subst h1 h2
    simp only [Feat.at, Option.some.injEq] at hx hy
    rw [← hx, ← hy, ha, hb]
  | succ k =>
    cases p with
    | nil => simp at hp
    | cons i p =>
      cases a <;> simp [Feat.at] at hx
      cases ha

/-! ### Features of providers -/

theorem alike_ids (a b : List Int) : AlikeD (idsFeat a) (idsFeat b) := by
  refine alike_list (fun x hx y hy => ?_)
  obtain ⟨i, _, rfl⟩ := List.mem_map.1 hx
  obtain ⟨j, _, rfl⟩ := List.mem_map.1 hy
  exact alike_scalar rfl rfl

theorem tokenX_total {n : Str} {get : TextToken → Res Feat} {g : TextToken → Feat} (h : ∀ t, get t = .ok (g t)) (o : Obj) :
    tokenX tok n get o = .ok (Dict.ofList [(n, g (tok o.handle))]) := by
  cases o with
  | mk id l => simp only [tokenX, h, Obj.handle]

theorem tokenX_ints {n : Str} (g : TextToken → Int) :
    ∃ f : Obj → Feat, (∀ o, tokenX tok n (fun t => .ok (.int (g t))) o = .ok (Dict.ofList [(n, f o)])) ∧
      ∀ o o', AlikeD (f o) (f o') :=
  ⟨fun o => .int (g (tok o.handle)), tokenX_total (g := fun t => .int (g t)) (fun _ => rfl),
    fun _ _ => alike_scalar rfl rfl⟩

theorem tokenX_ids {n : Str} (g : TextToken → List Int) :
    ∃ f : Obj → Feat, (∀ o, tokenX tok n (fun t => .ok (idsFeat (g t))) o = .ok (Dict.ofList [(n, f o)])) ∧
      ∀ o o', AlikeD (f o) (f o') :=
  ⟨fun o => idsFeat (g (tok o.handle)), tokenX_total (g := fun t => idsFeat (g t)) (fun _ => rfl),
    fun _ _ => alike_ids _ _⟩

/-- The features of words can be computed for every word, with the same nesting. -/
theorem feature_total {p : Provider} {s : LeafSpec} (hp : p.featureSpec = some s) (hn : ∀ f, p ≠ .sentLength f)
    {y : BuiltX F} (hy : s.build lower float zero tok dataset = .ok y) :
    ∃ f : Obj → Feat, (∀ o, y.extract o = .ok (Dict.ofList [(s.name, f o)])) ∧ ∀ o o', AlikeD (f o) (f o') := by
  cases p <;> simp only [Provider.featureSpec, reduceCtorEq, Option.some.injEq] at hp <;> subst hp <;>
    simp only [LeafSpec.build] at hy
  case sentLength f => exact absurd rfl (hn f)
  case wordEmb =>
    split at hy
    · cases hy
    · injection hy with hy
      subst hy
      simp only [embInit, constInit, LeafSpec.name]
      exact tokenX_ints (fun t => wordId lower _ _ t.1)
  case trainable =>
    injection hy with hy
    subst hy
    simp only [embInit, constInit, LeafSpec.name]
    exact tokenX_ints (fun t => wordId lower _ _ t.1)
  case subwordEmb =>
    split at hy
    · cases hy
    · injection hy with hy
      subst hy
      simp only [embInit, constInit, LeafSpec.name]
      exact tokenX_ids (fun t => subwordIds _ _ t.1)
  case subwords =>
    injection hy with hy
    subst hy
    simp only [embInit, constInit, LeafSpec.name]
    exact tokenX_ids (fun t => subwordIds _ _ t.1)
  case lemmaRules f l threshold =>
    split at hy
    · cases hy
    · rename_i table ht
      injection hy with hy
      subst hy
      have hm : ∀ t : TextToken, ∃ v, applicableRules lower table t.1 = .ok v := fun t => by
        obtain ⟨v, hv, _⟩ := C48_gold_not_masked lower threshold dataset table ht t.1
        exact ⟨v, hv⟩
      choose g hg using hm
      simp only [constInit, LeafSpec.name]
      refine ⟨fun o => .list ((g (tok o.handle)).map Feat.bool),
        tokenX_total (get := fun t => (applicableRules lower table t.1).map (fun l => .list (l.map Feat.bool)))
           (g := fun t => .list ((g t).map Feat.bool)) (fun t => by rw [hg t]; rfl), fun _ _ => ?_⟩
      refine alike_list (fun x hx y hy => ?_)
      obtain ⟨i, _, rfl⟩ := List.mem_map.1 hx
      obtain ⟨j, _, rfl⟩ := List.mem_map.1 hy
      exact alike_scalar rfl rfl

/-- The features of one provider for a batch of sentences with words. -/
theorem provider_features {p : Provider} {s : LeafSpec} (hp : p.featureSpec = some s) {id : Nat} {lf : Nat → Res (BuiltX F)}
    {y : BuiltX F} (hl : lf id = .ok y) (hy : s.build lower float zero tok dataset = .ok y) {n : Nat} {os : List Obj}
    (hos : os ≠ []) (hitems : ∀ o ∈ os, o.items ≠ []) :
    ∃ D v, (p.feature id).extractor (leafX lf) .ok (.mk n os) = .ok D ∧ Only D s.name v := by
  by_cases hn : ∃ f, p = .sentLength f
  · obtain ⟨f, rfl⟩ := hn
    simp only [Provider.featureSpec, Option.some.injEq] at hp
    subst hp
    simp only [LeafSpec.build] at hy
    injection hy with hy
    subst hy
    simp only [Provider.feature, wrapSentence, Builder.extractor, leafX, hl]
    obtain ⟨D, h1, h2⟩ := iter_only (x := fun o => .ok (Dict.ofList [(f, .int o.items.length)])) (n := f)
      (f := fun o => .int o.items.length) (ob := .mk n os) hos (fun o _ => ⟨_, rfl, only_single _ _⟩)
    obtain ⟨v, hv⟩ := padValue_total (u := .list (os.map (fun o => .int o.items.length))) rfl (uniform_list (by
      intro a ha b hb
      obtain ⟨_, _, rfl⟩ := List.mem_map.1 ha
      obtain ⟨_, _, rfl⟩ := List.mem_map.1 hb
      exact alike_scalar rfl rfl))
    obtain ⟨D', h3, h4⟩ := val_only h1 h2 hv
    exact ⟨D', v, h3, h4⟩
  · obtain ⟨f, hf, hal⟩ := feature_total hp (fun f e => hn ⟨f, e⟩) hy
    have hx : ∀ x : Extractor, (∀ o, ∃ D, x o = .ok D ∧ Only D s.name (f o)) →
        ∃ D v, padX (iterX (iterX x)) (.mk n os) = .ok D ∧ Only D s.name v := by
      intro x hx
      obtain ⟨D, h1, h2⟩ := iter_only (x := iterX x) (n := s.name) (f := fun o => .list (o.items.map f)) (ob := .mk n os)
        hos (fun o ho => iter_only (hitems o ho) (fun w _ => hx w))
      obtain ⟨v, hv⟩ := padValue_total (u := .list (os.map (fun o => .list (o.items.map f)))) rfl (uniform_list (by
        intro a ha b hb
        obtain ⟨o, _, rfl⟩ := List.mem_map.1 ha
        obtain ⟨o', _, rfl⟩ := List.mem_map.1 hb
        refine alike_list (fun x hx y hy => ?_)
        obtain ⟨w, _, rfl⟩ := List.mem_map.1 hx
        obtain ⟨w', _, rfl⟩ := List.mem_map.1 hy
        exact hal w w'))
      obtain ⟨D', h3, h4⟩ := val_only h1 h2 hv
      exact ⟨D', v, h3, h4⟩
    have hplain : ∀ o, ∃ D, leafX lf s.ty id o = .ok D ∧ Only D s.name (f o) := by
      intro o
      refine ⟨_, ?_, only_single _ _⟩
      simp only [leafX, hl]
      exact hf o
    have hsparse : ∀ o, ∃ D, sparseX .ok (leafX lf s.ty id) o = .ok D ∧ Only D s.name (f o) := by
      intro o
      obtain ⟨D, h1, h2⟩ := hplain o
      exact val_only h1 h2 rfl
    cases p <;> simp only [Provider.featureSpec, reduceCtorEq, Option.some.injEq] at hp <;> subst hp
    case sentLength f => exact absurd ⟨f, rfl⟩ hn
    case lemmaRules => exact hx _ hplain
    all_goals exact hx _ hsparse

/-- The features of all providers. -/
theorem features_total {f : Builder} {x : BuiltX F}
    (hf : mergeBuilders (ps.zipIdx.map (fun p => Provider.feature p.2 p.1)) = .ok f)
    (hx : f.build (buildSpec lower float zero tok seen Provider.featureSpec ps) keepAll = .ok x)
    (hn : (featureNames ps).Nodup) {n : Nat} {os : List Obj} (hos : os ≠ []) (hitems : ∀ o ∈ os, o.items ≠ []) :
    ∃ D, x.extract (.mk n os) = .ok D ∧ ∀ k, k ∈ D.keys ↔ k ∈ featureNames ps := by
  have hone : ∀ q ∈ ps.zipIdx, ∃ D, (Provider.feature q.2 q.1).extractor
      (leafX (buildSpec lower float zero tok seen Provider.featureSpec ps)) .ok (.mk n os) = .ok D ∧
      ∀ k, k ∈ D.keys ↔ q.1.featureSpec.map LeafSpec.name = some k := by
    rintro ⟨p, id⟩ hq
    have hp : ps[id]? = some p := (List.mk_mem_zipIdx_iff_getElem? ..).1 hq
    cases hs : p.featureSpec with
    | none =>
      refine ⟨Dict.empty, ?_, fun k => by simp [Dict.empty, Dict.keys]⟩
      cases p <;> simp [Provider.featureSpec] at hs <;> rfl
    | some s =>
      obtain ⟨ws, hm⟩ := leaves_merged (mk := fun id p => p.feature id) feature_mk hf hp hs
      obtain ⟨y, hy⟩ := build_leaves f x hx ws s.ty id hm
      have hyb : s.build lower float zero tok (seen s) = .ok y := by
        simpa only [buildSpec, hp, Option.bind_some, hs] using hy
      obtain ⟨D, v, h1, h2⟩ := provider_features hs hy hyb (n := n) hos hitems
      refine ⟨D, h1, fun k => (only_keys h2 k).trans ?_⟩
      simp [eq_comm]
  haveI : Inhabited Features := ⟨Dict.empty⟩
  choose! dof hd1 hd2 using hone
  have hds : List.Forall₂ (fun b d => Builder.extractor (leafX (buildSpec lower float zero tok seen Provider.featureSpec
      ps)) .ok b (.mk n os) = .ok d) (ps.zipIdx.map (fun p => Provider.feature p.2 p.1)) (ps.zipIdx.map dof) := by
    rw [List.forall₂_map_left_iff, List.forall₂_map_right_iff]
    exact List.forall₂_same.2 hd1
  have hks : List.Forall₂ (fun (q : Provider × Nat) (d : Features) => ∀ k, k ∈ d.keys ↔
      q.1.featureSpec.map LeafSpec.name = some k) ps.zipIdx (ps.zipIdx.map dof) := by
    rw [List.forall₂_map_right_iff]
    exact List.forall₂_same.2 hd2
  have hnm : ps.zipIdx.filterMap (fun q => q.1.featureSpec.map LeafSpec.name) = featureNames ps := by
    rw [featureNames]
    conv_rhs => rw [← List.zipIdx_map_fst 0 ps, List.filterMap_map]
    rfl
  obtain ⟨D, h1, h2⟩ := C39_union _ _ _ f hf (.mk n os) _ hds
    ((disjoint_iff_nodup (g := fun q : Provider × Nat => q.1.featureSpec.map LeafSpec.name) hks).2 (by rw [hnm]; exact hn))
  refine ⟨D, by rw [build_extractor f x hx]; exact h1, fun k => ?_⟩
  rw [← Dict.get?_isSome, Option.isSome_iff_exists, ← hnm, List.mem_filterMap]
  constructor
  · rintro ⟨v, hv⟩
    obtain ⟨d, hd, hdv⟩ := (h2 k v).1 hv
    obtain ⟨q, hq, rfl⟩ := List.mem_map.1 hd
    exact ⟨q, hq, (hd2 q hq k).1 (Dict.get?_isSome.1 (by rw [hdv]; rfl))⟩
  · rintro ⟨q, hq, hk⟩
    obtain ⟨v, hv⟩ := Option.isSome_iff_exists.1 (Dict.get?_isSome.2 ((hd2 q hq k).2 hk))
    exact ⟨v, (h2 k v).2 ⟨_, List.mem_map.2 ⟨q, hq, rfl⟩, hv⟩⟩

/-! ### Answers within the announced sizes -/

theorem allowed_inRange {p : Provider} {s : LeafSpec} {y : BuiltX F} {w : WordInterp} (hp : p.labelSpec = some s)
    (hy : s.build lower float zero tok dataset = .ok y) (hw : s.interp lower dataset = .ok (.word w)) :
    w.name = s.name ∧ w.Trained ∧ ∃ d sh, y.shapes = .ok d ∧ d.get? s.name = some sh ∧ ∀ ids, sh.Allows ids → w.InRange ids := by
  cases p <;> simp only [Provider.labelSpec, reduceCtorEq, Option.some.injEq] at hp <;> subst hp <;>
    simp only [LeafSpec.interp] at hw <;> simp only [LeafSpec.build] at hy
  case posDict lab splitting =>
    cases ht : buildPosTable splitting (posLabels dataset) with
    | error e => rw [ht] at hw; cases hw
    | ok table =>
      rw [ht] at hw
      injection hw with hw
      injection hw with hw
      subst hw
      simp only [ht] at hy
      cases hc : countParts (counter Token.optPosEq (posLabels dataset)) table.splitter with
      | error e => rw [hc] at hy; cases hy
      | ok counts =>
        rw [hc] at hy
        injection hy with hy
        subst hy
        refine ⟨rfl, ⟨_, _, ht⟩, _, _, rfl, (get?_single ..).2 ⟨rfl, rfl⟩, fun ids hids => ?_⟩
        obtain ⟨_, keys, hT⟩ := buildPosTable_spec ht
        obtain ⟨keys', hC, hsplit, hkeys'⟩ := countParts_spec hc
        have hlenk : counts.keys.length = table.id2parts.length := by
          rw [hC.keys_eq, hT.length]
          cases hcn : counter Token.optPosEq (posLabels dataset) with
          | nil => simp [hcn, countParts] at hc
          | cons c cs =>
            obtain ⟨ps, hps⟩ := hsplit c.1 (by simp [hcn])
            rw [← hkeys' _ _ hps, ← hT.keys_eq _ _ hps]
        have hids' : List.Forall₂ (fun (i : Int) (p : Str × Nat) => 0 ≤ i ∧ i < p.2) ids
          (counts.keys.zip (table.id2parts.map List.length)) := hids
        show List.Forall₂ (fun (i : Int) (l : List TagPart) => 0 ≤ i ∧ i < l.length) ids table.id2parts
        have hl : (table.id2parts.map List.length) = (counts.keys.zip (table.id2parts.map List.length)).map Prod.snd := by
          rw [List.map_snd_zip]
          simp [hlenk]
        have h3 : List.Forall₂ (fun (i : Int) (m : Nat) => 0 ≤ i ∧ i < m) ids (table.id2parts.map List.length) := by
          rw [hl, List.forall₂_map_right_iff]
          exact hids'
        rw [List.forall₂_map_right_iff] at h3
        exact h3
  case lemmaDict lab =>
    cases ht : buildLemmaTable ((datasetTokens dataset).map (fun t => t.2.lemma')) with
    | error e => rw [ht] at hw; cases hw
    | ok table =>
      rw [ht] at hw
      injection hw with hw
      injection hw with hw
      subst hw
      simp only [ht] at hy
      injection hy with hy
      subst hy
      refine ⟨rfl, trivial, _, _, rfl, (get?_single ..).2 ⟨rfl, rfl⟩, fun ids hids => ?_⟩
      cases hids with
      | @cons i _ rest _ h1 h2 => exact ⟨i, rest, rfl, h1⟩
  case lemmaRules f lab threshold =>
    cases ht : buildRules lower threshold dataset with
    | error e => rw [ht] at hw; cases hw
    | ok table =>
      rw [ht] at hw
      injection hw with hw
      injection hw with hw
      subst hw
      simp only [ht] at hy
      injection hy with hy
      subst hy
      refine ⟨rfl, trivial, _, _, rfl, (get?_single ..).2 ⟨rfl, rfl⟩, fun ids hids => ?_⟩
      cases hids with
      | @cons i _ rest _ h1 h2 => exact ⟨i, rest, rfl, h1⟩
  case lemmaChars lab threshold maxLen segment =>
    cases ht : lemmaVocabulary segment threshold dataset with
    | error e => rw [ht] at hw; cases hw
    | ok voc =>
      rw [ht] at hw
      injection hw with hw
      injection hw with hw
      subst hw
      simp only [ht] at hy
      injection hy with hy
      subst hy
      refine ⟨rfl, trivial, _, _, rfl, (get?_single ..).2 ⟨rfl, rfl⟩, fun ids hids => ?_⟩
      obtain ⟨m, hm, hids⟩ := hids
      simp only [List.cons.injEq, Option.some.injEq, and_true] at hm
      subst hm
      intro i hi
      obtain ⟨h0, h1⟩ := hids i hi
      unfold lemmaVocabulary at ht
      split at ht
      · cases ht
      · rename_i segs _
        injection ht with ht
        subst ht
        have hv : CharTable (vocabulary threshold 4 segs.flatten) :=
          ⟨fun w i h => (vocabulary_range h).1, fun w w' i h h' => ((vocabulary_range h).2.2 w' h').symm⟩
        simp only [PADDING, OOV, START, END]
        by_cases h4 : i < 4
        · omega
        · have hlen := vocabulary_length threshold 4 segs.flatten
          have hj : (i - 4).toNat < (vocabWords threshold segs.flatten).length := by omega
          have hw := (vocabulary_get? threshold 4 segs.flatten _ i).2 ⟨(i - 4).toNat, List.getElem?_eq_getElem hj, by omega⟩
          rw [hv.invert hw]
          simp

end
end Verif
