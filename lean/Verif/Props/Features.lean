import Verif.Proofs.FeaturesPad
import Verif.Proofs.FeaturesDict
import Verif.Proofs.FeaturesMerge
import Verif.Proofs.FeaturesSem

/-! # Properties of feature builders: padding, merging, sequences, sparsification -/

namespace Verif

/-! ### C38 -/

/-- C38: padding a feature succeeds exactly if at every depth it has only lists or only scalars, and
raises `ValueError` otherwise (`TypeError` for a feature that is not a list); the result is a
rectangular tensor, keeps every value at its position, adds only `PADDING`, and is no larger than
the longest list at each depth requires. -/
theorem C38_padding (v : Feat) :
    (v.isList = false → padValue v = .error .type) ∧
    (v.isList = true → ¬ v.Uniform → padValue v = .error .value) ∧
    (v.isList = true → v.Uniform → ∃ v' shape, padValue v = .ok v' ∧ v'.HasShape shape ∧
      v.Keeps v' ∧ v.AddsPadding v' ∧
      ∀ k m, shape[k]? = some m → ∃ l, v.AtDepth k (.list l) ∧ l.length = m) := by
  cases v with
  | int n => simp [padValue, Feat.isList]
  | bool b => simp [padValue, Feat.isList]
  | other a => simp [padValue, Feat.isList]
  | list l =>
    refine ⟨by simp [Feat.isList], ?_, ?_⟩
    · intro _ hu
      simp [padValue, padSequence_error (Feat.depthL l) l (Nat.le_refl _) hu]
    · intro _ hu
      obtain ⟨pad, seq', shape, h1, h2, h3, h4, h5, h6⟩ :=
        padSequence_ok (Feat.depthL l) l (Nat.le_refl _) hu
      have hr : Feat.PadRel (.list l) (.list seq') := by
        have := Feat.padRel_list h5 h3 0
        simpa using this
      refine ⟨.list seq', l.length :: shape, by simp [padValue, h1],
        ⟨seq', rfl, h5.length_eq.symm, h4⟩, hr.1, hr.2, ?_⟩
      intro k m hk
      cases k with
      | zero =>
        simp only [List.getElem?_cons_zero, Option.some.injEq] at hk
        exact ⟨l, Feat.atDepth_zero.2 rfl, hk⟩
      | succ k => exact h6 k m (by simpa using hk)

/-- A batch of two sentences of different length. -/
def Demo.ragged : Feat := .list [.list [.int 5], .list [.int 6, .int 7, .int 8], .list []]

example : padValue Demo.ragged = .ok (.list [.list [.int 5, .int 0, .int 0],
    .list [.int 6, .int 7, .int 8], .list [.int 0, .int 0, .int 0]]) := by rfl
example : padValue (.list [.list [.int 5], .int 6]) = .error .value := by rfl
example : padValue (.list [.list [.list [.int 1]], .list []]) =
    .ok (.list [.list [.list [.int 1]], .list [.list [.int 0]]]) := by rfl

/-! ### C39 -/

/-- C39: merging keeps all leaf builders with the wrappers around them; empty builders may be
dropped. -/
theorem C39_leaves (bs : List Builder) (b : Builder) (h : mergeBuilders bs = .ok b) :
    (b.leaves.filter (fun x => x.2.isSome)).Perm
      ((Builder.leavesL bs).filter (fun x => x.2.isSome)) :=
  mergeFuel_leaves _ bs b h

/-- C39: merging a non-empty list of builders succeeds (composites without parts excepted), and so
does building the result. -/
theorem C39_total (bs : List Builder) (hne : bs ≠ []) (hw : ∀ b ∈ bs, b.WellFormed) :
    ∃ b, mergeBuilders bs = .ok b ∧ b.WellFormed :=
  mergeFuel_total _ bs hne hw (Nat.lt_succ_self _)

/-- C39: the only way to fail is a `ValueError`. -/
theorem C39_only_value_error (bs : List Builder) (e : Err) (h : mergeBuilders bs = .error e) :
    e = .value :=
  mergeFuel_error _ bs e (Nat.lt_succ_self _) h

/-- C39: merging no builders is a `ValueError`. -/
theorem C39_none : mergeBuilders [] = .error .value := rfl

/-- C39: the merged extractor yields the union of the features of the parts: whenever every part
yields features and no two yield the same feature name, the merged extractor yields exactly these
features. -/
theorem C39_union (lf : Nat → Nat → Extractor) (sp : Feat → Res Feat) (bs : List Builder)
    (b : Builder) (h : mergeBuilders bs = .ok b) (o : Obj) (ds : List Features)
    (hds : List.Forall₂ (fun x d => Builder.extractor lf sp x o = .ok d) bs ds)
    (hdis : DisjointKeys ds) :
    ∃ D, b.extractor lf sp o = .ok D ∧
      ∀ k v, D.get? k = some v ↔ ∃ d ∈ ds, d.get? k = some v := by
  obtain ⟨r, _, hr⟩ := mergeDicts_ok hdis
  have hc : compX (bs.map (Builder.extractor lf sp)) o = .ok r := by
    refine compX_ok.2 ⟨ds, ?_, hdis, hr⟩
    rw [mapM'_ok_iff, List.forall₂_map_left_iff]
    exact hds
  obtain ⟨D, hD, hs⟩ := mergeFuel_refines lf sp _ bs b h o r hc
  refine ⟨D, hD, fun k v => ?_⟩
  rw [← hs k, Dict.get?_mem, hr]
  simp only [List.mem_flatMap, Dict.get?_mem]

namespace Demo
/-- Two word level features, a sentence level feature and nothing. -/
def someBuilders : List Builder :=
  [.padding (.iter (.iter (.leaf 1 1))), .empty, .padding (.iter (.leaf 2 1)),
    .padding (.iter (.iter (.sparse (.leaf 1 2))))]

example : mergeBuilders someBuilders = .ok (.padding (.iter (.comp
    [.iter (.comp [.leaf 1 1, .sparse (.leaf 1 2)]), .leaf 2 1]))) := by rfl

/-- Leaf extractors: one feature, named after the builder, with the identity of the object. -/
def someLeaves : Nat → Nat → Extractor := fun ty id o =>
  match o with
  | .mk n _ => .ok (Dict.ofList [([Char.ofNat (97 + 2 * ty + id)], .int n)])

/-- A batch of two sentences. -/
def someBatch : Obj := .mk 0 [.mk 1 [.mk 11 [], .mk 12 []], .mk 2 [.mk 21 []]]

example : ((Builder.padding (.iter (.comp
      [.iter (.comp [.leaf 1 1, .sparse (.leaf 1 2)]), .leaf 2 1]))).extractor someLeaves .ok
      someBatch).map (fun d => d.entries) =
    .ok [(['d'], .list [.list [.int 11, .int 12], .list [.int 21, .int 0]]),
      (['e'], .list [.list [.int 11, .int 12], .list [.int 21, .int 0]]),
      (['f'], .list [.int 1, .int 2])] := by rfl
end Demo

/-! ### C40 -/

/-- C40: composite extraction succeeds exactly if no two parts share a key, yields the entries of
all parts, and raises `ValueError` otherwise. -/
theorem C40_disjoint_union (xs : List Extractor) (o : Obj) (ds : List Features)
    (hds : List.Forall₂ (fun x d => x o = .ok d) xs ds) :
    (DisjointKeys ds → ∃ D, compX xs o = .ok D ∧
      D.entries = ds.flatMap (fun d => d.entries)) ∧
    (¬ DisjointKeys ds → compX xs o = .error .value) := by
  have hm : mapM' (fun x => x o) xs = .ok ds := mapM'_ok_iff.2 hds
  constructor
  · intro h
    obtain ⟨r, h1, h2⟩ := mergeDicts_ok h
    exact ⟨r, by simp [compX, hm, h1], h2⟩
  · intro h
    simp [compX, hm, mergeDicts_error h]

example : mergeDicts (V := Feat) [Dict.ofList [(['a'], .int 1)], Dict.ofList [(['b'], .int 2)]] =
    .ok (Dict.ofList [(['a'], .int 1), (['b'], .int 2)]) := by rfl
example : mergeDicts (V := Feat) [Dict.ofList [(['a'], .int 1)], Dict.ofList [(['a'], .int 1)]] =
    .error .value := by rfl

/-! ### C41 -/

theorem mapM'_congr {α β : Type} (F : α → Res β) {l m : List α}
    (h : List.Forall₂ (fun p q => F p = F q) l m) : mapM' F l = mapM' F m := by
  induction h with
  | nil => rfl
  | cons h _ ih => simp only [mapM', h, ih]

theorem filterMap_all_some {α β : Type} {g : α → Option β} {l : List α}
    (h : ∀ a ∈ l, (g a).isSome) (i : Nat) : (l.filterMap g)[i]? = l[i]?.bind g := by
  induction l generalizing i with
  | nil => simp
  | cons a l ih =>
    obtain ⟨b, hb⟩ := Option.isSome_iff_exists.1 (h a (by simp))
    rw [List.filterMap_cons, hb]
    cases i with
    | zero => simp [hb]
    | succ i =>
      simp only [List.getElem?_cons_succ]
      exact ih (fun x hx => h x (List.mem_cons_of_mem _ hx)) i

theorem filterMap_all_length {α β : Type} {g : α → Option β} {l : List α}
    (h : ∀ a ∈ l, (g a).isSome) : (l.filterMap g).length = l.length := by
  induction l with
  | nil => rfl
  | cons a l ih =>
    obtain ⟨b, hb⟩ := Option.isSome_iff_exists.1 (h a (by simp))
    rw [List.filterMap_cons, hb]
    simp [ih (fun x hx => h x (List.mem_cons_of_mem _ hx))]

/-- C41: if all elements have features under the same non-empty set of names `K`, interpreting the
collected features, possibly followed by padding, gives the element interpreter exactly the
features of each element, in order. -/
theorem C41_inverse {α β : Type} (f : α → Features → Res β)
    (hf : ∀ a d e, SameDict d e → f a d = f a e) (objs : List α) (ds : List Features)
    (hlen : objs.length = ds.length) (K : List Str) (hK : K ≠ [])
    (hkeys : ∀ d ∈ ds, ∀ k, k ∈ d.keys ↔ k ∈ K) (value : Dict Str (List Feat))
    (hsub : ∀ k, k ∈ value.keys → k ∈ K)
    (hval : ∀ k v, (collect ds).get? k = some v → ∃ rest, value.get? k = some (v ++ rest)) :
    iterInterpret f objs value = mapM' (fun p => f p.1 p.2) (objs.zip ds) := by
  cases hds : ds with
  | nil =>
    rw [hds] at hlen
    rw [List.eq_nil_of_length_eq_zero hlen]
    rfl
  | cons d0 ds0 =>
    rw [← hds]
    have hd0 : d0 ∈ ds := by rw [hds]; simp
    have hcol : ∀ k ∈ K, ∃ rest, value.get? k =
        some (ds.filterMap (fun d => d.get? k) ++ rest) := by
      intro k hk
      apply hval
      rw [get?_collect, if_pos ⟨d0, hd0, (hkeys d0 hd0 k).2 hk⟩]
    have hsome : ∀ k ∈ K, ∀ d ∈ ds, (d.get? k).isSome := by
      intro k hk d hd
      rw [Dict.get?_isSome]
      exact (hkeys d hd k).2 hk
    have hne : value.entries ≠ [] := by
      obtain ⟨k, hk⟩ := List.exists_mem_of_ne_nil K hK
      obtain ⟨rest, hr⟩ := hcol k hk
      exact List.ne_nil_of_mem (Dict.get?_mem.1 hr)
    have hge : ds.length ≤ (converted value).length := by
      apply converted_length_ge value hne
      rintro ⟨k, v⟩ hp
      have hk : k ∈ K := hsub k (List.mem_map.2 ⟨(k, v), hp, rfl⟩)
      obtain ⟨rest, hr⟩ := hcol k hk
      have := Dict.get?_mem.2 hp
      rw [hr] at this
      injection this with this
      simp only
      rw [← this, List.length_append, filterMap_all_length (hsome k hk)]
      omega
    apply mapM'_congr
    rw [List.forall₂_iff_get]
    have hl1 : (objs.zip (converted value)).length = ds.length := by
      rw [List.length_zip]; omega
    have hl2 : (objs.zip ds).length = ds.length := by rw [List.length_zip]; omega
    refine ⟨by rw [hl1, hl2], ?_⟩
    intro i h1 h2
    simp only [List.get_eq_getElem, List.getElem_zip]
    apply hf
    have hi : i < ds.length := by omega
    intro k
    rw [get?_converted value i _ (List.getElem?_eq_getElem (by omega)) k]
    by_cases hk : k ∈ K
    · obtain ⟨rest, hr⟩ := hcol k hk
      rw [hr, Option.bind_some, List.getElem?_append_left (by
        rw [filterMap_all_length (hsome k hk)]; exact hi),
        filterMap_all_some (hsome k hk), List.getElem?_eq_getElem hi]
      rfl
    · have : value.get? k = none := Dict.get?_none.2 (fun h => hk (hsub k h))
      rw [this, Option.bind_none]
      symm
      exact Dict.get?_none.2 (fun h => hk ((hkeys _ (List.getElem_mem hi) k).1 h))

/-- C41: the assumption of a name is needed; without features all elements are lost. -/
theorem C41_no_features {α β : Type} (f : α → Features → Res β) (objs : List α) :
    iterInterpret f objs Dict.empty = .ok [] := by
  simp [iterInterpret, converted, zipAll, Dict.empty, mapM']

namespace Demo
def someDicts : List Features :=
  [Dict.ofList [(['a'], .int 1), (['b'], .int 2)], Dict.ofList [(['b'], .int 4), (['a'], .int 3)]]
example : (collect someDicts).entries =
    [(['a'], [.int 1, .int 3]), (['b'], [.int 2, .int 4])] := by rfl
example : ∀ d ∈ someDicts, ∀ k, k ∈ d.keys ↔ k ∈ [['a'], ['b']] := by
  intro d hd k
  simp only [someDicts, List.mem_cons, List.not_mem_nil, or_false] at hd
  rcases hd with rfl | rfl
  · show k ∈ [['a'], ['b']] ↔ k ∈ [['a'], ['b']]
    exact Iff.rfl
  · show k ∈ [['b'], ['a']] ↔ k ∈ [['a'], ['b']]
    simp [or_comm]
end Demo

/-! ### C42 -/

/-- C42: sparsification keeps the nesting; every leaf stays or becomes `OOV`, whatever the random
numbers; if all random numbers exceed the rate nothing changes; if none does, every leaf becomes
`OOV`.  A leaf that is not a number raises `NotImplementedError`. -/
theorem C42_sparse (rnd : Nat → Rat) (rate : Rat) (f : Feat) (k : Nat) :
    (¬ f.HasOther → ∃ f' k', sparseRate rnd rate f k = .ok (f', k') ∧
      f.SameShape (fun x y => y = x ∨ y = .int OOV) f' ∧
      ((∀ i, rnd i > rate) → f' = f) ∧
      ((∀ i, ¬ rnd i > rate) → f.SameShape (fun _ y => y = .int OOV) f')) ∧
    (f.HasOther → sparseRate rnd rate f k = .error .notImplemented) :=
  sparseRate_spec rnd rate f k

/-- C42: at prediction time the rate is 0, so positive random numbers change nothing; a random number
that is exactly 0 still replaces the value. -/
theorem C42_rate_zero (rnd : Nat → Rat) (f : Feat) (k : Nat) (hf : ¬ f.HasOther)
    (hr : ∀ i, 0 < rnd i) : ∃ k', sparseRate rnd 0 f k = .ok (f, k') := by
  obtain ⟨f', k', h1, _, h2, _⟩ := (sparseRate_spec rnd 0 f k).1 hf
  rw [h2 hr] at h1
  exact ⟨k', h1⟩

example : sparseRate (fun _ => 0) 0 (.int 7) 0 = .ok (.int OOV, 1) := by
  simp [sparseRate]
example : ¬ Demo.ragged.HasOther := by
  rintro ⟨p, a, h⟩
  have : ∀ (p : List Nat) (f : Feat) (a : Nat), f.at p = some (.other a) → f ≠ .other a →
      (∃ l, f = .list l) := by
    intro p f a h hne
    cases p with
    | nil => rw [Feat.at_nil] at h; injection h with h; exact absurd h hne
    | cons i p => cases f with
      | list l => exact ⟨l, rfl⟩
      | int _ => simp [Feat.at] at h
      | bool _ => simp [Feat.at] at h
      | other _ => simp [Feat.at] at h
  have hint : ∀ (n : Int) (p : List Nat), (Feat.int n).at p ≠ some (.other a) := by
    intro n p h
    obtain ⟨l, hl⟩ := this p _ a h (by simp)
    simp at hl
  rcases p with _ | ⟨i, _ | ⟨j, p⟩⟩
  · simp [Demo.ragged, Feat.at] at h
  · match i with
    | 0 => simp [Demo.ragged, Feat.at] at h
    | 1 => simp [Demo.ragged, Feat.at] at h
    | 2 => simp [Demo.ragged, Feat.at] at h
    | i + 3 => simp [Demo.ragged, Feat.at] at h
  · match i, j with
    | 0, 0 => exact hint _ p (by simpa [Demo.ragged, Feat.at] using h)
    | 1, 0 => exact hint _ p (by simpa [Demo.ragged, Feat.at] using h)
    | 1, 1 => exact hint _ p (by simpa [Demo.ragged, Feat.at] using h)
    | 1, 2 => exact hint _ p (by simpa [Demo.ragged, Feat.at] using h)
    | 0, j + 1 => simp [Demo.ragged, Feat.at] at h
    | 1, j + 3 => simp [Demo.ragged, Feat.at] at h
    | 2, j => simp [Demo.ragged, Feat.at] at h
    | i + 3, j => simp [Demo.ragged, Feat.at] at h

end Verif
