import Verif.Proofs.GridCheck

/-! # Properties of grid search (C54, C55, C81) -/

namespace Verif

/-! ### C55: merging -/

/-- C55: merging a loaded dictionary `b` into a loaded dictionary `a` either gives `a` overridden by `b`, and
`b` stays as it is, or raises `ValueError` because `b` names a key that `a` lacks (where both are dictionaries).
Nothing else can happen on dictionaries that are not nested too deeply for Python's stack. -/
theorem C55_merge {n : Nat} {a b : List (Str × Json)} (ha : (Json.obj a).WF) (hb : (Json.obj b).WF)
    (fa : Fits n (.obj a)) (fb : Fits n (.obj b)) :
    (loadAndMerge n a b = .error .value ∧ Missing a b) ∨
    ∃ c, loadAndMerge n a b = .ok (.obj c, .obj b) ∧ Overrides a b c := by
  obtain ⟨g1, r1⟩ := alloc_spec ha []
  obtain ⟨g2, r2⟩ := alloc_spec hb ((Json.obj a).alloc []).2
  unfold loadAndMerge
  simp only
  generalize hva : ((Json.obj a).alloc []).1 = va at *
  generalize hh1 : ((Json.obj a).alloc []).2 = h1 at *
  generalize hvb : ((Json.obj b).alloc h1).1 = vb at *
  generalize hh2 : ((Json.obj b).alloc h1).2 = h2 at *
  have r1' := r1.grows g2
  obtain ⟨x, rfl⟩ : ∃ x, va = .ref x := by cases r1; exact ⟨_, rfl⟩
  obtain ⟨y, rfl⟩ : ∃ y, vb = .ref y := by cases r2; exact ⟨_, rfl⟩
  have hdis : ∀ z, (z ∈ Between ([] : Heap).length h1.length ∧ z < h1.length) → z ∉ Between h1.length h2.length :=
    fun z hz hz' => absurd hz'.1 (not_le.2 hz.2)
  rw [mergeOne]
  rcases mergeSpec n h2 x y a b _ _ r1' r2 hdis fb with ⟨e1, e2⟩ | ⟨h3, c, e1, e2, e3, _, e5⟩
  · left; rw [e1]; exact ⟨rfl, e2⟩
  · right
    refine ⟨c, ?_, e2⟩
    rw [e1]
    simp only
    have rb : Rep h3 (Between h1.length h2.length) (.ref y) (.obj b) :=
      r2.frame (fun z hz => e5 z (fun hz' => hdis z hz' hz))
    rw [readBack_spec n h3 _ _ _ e3 (e2.fits ha fa fb), readBack_spec n h3 _ _ _ rb fb]

/-- C55: `ValueError` is raised exactly when `b` names a key that `a` does not have. -/
theorem C55_error_iff {n : Nat} {a b : List (Str × Json)} (ha : (Json.obj a).WF) (hb : (Json.obj b).WF)
    (fa : Fits n (.obj a)) (fb : Fits n (.obj b)) : loadAndMerge n a b = .error .value ↔ Missing a b := by
  rcases C55_merge ha hb fa fb with ⟨h1, h2⟩ | ⟨c, h1, h2⟩
  · exact ⟨fun _ => h2, fun _ => h1⟩
  · rw [h1]
    exact ⟨fun h => (by cases h), fun h => absurd h2 (h.not_overrides c)⟩

/-- C55: the result is determined by the two dictionaries. -/
theorem C55_unique {a b c c' : List (Str × Json)} (ha : (Json.obj a).WF) (h : Overrides a b c) (h' : Overrides a b c') :
    c = c' := h.unique h' ha

namespace GridDemo

def x : Str := ['x']
def y : Str := ['y']
def p : Str := ['p']
def q : Str := ['q']
def at1 : Json := .atom ['1']
def at2 : Json := .atom ['2']
def at3 : Json := .atom ['3']
def at4 : Json := .atom ['4']

/-- `{"x": {"p": 1, "q": 2}, "y": 3}` -/
def base : List (Str × Json) := [(x, .obj [(p, at1), (q, at2)]), (y, at3)]
/-- `{"x": {"q": 4}}` -/
def over : List (Str × Json) := [(x, .obj [(q, at4)])]

theorem base_wf : (Json.obj base).WF :=
  .obj (by decide) (by
    simp only [base, List.mem_cons, List.not_mem_nil, or_false, forall_eq_or_imp, forall_eq]
    exact ⟨.obj (by decide) (by
      simp only [List.mem_cons, List.not_mem_nil, or_false, forall_eq_or_imp, forall_eq]
      exact ⟨.atom _, .atom _⟩), .atom _⟩)

theorem over_wf : (Json.obj over).WF :=
  .obj (by decide) (by
    simp only [over, List.mem_cons, List.not_mem_nil, or_false, forall_eq]
    exact .obj (by decide) (by
      simp only [List.mem_cons, List.not_mem_nil, or_false, forall_eq]
      exact .atom _))

theorem base_fits : Fits 2 (.obj base) := by simp [Fits, base, at1, at2, at3]
theorem over_fits : Fits 2 (.obj over) := by simp [Fits, over, at4]

end GridDemo

open GridDemo in
example : (Json.obj base).WF ∧ (Json.obj over).WF ∧ Fits 2 (.obj base) ∧ Fits 2 (.obj over) ∧
    loadAndMerge 2 base over = .ok (.obj [(x, .obj [(p, at1), (q, at4)]), (y, at3)], .obj over) ∧
    loadAndMerge 2 over base = .error .value :=
  ⟨base_wf, over_wf, base_fits, over_fits, rfl, rfl⟩

/-! ### C54: all combinations -/

/-- C54, the enumeration: there are as many combinations as the product of the numbers of values, and the
combination of the values with indices `is` is at the position that `is` denotes as a number whose last digit
varies fastest. -/
theorem C54_combinations {α : Type} (ls : List (List α)) :
    (product ls).length = (ls.map List.length).prod ∧
    (∀ c, c ∈ product ls ↔ List.Forall₂ (· ∈ ·) c ls) ∧
    ∀ (is : List Nat) (c : List α), ls.length = c.length →
      List.Forall₂ (fun (i : Nat) (e : List α × α) => e.1[i]? = some e.2) is (ls.zip c) →
      (product ls)[mixedRadix is (ls.map List.length)]? = some c :=
  ⟨product_length ls, fun _ => mem_product, fun _ _ hl h => product_getElem h hl⟩

example : product [[1, 2], [3], [4, 5, 6]] =
    [[1, 3, 4], [1, 3, 5], [1, 3, 6], [2, 3, 4], [2, 3, 5], [2, 3, 6]] := rfl

/-- C54 as far as it holds: if no combination puts a dictionary in place of a value that is not one, the list of
parameters has one entry per combination, in order, each being the base parameters overridden by the values of
the combination; or `ValueError` is raised because some combination names a key that does not exist.

Missing: grids that put a dictionary in place of another value; see `C54_refuted`. -/
theorem C54_grid_partial {n : Nat} {grid : List (Str × List (List (Str × Json)))} {base : List (Str × Json)}
    (hbase : (Json.obj base).WF) (hgrid : ∀ e ∈ grid, ∀ b ∈ e.2, (Json.obj b).WF) (fbase : Fits n (.obj base))
    (fgrid : ∀ e ∈ grid, ∀ b ∈ e.2, Fits n (.obj b))
    (hm : ∀ bs ∈ product (grid.map Prod.snd), DictsMeetAll base bs) :
    (gridParams n (grid.map fun e => (e.1, e.2.map Json.obj)) (.obj base) = .error .value ∧
      ∃ bs ∈ product (grid.map Prod.snd), MissingAll base bs) ∨
    ∃ rs, gridParams n (grid.map fun e => (e.1, e.2.map Json.obj)) (.obj base) = .ok (rs.map Json.obj) ∧
      List.Forall₂ (OverridesAll base) (product (grid.map Prod.snd)) rs :=
  gridParams_spec hbase hgrid fbase fgrid hm

/-- C54 for grids whose dictionaries have the shape of the base parameters, i.e. have a dictionary as value of a
key exactly where the base parameters do. -/
theorem C54_same_shape_partial {n : Nat} {grid : List (Str × List (List (Str × Json)))} {base : List (Str × Json)}
    (hbase : (Json.obj base).WF) (hgrid : ∀ e ∈ grid, ∀ b ∈ e.2, (Json.obj b).WF) (fbase : Fits n (.obj base))
    (fgrid : ∀ e ∈ grid, ∀ b ∈ e.2, Fits n (.obj b)) (hs : ∀ e ∈ grid, ∀ b ∈ e.2, SameShape base b) :
    (gridParams n (grid.map fun e => (e.1, e.2.map Json.obj)) (.obj base) = .error .value ∧
      ∃ bs ∈ product (grid.map Prod.snd), MissingAll base bs) ∨
    ∃ rs, gridParams n (grid.map fun e => (e.1, e.2.map Json.obj)) (.obj base) = .ok (rs.map Json.obj) ∧
      List.Forall₂ (OverridesAll base) (product (grid.map Prod.snd)) rs := by
  refine gridParams_spec hbase hgrid fbase fgrid (fun bs hbs => sameShape_meetAll ?_)
  rw [mem_product] at hbs
  intro b hb
  obtain ⟨i, hi, rfl⟩ := List.mem_iff_getElem.1 hb
  have := (List.forall₂_iff_get.1 hbs).2 i hi (hbs.length_eq ▸ hi)
  have hi' : i < grid.length := by have := hbs.length_eq; rw [List.length_map] at this; omega
  refine hs grid[i] (List.getElem_mem _) _ ?_
  simpa using this

/-- C54: what a combination leads to is determined, and it cannot both be overridden and have a missing key. -/
theorem C54_determined {base c : List (Str × Json)} {bs : List (List (Str × Json))} (hbase : (Json.obj base).WF)
    (hbs : ∀ b ∈ bs, (Json.obj b).WF) (h : OverridesAll base bs c) :
    (∀ c', OverridesAll base bs c' → c' = c) ∧ ¬ MissingAll base bs :=
  ⟨fun _ h' => h'.unique h hbase hbs, fun hm => hm.not_overrides hbase hbs c h⟩

namespace GridDemo

/-- Two names with two values each. -/
def grid : List (Str × List (List (Str × Json))) :=
  [(['A'], [[(x, .obj [(q, at4)])], [(x, .obj [(q, at3)])]]), (['B'], [[(y, at1)], [(y, at2)]])]

theorem grid_shape : ∀ e ∈ grid, ∀ b ∈ e.2, SameShape base b := by
  have h1 : ∀ v, SameShape base [(x, .obj [(q, .atom v)])] := by
    intro v
    refine .mk ?_ ?_
    · intro k a b e1 e2
      simp only [assocGet] at e2
      split at e2
      · rename_i hk; subst hk
        simp only [base, assocGet, if_true, Option.some.injEq] at e1 e2
        subst e1; subst e2; exact Iff.rfl
      · simp at e2
    · intro k a b e1 e2
      simp only [assocGet] at e2
      split at e2
      · rename_i hk; subst hk
        simp only [base, assocGet, if_true, Option.some.injEq, Json.obj.injEq] at e1 e2
        subst e1; subst e2
        refine .mk ?_ ?_
        · intro k a b e1 e2
          simp only [assocGet] at e2
          split at e2
          · rename_i hk; subst hk
            have : (p = q) = False := by decide
            simp only [assocGet, this, if_true, if_false, Option.some.injEq] at e1 e2
            subst e1; subst e2; exact Iff.rfl
          · simp at e2
        · intro k a b e1 e2
          simp only [assocGet] at e2
          split at e2 <;> simp at e2
      · simp at e2
  have h2 : ∀ v, SameShape base [(y, .atom v)] := by
    intro v
    have hxy : (x = y) = False := by decide
    refine .mk ?_ ?_
    · intro k a b e1 e2
      simp only [assocGet] at e2
      split at e2
      · rename_i hk; subst hk
        simp only [base, assocGet, hxy, if_true, if_false, Option.some.injEq] at e1 e2
        subst e1; subst e2; exact Iff.rfl
      · simp at e2
    · intro k a b e1 e2
      simp only [assocGet] at e2
      split at e2 <;> simp at e2
  simp only [grid, List.mem_cons, List.not_mem_nil, or_false, forall_eq_or_imp, forall_eq]
  exact ⟨⟨h1 _, h1 _⟩, h2 _, h2 _⟩

end GridDemo

open GridDemo in
example : (∀ e ∈ grid, ∀ b ∈ e.2, SameShape base b) ∧ checkGrid grid = .ok () ∧
    gridParams 2 (grid.map fun e => (e.1, e.2.map Json.obj)) (.obj base) = .ok
      [.obj [(x, .obj [(p, at1), (q, at4)]), (y, at1)], .obj [(x, .obj [(p, at1), (q, at4)]), (y, at2)],
       .obj [(x, .obj [(p, at1), (q, at3)]), (y, at1)], .obj [(x, .obj [(p, at1), (q, at3)]), (y, at2)]] :=
  ⟨grid_shape, rfl, rfl⟩

namespace GridDemo

/-- `{"x": 1}` -/
def flat : List (Str × Json) := [(x, at1)]
/-- One name whose value puts a dictionary in place of a number, another name that changes it. -/
def bad : List (Str × List (List (Str × Json))) :=
  [(['A'], [[(x, .obj [(p, at1), (q, at2)])]]), (['B'], [[(x, .obj [(q, at3)])], [(x, .obj [(q, at4)])]])]

end GridDemo

open GridDemo in
/-- C54 fails for other grids, although the check accepts them: a dictionary put in place of another value is
shared between the combinations, so that later combinations change the parameters of earlier ones.  Here both
entries of the result have the value 4 for `x.q`; the first one should have 3. -/
theorem C54_refuted : ∃ (grid : List (Str × List (List (Str × Json)))) (base : List (Str × Json)) (r : Json) (rs : List Json),
    checkGrid grid = .ok () ∧
    gridParams 2 (grid.map fun e => (e.1, e.2.map Json.obj)) (.obj base) = .ok (r :: rs) ∧
    ∃ bs, (product (grid.map Prod.snd)).head? = some bs ∧ ∀ c, OverridesAll base bs c → r ≠ .obj c := by
  refine ⟨bad, flat, .obj [(x, .obj [(p, at1), (q, at4)])], [.obj [(x, .obj [(p, at1), (q, at4)])]], rfl, rfl,
    [[(x, .obj [(p, at1), (q, at2)])], [(x, .obj [(q, at3)])]], rfl, ?_⟩
  rintro c (_ | ⟨o1, (_ | ⟨o2, (_ | _)⟩)⟩) hc
  rename_i d
  injection hc with hc
  subst hc
  cases o1 with
  | mk _ _ _ h4 _ _ =>
    have hd := h4 x at1 (.obj [(p, at1), (q, at2)]) rfl rfl (fun h => h.1)
    cases o2 with
    | mk _ _ _ _ g5 g6 =>
      have o3 := g6 x _ _ _ hd rfl rfl
      cases o3 with
      | mk _ _ _ k4 _ _ =>
        have := k4 q at2 at3 rfl rfl (fun h => h.1)
        exact absurd this (by simp [assocGet, p, q, at1, at3, at4])

/-! ### C81: the check of the grid -/

/-- C81 as far as it holds: the check passes exactly when every name has a value, all values of a name lead to
the same first setting, and the values of different names lead to different first settings; otherwise it raises
`ValueError`.

Missing: entries of a dictionary behind the first one are not looked at, so names can overlap; see
`C81_refuted`. -/
theorem C81_check_partial (grid : List (Str × List (List (Str × Json)))) :
    (checkGrid grid = .ok () ∨ checkGrid grid = .error .value) ∧
    (checkGrid grid = .ok () ↔ (∀ e ∈ grid, e.2 ≠ [] ∧ ∀ a ∈ e.2, ∀ b ∈ e.2, SameSetting a b) ∧
      grid.Pairwise (fun e e' => ∀ a ∈ e.2, ∀ b ∈ e'.2, ¬ SameSetting a b)) := by
  simp only [sameSetting_iff]
  exact checkGrid_spec grid

/-- C81 for values that set one setting each: after the check the settings of different names are different. -/
theorem C81_single_partial {grid : List (Str × List (List (Str × Json)))} (h : checkGrid grid = .ok ())
    (hs : ∀ e ∈ grid, ∀ b ∈ e.2, ∃ p, FirstSetting b p ∧ ∀ p', Sets b p' → p' = p) :
    grid.Pairwise (fun e e' => ∀ a ∈ e.2, ∀ b ∈ e'.2, ∀ p, Sets a p → ¬ Sets b p) := by
  have hp := ((checkGrid_spec grid).2.1 h).2
  refine List.Pairwise.imp_of_mem ?_ hp
  intro e e' he he' hne a ha b hb p sa sb
  obtain ⟨pa, fa, ua⟩ := hs e he a ha
  obtain ⟨pb, fb, ub⟩ := hs e' he' b hb
  refine hne a ha b hb (sameSetting_iff.1 (.inl ⟨p, ?_, ?_⟩))
  · rw [ua p sa]; exact fa
  · rw [ub p sb]; exact fb

open GridDemo in
/-- C81 fails in general: a grid passes the check although two of its names set the same setting. -/
theorem C81_refuted : ∃ (a b : List (Str × Json)) (p : List Str),
    checkGrid [(['A'], [a]), (['B'], [b])] = .ok () ∧ Sets a p ∧ Sets b p :=
  ⟨[(x, at1), (y, at2)], [(y, at3)], [y], rfl, .leaf rfl, .leaf rfl⟩

open GridDemo in
example : checkGrid grid = .ok () ∧ (∀ e ∈ grid, e.2 ≠ []) ∧ FirstSetting [(y, at1)] [y] ∧
    FirstSetting [(x, .obj [(q, at4)])] [x, q] ∧ checkGrid [(['A'], [[(x, at1)], [(y, at1)]])] = .error .value ∧
    checkGrid [(['A'], [[(x, at1)]]), (['B'], [[(x, at2)]])] = .error .value :=
  ⟨rfl, by decide, .leaf _ _ _, .sub _ _ (.leaf _ _ _), rfl, rfl⟩

end Verif
