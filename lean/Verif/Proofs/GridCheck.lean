import Verif.Proofs.GridBuild
import Mathlib.Data.List.Dedup

/-! # Proofs about grid search: uniqueness, shapes, combinations, the check -/

namespace Verif

theorem assoc_ext {l l' : List (Str × Json)} (hk : l.map Prod.fst = l'.map Prod.fst) (hn : (l.map Prod.fst).Nodup)
    (h : ∀ k, assocGet k l = assocGet k l') : l = l' := by
  induction l generalizing l' with
  | nil => cases l' with
    | nil => rfl
    | cons => simp at hk
  | cons e l ih =>
    cases l' with
    | nil => simp at hk
    | cons e' l' =>
      simp only [List.map_cons, List.cons.injEq] at hk
      rw [List.map_cons, List.nodup_cons] at hn
      have h1 := h e.1
      simp only [assocGet, if_true, hk.1] at h1
      injection h1 with h1
      have he : e = e' := Prod.ext hk.1 h1
      subst he
      rw [ih hk.2 hn.2]
      intro k
      by_cases hke : k = e.1
      · rw [hke, assocGet_none_iff.2 hn.1, assocGet_none_iff.2 (hk.2 ▸ hn.1)]
      · have := h k
        simpa only [assocGet, Ne.symm hke, if_false] using this

theorem Overrides.unique {a b c c' : List (Str × Json)} (o : Overrides a b c) (o' : Overrides a b c')
    (hn : (Json.obj a).WF) : c = c' := by
  induction o generalizing c' with
  | @mk a b c h1 h2 h3 h4 h5 h6 ih =>
    cases o' with
    | mk g1 g2 g3 g4 g5 g6 =>
      refine assoc_ext (h1.trans g1.symm) (h1 ▸ hn.nodup) (fun k => ?_)
      by_cases hk : k ∈ b.map Prod.fst
      · obtain ⟨v, hv⟩ := assocGet_some_iff.2 (h2 k hk)
        obtain ⟨w, hw⟩ := assocGet_some_iff.2 hk
        by_cases hb : v.IsObj ∧ w.IsObj
        · cases v with
          | atom => exact absurd hb.1 (fun h => h)
          | obj u =>
            cases w with
            | atom => exact absurd hb.2 (fun h => h)
            | obj w =>
              obtain ⟨z, hz⟩ := h5 k u w hv hw
              obtain ⟨z', hz'⟩ := g5 k u w hv hw
              rw [hz, hz', ih k u w z hv hw hz (g6 k u w z' hv hw hz') (hn.get hv)]
        · rw [h4 k v w hv hw hb, g4 k v w hv hw hb]
      · rw [h3 k hk, g3 k hk]

theorem Missing.not_overrides {a b : List (Str × Json)} (m : Missing a b) : ∀ c, ¬ Overrides a b c := by
  induction m with
  | key h1 h2 => rintro c ⟨_, g2, _⟩; exact h2 (g2 _ h1)
  | @sub a b x y k h1 h2 _ ih =>
    intro c o
    cases o with
    | mk g1 g2 g3 g4 g5 g6 =>
      obtain ⟨z, hz⟩ := g5 k x y h1 h2
      exact ih z (g6 k x y z h1 h2 hz)

theorem OverridesAll.unique {a c c' : List (Str × Json)} {bs : List (List (Str × Json))} (o : OverridesAll a bs c)
    (o' : OverridesAll a bs c') (hn : (Json.obj a).WF) (hb : ∀ b ∈ bs, (Json.obj b).WF) : c = c' := by
  induction o generalizing c' with
  | nil => cases o'; rfl
  | cons h _ ih =>
    cases o' with
    | cons h' h2 =>
      obtain rfl := h.unique h' hn
      exact ih h2 (h.wf hn (hb _ (by simp))) (fun b hm => hb b (by simp [hm]))

theorem MissingAll.not_overrides {a : List (Str × Json)} {bs : List (List (Str × Json))} (m : MissingAll a bs)
    (hn : (Json.obj a).WF) (hb : ∀ b ∈ bs, (Json.obj b).WF) : ∀ c, ¬ OverridesAll a bs c := by
  induction m with
  | here h => rintro c ⟨_⟩; rename_i o _; exact h.not_overrides _ o
  | later h _ ih =>
    intro d o
    cases o with
    | cons h' h2 =>
      obtain rfl := h.unique h' hn
      exact ih (h.wf hn (hb _ (by simp))) (fun b hm => hb b (by simp [hm])) _ h2

/-! ### Shapes -/

theorem SameShape.meet {a b : List (Str × Json)} (h : SameShape a b) : DictsMeet a b := by
  induction h with
  | mk h1 h2 ih => exact .mk (fun k v y e1 e2 => (h1 k v _ e1 e2).2 trivial) ih

theorem SameShape.after {a b c b' : List (Str × Json)} (o : Overrides a b c) (h : SameShape a b) (h' : SameShape a b')  :
    SameShape c b' := by
  induction o generalizing b' with
  | @mk a b c g1 g2 g3 g4 g5 g6 ih =>
    have o := Overrides.mk g1 g2 g3 g4 g5 g6
    cases h with
    | mk p1 p2 =>
      cases h' with
      | mk q1 q2 =>
        have hkey : ∀ k v, assocGet k c = some v → ∃ u, assocGet k a = some u ∧ (u.IsObj ↔ v.IsObj) := by
          intro k v hv
          rcases o.cases' hv with ⟨_, h⟩ | h | ⟨u, w, z, r1, r2, r3, r4⟩
          · exact ⟨v, h, Iff.rfl⟩
          · obtain ⟨u, hu⟩ := assocGet_some_iff.2 (g2 k (assocGet_some_iff.1 ⟨_, h⟩))
            exact ⟨u, hu, p1 k u v hu h⟩
          · exact ⟨_, r1, by rw [r3]; exact Iff.rfl⟩
        refine .mk ?_ ?_
        · intro k v w e1 e2
          obtain ⟨u, hu, hi⟩ := hkey k v e1
          exact hi.symm.trans (q1 k u w hu e2)
        · intro k x y e1 e2
          by_cases hk : k ∈ b.map Prod.fst
          · obtain ⟨v, hv⟩ := assocGet_some_iff.2 (g2 k hk)
            obtain ⟨w, hw⟩ := assocGet_some_iff.2 hk
            obtain ⟨u, hu, hi⟩ := hkey k _ e1
            rw [hv] at hu; injection hu with hu; subst hu
            have hvo : v.IsObj := hi.2 trivial
            have hwo : w.IsObj := (p1 k v w hv hw).1 hvo
            cases v with
            | atom => exact absurd hvo (fun h => h)
            | obj v =>
              cases w with
              | atom => exact absurd hwo (fun h => h)
              | obj w => exact ih k v w x hv hw e1 (p2 k v w hv hw) (q2 k v y hv e2)
          · rw [g3 k hk] at e1
            exact q2 k x y e1 e2

theorem sameShape_meetAll {a : List (Str × Json)} {bs : List (List (Str × Json))} (h : ∀ b ∈ bs, SameShape a b) :
    DictsMeetAll a bs := by
  induction bs generalizing a with
  | nil => exact .nil a
  | cons b bs ih =>
    have h1 := h b (by simp)
    exact .cons h1.meet (fun c o => ih (fun b' hb' => SameShape.after o h1 (h b' (by simp [hb']))))

/-! ### Combinations -/

theorem product_length {α : Type} (ls : List (List α)) : (product ls).length = (ls.map List.length).prod := by
  induction ls with
  | nil => rfl
  | cons l ls ih =>
    simp only [product, List.length_flatMap, List.length_map, List.map_const', ih, List.map_cons, List.prod_cons]
    simp

theorem flatMap_uniform {α β : Type} (f : α → List β) (N : Nat) (hf : ∀ x, (f x).length = N) :
    ∀ (l : List α) (i r : Nat), r < N → ∀ x, l[i]? = some x → (l.flatMap f)[i * N + r]? = (f x)[r]? := by
  intro l
  induction l with
  | nil => intro i r _ x h; simp at h
  | cons y l ih =>
    intro i r hr x hx
    rw [List.flatMap_cons]
    cases i with
    | zero =>
      simp only [List.getElem?_cons_zero, Option.some.injEq] at hx
      subst hx
      rw [Nat.zero_mul, Nat.zero_add, List.getElem?_append_left (by rw [hf]; exact hr)]
    | succ i =>
      rw [List.getElem?_cons_succ] at hx
      have : (i + 1) * N + r = N + (i * N + r) := by rw [Nat.succ_mul]; omega
      rw [this, List.getElem?_append_right (by rw [hf]; omega), hf, Nat.add_sub_cancel_left]
      exact ih i r hr x hx

theorem mixedRadix_lt {is ns : List Nat} (h : List.Forall₂ (· < ·) is ns) : mixedRadix is ns < ns.prod := by
  induction h with
  | nil => simp [mixedRadix]
  | @cons i n is ns h1 _ ih =>
    simp only [mixedRadix, List.prod_cons]
    calc i * ns.prod + mixedRadix is ns < i * ns.prod + ns.prod := by omega
      _ = (i + 1) * ns.prod := by rw [Nat.succ_mul]
      _ ≤ n * ns.prod := Nat.mul_le_mul_right _ h1

theorem product_getElem {α : Type} {is : List Nat} {ls : List (List α)} {c : List α}
    (h : List.Forall₂ (fun (i : Nat) (p : List α × α) => p.1[i]? = some p.2) is (ls.zip c)) (hl : ls.length = c.length) :
    (product ls)[mixedRadix is (ls.map List.length)]? = some c := by
  induction ls generalizing is c with
  | nil =>
    cases c with
    | nil => cases h; rfl
    | cons => simp at hl
  | cons l ls ih =>
    cases c with
    | nil => simp at hl
    | cons x c =>
      rw [List.zip_cons_cons] at h
      cases h with
      | @cons i _ is _ h1 h2 =>
        have ih' := ih h2 (by simpa using hl)
        simp only [List.map_cons, mixedRadix, product]
        have hlt : mixedRadix is (ls.map List.length) < (product ls).length := (List.getElem?_eq_some_iff.1 ih').1
        rw [flatMap_uniform (fun x => (product ls).map fun c => x :: c) (ls.map List.length).prod
          (by intro x; rw [List.length_map, product_length]) l i _ (by rw [← product_length]; exact hlt) x h1]
        rw [List.getElem?_map, ih']; rfl

/-! ### The check -/

theorem firstSetting_iff_list : (x : List (Str × Json)) →
    (∀ p, FirstSetting x p ↔ keyPath x = some p) ∧ (NoSetting x ↔ keyPath x = none)
  | [] => ⟨fun p => ⟨fun h => (by cases h), fun h => (by simp [keyPath] at h)⟩, ⟨fun _ => (by simp [keyPath]), fun _ => .nil⟩⟩
  | (k, .atom s) :: l => by
      have e : keyPath ((k, .atom s) :: l) = some [k] := by simp [keyPath, valuePath]
      rw [e]
      refine ⟨fun p => ⟨fun h => by cases h; rfl, fun h => ?_⟩, ⟨fun h => (by cases h), fun h => (by cases h)⟩⟩
      injection h with h; rw [← h]; exact .leaf k s l
  | (k, .obj x) :: l => by
      obtain ⟨h1, h2⟩ := firstSetting_iff_list x
      have e : keyPath ((k, .obj x) :: l) = (keyPath x).map (k :: ·) := by simp only [keyPath, valuePath]
      rw [e]
      simp only [Option.map_eq_some_iff, Option.map_eq_none_iff]
      refine ⟨fun p => ⟨fun h => ?_, fun h => ?_⟩, ⟨fun h => ?_, fun h => .sub k l (h2.2 h)⟩⟩
      · cases h with | sub _ _ h => exact ⟨_, (h1 _).1 h, rfl⟩
      · obtain ⟨q, hq, rfl⟩ := h; exact .sub k l ((h1 _).2 hq)
      · cases h with | sub _ _ h => exact h2.1 h

theorem sameSetting_iff {a b : List (Str × Json)} : SameSetting a b ↔ keyPath a = keyPath b := by
  unfold SameSetting
  simp only [(firstSetting_iff_list a).1, (firstSetting_iff_list b).1, (firstSetting_iff_list a).2, (firstSetting_iff_list b).2]
  cases h1 : keyPath a <;> cases h2 : keyPath b <;> simp [eq_comm]

theorem pathSet_one {vs : List (List (Str × Json))} : (pathSet vs).length = 1 ↔
    ∃ p, pathSet vs = [p] ∧ vs ≠ [] ∧ ∀ v ∈ vs, keyPath v = p := by
  constructor
  · intro h
    obtain ⟨p, hp⟩ := List.length_eq_one_iff.1 h
    refine ⟨p, hp, ?_, ?_⟩
    · rintro rfl; simp [pathSet] at hp
    · intro v hv
      have : keyPath v ∈ pathSet vs := List.mem_dedup.2 (List.mem_map.2 ⟨v, hv, rfl⟩)
      rw [hp] at this; simpa using this
  · rintro ⟨p, hp, _⟩; rw [hp]; rfl

theorem pathSet_one' {vs : List (List (Str × Json))} (h : vs ≠ []) {p : Option (List Str)} (hp : ∀ v ∈ vs, keyPath v = p) :
    pathSet vs = [p] := by
  unfold pathSet
  have hr : vs.map keyPath = List.replicate vs.length p := by
    rw [List.eq_replicate_iff]
    refine ⟨by simp, fun b hb => ?_⟩
    obtain ⟨v, hv, rfl⟩ := List.mem_map.1 hb
    exact hp v hv
  rw [hr]
  obtain ⟨v, vs, rfl⟩ := List.exists_cons_of_ne_nil h
  exact List.replicate_dedup (by simp)

theorem checkNames_spec (vss : List (List (List (Str × Json)))) : ∀ big : List (Option (List Str)), big.Nodup →
    (forM' checkName big vss = .error .value ∧ ∃ vs ∈ vss, (pathSet vs).length ≠ 1) ∨
    ∃ big', forM' checkName big vss = .ok big' ∧ big'.Nodup ∧ (∀ vs ∈ vss, (pathSet vs).length = 1) ∧
      ∀ x, x ∈ big' ↔ x ∈ big ∨ ∃ vs ∈ vss, x ∈ pathSet vs := by
  induction vss with
  | nil => intro big hb; exact .inr ⟨big, rfl, hb, by simp, by simp⟩
  | cons vs vss ih =>
    intro big hb
    rw [forM', checkName]
    by_cases h : (pathSet vs).length = 1
    · rw [if_neg (not_not.2 h)]
      simp only
      have hn : (big ∪ pathSet vs).Nodup := List.Nodup.union _ (List.nodup_dedup _)
      rcases ih _ hn with ⟨e1, v', hv', e2⟩ | ⟨b', e1, e2, e3, e4⟩
      · exact .inl ⟨e1, v', by simp [hv'], e2⟩
      · refine .inr ⟨b', e1, e2, ?_, ?_⟩
        · intro v hv
          rcases List.mem_cons.1 hv with rfl | hv
          · exact h
          · exact e3 v hv
        · intro x
          rw [e4 x, List.mem_union_iff]
          simp only [List.mem_cons, exists_eq_or_imp, or_assoc]
    · rw [if_pos h]
      exact .inl ⟨rfl, vs, by simp, h⟩

/-- One path per name. -/
theorem checkGrid_spec (grid : List (Str × List (List (Str × Json)))) :
    (checkGrid grid = .ok () ∨ checkGrid grid = .error .value) ∧
    (checkGrid grid = .ok () ↔ (∀ e ∈ grid, e.2 ≠ [] ∧ ∀ a ∈ e.2, ∀ b ∈ e.2, keyPath a = keyPath b) ∧
      grid.Pairwise (fun e e' => ∀ a ∈ e.2, ∀ b ∈ e'.2, keyPath a ≠ keyPath b)) := by
  have hone : ∀ vs, (pathSet vs).length = 1 ↔ (vs ≠ [] ∧ ∀ a ∈ vs, ∀ b ∈ vs, keyPath a = keyPath b) := by
    intro vs
    rw [pathSet_one]
    constructor
    · rintro ⟨p, _, h, hp⟩; exact ⟨h, fun a ha b hb => (hp a ha).trans (hp b hb).symm⟩
    · rintro ⟨h, hp⟩
      obtain ⟨v, l, rfl⟩ := List.exists_cons_of_ne_nil h
      exact ⟨keyPath v, pathSet_one' h (fun b hb => hp b hb v (by simp)), h, fun b hb => hp b hb v (by simp)⟩
  unfold checkGrid
  rcases checkNames_spec (grid.map Prod.snd) [] List.nodup_nil with ⟨e1, vs, hvs, e2⟩ | ⟨big, e1, e2, e3, e4⟩
  · rw [e1]
    refine ⟨.inr rfl, ⟨fun h => by simp at h, fun h => ?_⟩⟩
    obtain ⟨e, he, rfl⟩ := List.mem_map.1 hvs
    exact absurd ((hone _).2 (h.1 e he)) e2
  · rw [e1]
    simp only
    have h3 : ∀ e ∈ grid, e.2 ≠ [] ∧ ∀ a ∈ e.2, ∀ b ∈ e.2, keyPath a = keyPath b :=
      fun e he => (hone _).1 (e3 _ (List.mem_map.2 ⟨e, he, rfl⟩))
    -- one path per name
    have hps : ∃ ps : List (Option (List Str)), List.Forall₂ (fun e p => e.2 ≠ [] ∧ ∀ a ∈ e.2, keyPath a = p) grid ps := by
      clear e1 e2 e3 e4
      induction grid with
      | nil => exact ⟨[], .nil⟩
      | cons e grid ih =>
        obtain ⟨ps, hps⟩ := ih (fun e he => h3 e (by simp [he]))
        obtain ⟨h, hp⟩ := h3 e (by simp)
        obtain ⟨v, l, hv⟩ := List.exists_cons_of_ne_nil h
        exact ⟨keyPath v :: ps, .cons ⟨h, fun a ha => hp a ha v (by rw [hv]; simp)⟩ hps⟩
    obtain ⟨ps, hps⟩ := hps
    have hmem : ∀ x, x ∈ big ↔ x ∈ ps := by
      intro x
      rw [e4 x]
      simp only [List.not_mem_nil, false_or, List.mem_map, exists_exists_and_eq_and]
      clear e1 e2 e3 e4 h3
      induction hps with
      | nil => simp
      | @cons e p grid ps h1 _ ih =>
        rw [List.mem_cons, ← ih]
        simp only [List.mem_cons, exists_eq_or_imp, pathSet_one' h1.1 h1.2, List.not_mem_nil, or_false]
    have hlen : big.length = ps.dedup.length :=
      ((List.perm_ext_iff_of_nodup e2 (List.nodup_dedup ps)).2 (fun x => by rw [hmem, List.mem_dedup])).length_eq
    have hglen : grid.length = ps.length := hps.length_eq
    have hnd : (big.length = grid.length) ↔ ps.Nodup := by
      rw [hlen, hglen]
      constructor
      · intro h
        have := (List.dedup_sublist ps).eq_of_length h
        rw [← this]; exact List.nodup_dedup _
      · intro h; rw [h.dedup]
    have hpw : ps.Nodup ↔ grid.Pairwise (fun e e' => ∀ a ∈ e.2, ∀ b ∈ e'.2, keyPath a ≠ keyPath b) := by
      clear e1 e2 e3 e4 h3 hmem hlen hglen hnd
      induction hps with
      | nil => simp
      | @cons e p grid ps h1 h2 ih =>
        rw [List.nodup_cons, List.pairwise_cons, ih]
        refine and_congr_left (fun _ => ?_)
        clear ih
        induction h2 with
        | nil => simp
        | @cons e' p' grid ps g1 _ ih =>
          rename_i hpw
          rw [List.mem_cons, not_or, List.forall_mem_cons, ih (List.pairwise_cons.1 hpw).2]
          refine and_congr_left (fun _ => ?_)
          constructor
          · intro hne a ha b hb
            rw [h1.2 a ha, g1.2 b hb]; exact hne
          · intro h
            obtain ⟨v, l, hv⟩ := List.exists_cons_of_ne_nil h1.1
            obtain ⟨v', l', hv'⟩ := List.exists_cons_of_ne_nil g1.1
            have := h v (by rw [hv]; simp) v' (by rw [hv']; simp)
            rwa [h1.2 v (by rw [hv]; simp), g1.2 v' (by rw [hv']; simp)] at this
    by_cases hb : big.length = grid.length
    · rw [if_neg (not_not.2 hb)]
      exact ⟨.inl rfl, ⟨fun _ => ⟨h3, hpw.1 (hnd.1 hb)⟩, fun _ => rfl⟩⟩
    · rw [if_pos hb]
      exact ⟨.inr rfl, ⟨fun h => by simp at h, fun h => absurd (hnd.2 (hpw.2 h.2)) hb⟩⟩

end Verif
