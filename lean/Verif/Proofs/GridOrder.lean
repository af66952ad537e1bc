import Verif.Spec.GridOrder
import Verif.Proofs.GridCheck

/-! # Proofs about the settings of a grid search -/

namespace Verif

theorem sets_iff_valueAt {l : List (Str × Json)} {p : List Str} : Sets l p ↔ ∃ s, ValueAt l p s := by
  constructor
  · intro h
    induction h with
    | leaf h => exact ⟨_, .leaf h⟩
    | sub h _ ih => obtain ⟨s, hs⟩ := ih; exact ⟨s, .sub h hs⟩
  · rintro ⟨s, h⟩
    induction h with
    | leaf h => exact .leaf h
    | sub h _ ih => exact .sub h ih

/-- Both dictionaries have the same keys, with dictionaries at the same places. -/
inductive SameKeys : List (Str × Json) → List (Str × Json) → Prop
  | mk {a c : List (Str × Json)} : a.map Prod.fst = c.map Prod.fst →
      (∀ k v w, assocGet k a = some v → assocGet k c = some w → (v.IsObj ↔ w.IsObj)) →
      (∀ k x y, assocGet k a = some (.obj x) → assocGet k c = some (.obj y) → SameKeys x y) → SameKeys a c

theorem getObj {v : Json} (h : v.IsObj) : ∃ x, v = .obj x := by
  cases v with
  | atom => exact h.elim
  | obj x => exact ⟨x, rfl⟩

theorem SameKeys.trans {a b c : List (Str × Json)} (h : SameKeys a b) (h' : SameKeys b c) : SameKeys a c := by
  induction h generalizing c with
  | @mk a b h1 h2 h3 ih =>
    cases h' with
    | mk g1 g2 g3 =>
      have mid : ∀ k v, assocGet k a = some v → ∃ u, assocGet k b = some u := fun k v hv =>
        assocGet_some_iff.2 (h1 ▸ assocGet_some_iff.1 ⟨v, hv⟩)
      refine .mk (h1.trans g1) (fun k v w hv hw => ?_) (fun k x y hx hy => ?_)
      · obtain ⟨u, hu⟩ := mid k v hv
        exact (h2 k v u hv hu).trans (g2 k u w hu hw)
      · obtain ⟨u, hu⟩ := mid k _ hx
        obtain ⟨z, rfl⟩ := getObj ((h2 k _ u hx hu).1 trivial)
        exact ih k x z hx hu (g3 k z y hu hy)

theorem sameKeys_refl_aux (n : Nat) : ∀ a : List (Str × Json), sizeOf a ≤ n → SameKeys a a := by
  induction n with
  | zero => intro a h; cases a <;> simp at h
  | succ n ih =>
    intro a h
    refine .mk rfl (fun k v w hv hw => ?_) (fun k x y hx hy => ?_)
    · rw [hv] at hw; cases hw; exact Iff.rfl
    · rw [hx] at hy
      cases hy
      refine ih x ?_
      have h1 := List.sizeOf_lt_of_mem (assocGet_mem hx)
      simp at h1
      omega

theorem SameKeys.refl (a : List (Str × Json)) : SameKeys a a := sameKeys_refl_aux _ a le_rfl

theorem Overrides.sameKeys {a b c : List (Str × Json)} (o : Overrides a b c) (h : SameShape a b) : SameKeys a c := by
  induction o with
  | @mk a b c g1 g2 g3 g4 g5 g6 ih =>
    have o := Overrides.mk g1 g2 g3 g4 g5 g6
    cases h with
    | mk p1 p2 =>
      refine .mk g1.symm (fun k v w hv hw => ?_) (fun k x y hx hy => ?_)
      · rcases o.cases' hw with ⟨_, h⟩ | h | ⟨u, w', z, r1, r2, r3, r4⟩
        · rw [hv] at h; cases h; exact Iff.rfl
        · exact p1 k v w hv h
        · rw [hv] at r1; cases r1; rw [r3]; exact Iff.rfl
      · by_cases hk : k ∈ b.map Prod.fst
        · obtain ⟨w, hw⟩ := assocGet_some_iff.2 hk
          obtain ⟨w, rfl⟩ := getObj ((p1 k _ w hx hw).1 trivial)
          exact ih k x w y hx hw hy (p2 k x w hx hw)
        · rw [g3 k hk, hx] at hy
          cases hy
          exact SameKeys.refl x

/-- The settings of an overridden dictionary. -/
theorem Overrides.valueAt {a b c : List (Str × Json)} (o : Overrides a b c) (h : SameShape a b) (p : List Str) (s : Str) :
    ValueAt c p s ↔ ValueAt b p s ∨ (¬ Sets b p ∧ ValueAt a p s) := by
  induction o generalizing p with
  | @mk a b c g1 g2 g3 g4 g5 g6 ih =>
    have o := Overrides.mk g1 g2 g3 g4 g5 g6
    cases h with
    | mk p1 p2 =>
      constructor
      · intro hc
        cases hc with
        | @leaf _ k _ hk =>
          rcases o.cases' hk with ⟨h1, h⟩ | h | ⟨u, w', z, r1, r2, r3, r4⟩
          · refine .inr ⟨fun hs => ?_, .leaf h⟩
            obtain ⟨_, hv⟩ := sets_iff_valueAt.1 hs
            cases hv with
            | leaf hv => exact h1 (assocGet_some_iff.1 ⟨_, hv⟩)
            | sub hv _ => exact h1 (assocGet_some_iff.1 ⟨_, hv⟩)
          · exact .inl (.leaf h)
          · cases r3
        | @sub _ z k _ p hk hv =>
          by_cases hm : k ∈ b.map Prod.fst
          · obtain ⟨v, hva⟩ := assocGet_some_iff.2 (g2 k hm)
            obtain ⟨w, hw⟩ := assocGet_some_iff.2 hm
            have hw' : w.IsObj := by
              by_contra hno
              have := g4 k v w hva hw (fun h => hno h.2)
              rw [hk] at this
              cases this
              exact hno trivial
            obtain ⟨x, rfl⟩ := getObj ((p1 k v w hva hw).2 hw')
            obtain ⟨y, rfl⟩ := getObj hw'
            rcases (ih k x y z hva hw hk (p2 k x y hva hw) p).1 hv with h | ⟨h1, h2⟩
            · exact .inl (.sub hw h)
            · refine .inr ⟨fun hs => h1 ?_, .sub hva h2⟩
              obtain ⟨_, hs⟩ := sets_iff_valueAt.1 hs
              cases hs with
              | leaf hs => cases hv
              | sub hs h => rw [hw] at hs; cases hs; exact sets_iff_valueAt.2 ⟨_, h⟩
          · refine .inr ⟨fun hs => ?_, .sub (g3 k hm ▸ hk) hv⟩
            obtain ⟨_, hs⟩ := sets_iff_valueAt.1 hs
            cases hs with
            | leaf hs => exact hm (assocGet_some_iff.1 ⟨_, hs⟩)
            | sub hs _ => exact hm (assocGet_some_iff.1 ⟨_, hs⟩)
      · rintro (hb | ⟨hn, ha⟩)
        · cases hb with
          | @leaf _ k _ hk =>
            obtain ⟨v, hva⟩ := assocGet_some_iff.2 (g2 k (assocGet_some_iff.1 ⟨_, hk⟩))
            exact .leaf (g4 k v _ hva hk (fun h => h.2))
          | @sub _ y k _ p hk hv =>
            obtain ⟨v, hva⟩ := assocGet_some_iff.2 (g2 k (assocGet_some_iff.1 ⟨_, hk⟩))
            obtain ⟨x, rfl⟩ := getObj ((p1 k v _ hva hk).2 trivial)
            obtain ⟨z, hz⟩ := g5 k x y hva hk
            exact .sub hz ((ih k x y z hva hk hz (p2 k x y hva hk) p).2 (.inl hv))
        · cases ha with
          | @leaf _ k _ hk =>
            by_cases hm : k ∈ b.map Prod.fst
            · obtain ⟨w, hw⟩ := assocGet_some_iff.2 hm
              cases w with
              | atom w => exact absurd (.leaf hw) hn
              | obj w => exact ((p1 k _ _ hk hw).2 trivial).elim
            · exact .leaf (by rw [g3 k hm]; exact hk)
          | @sub _ x k _ p hk hv =>
            by_cases hm : k ∈ b.map Prod.fst
            · obtain ⟨w, hw⟩ := assocGet_some_iff.2 hm
              obtain ⟨y, rfl⟩ := getObj ((p1 k _ w hk hw).1 trivial)
              obtain ⟨z, hz⟩ := g5 k x y hk hw
              exact .sub hz ((ih k x y z hk hw hz (p2 k x y hk hw) p).2 (.inr ⟨fun hs => hn (.sub hw hs), hv⟩))
            · exact .sub (by rw [g3 k hm]; exact hk) hv

theorem OverridesAll.sameKeys {a d : List (Str × Json)} {bs : List (List (Str × Json))} (o : OverridesAll a bs d)
    (h : ∀ b ∈ bs, SameShape a b) : SameKeys a d := by
  induction o with
  | nil a => exact SameKeys.refl a
  | @cons a b c d bs o _ ih =>
    have h1 := h b (by simp)
    exact (o.sameKeys h1).trans (ih fun b' hb' => SameShape.after o h1 (h b' (by simp [hb'])))

/-- The settings of a dictionary overridden by dictionaries about different settings. -/
theorem OverridesAll.valueAt {a d : List (Str × Json)} {bs : List (List (Str × Json))} (o : OverridesAll a bs d)
    (h : ∀ b ∈ bs, SameShape a b) (hp : bs.Pairwise fun b b' => ∀ p, Sets b p → ¬ Sets b' p) (p : List Str) (s : Str) :
    ValueAt d p s ↔ (∃ b ∈ bs, ValueAt b p s) ∨ ((∀ b ∈ bs, ¬ Sets b p) ∧ ValueAt a p s) := by
  induction o with
  | nil a => simp
  | @cons a b c d bs o _ ih =>
    have h1 := h b (by simp)
    rw [List.pairwise_cons] at hp
    rw [ih (fun b' hb' => SameShape.after o h1 (h b' (by simp [hb']))) hp.2, o.valueAt h1]
    constructor
    · rintro (⟨b', hb', hv⟩ | ⟨hn, hv | ⟨hb, hv⟩⟩)
      · exact .inl ⟨b', by simp [hb'], hv⟩
      · exact .inl ⟨b, by simp, hv⟩
      · refine .inr ⟨?_, hv⟩
        simp only [List.mem_cons, forall_eq_or_imp]
        exact ⟨hb, hn⟩
    · rintro (⟨b', hb', hv⟩ | ⟨hn, hv⟩)
      · rcases List.mem_cons.1 hb' with rfl | hb'
        · exact .inr ⟨fun b2 h2 => hp.1 b2 h2 p (sets_iff_valueAt.2 ⟨s, hv⟩), .inl hv⟩
        · exact .inl ⟨b', hb', hv⟩
      · exact .inr ⟨fun b' hb' => hn b' (by simp [hb']), .inr ⟨hn b (by simp), hv⟩⟩

/-- Dictionaries with the same keys and the same settings are equal. -/
theorem SameKeys.ext {a c : List (Str × Json)} (h : SameKeys a c) (hw : (Json.obj a).WF)
    (hv : ∀ p s, ValueAt a p s → ValueAt c p s) : a = c := by
  induction h with
  | @mk a c h1 h2 h3 ih =>
    refine assoc_ext h1 hw.nodup (fun k => ?_)
    cases ha : assocGet k a with
    | none => exact (assocGet_none_iff.2 (h1 ▸ assocGet_none_iff.1 ha)).symm
    | some v =>
      obtain ⟨w, hc⟩ := assocGet_some_iff.2 (h1 ▸ assocGet_some_iff.1 ⟨v, ha⟩)
      rw [hc]
      cases v with
      | atom s =>
        cases hv [k] s (.leaf ha) with
        | leaf h => rw [hc] at h; rw [h]
        | sub _ h => cases h
      | obj x =>
        obtain ⟨y, rfl⟩ := getObj ((h2 k _ w ha hc).1 trivial)
        rw [ih k x y ha hc (hw.get ha) fun p s hs => ?_]
        have := hv (k :: p) s (.sub ha hs)
        cases this with
        | leaf h => cases hs
        | sub h h' => rw [hc] at h; cases h; exact h'

theorem SameKeys.symm {a c : List (Str × Json)} (h : SameKeys a c) : SameKeys c a := by
  induction h with
  | mk h1 h2 _ ih =>
    exact .mk h1.symm (fun k v w hv hw => (h2 k w v hw hv).symm) (fun k x y hx hy => ih k y x hy hx)

/-- Keys missing after overriding were missing before, and the other way round. -/
theorem SameKeys.missing {a c b : List (Str × Json)} (h : SameKeys a c) (m : Missing a b) : Missing c b := by
  induction m generalizing c with
  | key h1 h2 => cases h with | mk g1 _ _ => exact .key h1 (g1 ▸ h2)
  | @sub a b x y k h1 h2 _ ih =>
    cases h with
    | mk g1 g2 g3 =>
      obtain ⟨w, hc⟩ := assocGet_some_iff.2 (g1 ▸ assocGet_some_iff.1 ⟨_, h1⟩)
      obtain ⟨z, rfl⟩ := getObj ((g2 k _ w h1 hc).1 trivial)
      exact .sub hc h2 (ih (g3 k x z h1 hc))

theorem MissingAll.some {a : List (Str × Json)} {bs : List (List (Str × Json))} (m : MissingAll a bs)
    (h : ∀ b ∈ bs, SameShape a b) : ∃ b ∈ bs, Missing a b := by
  induction m with
  | @here a b bs m => exact ⟨b, by simp, m⟩
  | @later a b c bs o _ ih =>
    have h1 := h b (by simp)
    obtain ⟨b', hb', m⟩ := ih fun b' hb' => SameShape.after o h1 (h b' (by simp [hb']))
    exact ⟨b', by simp [hb'], (o.sameKeys h1).symm.missing m⟩

theorem OverridesAll.not_missing {a d : List (Str × Json)} {bs : List (List (Str × Json))} (o : OverridesAll a bs d)
    (h : ∀ b ∈ bs, SameShape a b) : ∀ b ∈ bs, ¬ Missing a b := by
  induction o with
  | nil a => simp
  | @cons a b c d bs o _ ih =>
    have h1 := h b (by simp)
    have := ih fun b' hb' => SameShape.after o h1 (h b' (by simp [hb']))
    intro b' hb' m
    rcases List.mem_cons.1 hb' with rfl | hb'
    · exact m.not_overrides c o
    · exact this b' hb' ((o.sameKeys h1).missing m)

theorem OverridesAll.wf {a d : List (Str × Json)} {bs : List (List (Str × Json))} (o : OverridesAll a bs d)
    (ha : (Json.obj a).WF) (hb : ∀ b ∈ bs, (Json.obj b).WF) : (Json.obj d).WF := by
  induction o with
  | nil a => exact ha
  | @cons a b c d bs o _ ih => exact ih (o.wf ha (hb b (by simp))) fun b' hb' => hb b' (by simp [hb'])

end Verif
