import Verif.Proofs.Vocab
import Verif.Props.Datamodel3

/-! # TagPart-of-speech label tables -/

namespace Verif

/-! ### helpers -/

theorem mapM'_total {α β : Type} {f : α → Res β} {l : List α} (h : ∀ a ∈ l, ∃ b, f a = .ok b) :
    ∃ r, mapM' f l = .ok r := by
  induction l with
  | nil => exact ⟨[], rfl⟩
  | cons a l ih =>
    obtain ⟨b, hb⟩ := h a (by simp)
    obtain ⟨r, hr⟩ := ih (fun x hx => h x (List.mem_cons_of_mem _ hx))
    exact ⟨b :: r, by simp only [mapM', hb, hr]⟩

theorem forall₂_getElem? {α β : Type} {R : α → β → Prop} {l : List α} {r : List β} :
    List.Forall₂ R l r ↔ l.length = r.length ∧
      ∀ (j : Nat) x y, l[j]? = some x → r[j]? = some y → R x y := by
  constructor
  · intro h
    refine ⟨h.length_eq, ?_⟩
    induction h with
    | nil => simp
    | cons hab _ ih =>
      intro j x y hx hy
      cases j with
      | zero =>
        simp only [List.getElem?_cons_zero, Option.some.injEq] at hx hy
        subst hx hy
        exact hab
      | succ j =>
        rw [List.getElem?_cons_succ] at hx hy
        exact ih j x y hx hy
  · rintro ⟨hlen, h⟩
    induction l generalizing r with
    | nil =>
      cases r with
      | nil => exact .nil
      | cons b r => simp at hlen
    | cons a l ih =>
      cases r with
      | nil => simp at hlen
      | cons b r =>
        refine .cons (h 0 a b (by simp) (by simp)) (ih (by simpa using hlen) ?_)
        intro j x y hx hy
        exact h (j + 1) x y (by rw [List.getElem?_cons_succ]; exact hx)
          (by rw [List.getElem?_cons_succ]; exact hy)

theorem mapM'_zipIdx_ok {α β : Type} {f : α × Nat → Res β} {l : List α} {r : List β} :
    mapM' f l.zipIdx = .ok r ↔ l.length = r.length ∧
      ∀ (j : Nat) x y, l[j]? = some x → r[j]? = some y → f (x, j) = .ok y := by
  rw [mapM'_ok_iff, forall₂_getElem?, List.length_zipIdx]
  refine and_congr_right (fun _ => ?_)
  constructor
  · intro h j x y hx hy
    exact h j (x, j) y (by rw [List.getElem?_zipIdx, hx]; simp) hy
  · intro h j x y hx hy
    rw [List.getElem?_zipIdx] at hx
    cases hl : l[j]? with
    | none => rw [hl] at hx; simp at hx
    | some a =>
      rw [hl] at hx
      simp only [Option.map_some, Option.some.injEq, Nat.zero_add] at hx
      subst hx
      exact h j a y hl hy

/-! ### equality of parts -/

theorem optPosEq_rel : EqRel Token.optPosEq := by
  refine ⟨fun a => optPosEq_iff.2 ?_, fun a b h => ?_, fun a b c h1 h2 => ?_⟩
  · cases a with
    | none => exact .none
    | some p => exact .some (Pos.pyEq_iff.1 (by simp [Pos.pyEq, Dict.pyEq_iff]))
  · cases a <;> cases b <;> simp_all [Token.optPosEq, Pos.pyEq, Dict.pyEq_iff]
  · cases a <;> cases b <;> cases c <;> simp_all [Token.optPosEq, Pos.pyEq, Dict.pyEq_iff]

theorem partEq_rel : EqRel TagPart.eq := by
  refine ⟨fun a => ?_, fun a b h => ?_, fun a b c h1 h2 => ?_⟩
  · cases a with
    | pos p => exact optPosEq_rel.refl p
    | _ => simp [TagPart.eq]
  · cases a <;> cases b <;> simp_all [TagPart.eq]
    exact optPosEq_rel.symm _ _ h
  · cases a <;> cases b <;> cases c <;> simp_all [TagPart.eq]
    exact optPosEq_rel.trans _ _ _ h1 h2

/-! ### tables of arbitrary counts -/

theorem countAdd_keys {α : Type} {eq : α → α → Bool} (c : List (α × Nat)) (x : α) (n : Nat) :
    (countAdd eq c x n).map Prod.fst =
      if c.any (fun p => eq p.1 x) then c.map Prod.fst else c.map Prod.fst ++ [x] := by
  unfold countAdd
  generalize (eqGet eq x c).getD 0 + n = v
  induction c with
  | nil => rfl
  | cons p c ih =>
    by_cases h : eq p.1 x = true
    · simp [eqSet, h]
    · by_cases h2 : c.any (fun p => eq p.1 x) = true
      · rw [if_pos h2] at ih
        have h3 : (p :: c).any (fun p => eq p.1 x) = true := by
          rw [List.any_cons, h2, Bool.or_true]
        rw [if_pos h3, eqSet, if_neg h, List.map_cons, ih, List.map_cons]
      · rw [if_neg h2] at ih
        have h3 : ¬ (p :: c).any (fun p => eq p.1 x) = true := by
          rw [List.any_cons, Bool.or_eq_true]
          exact fun h' => h'.elim h h2
        rw [if_neg h3, eqSet, if_neg h, List.map_cons, ih, List.map_cons, List.cons_append]

theorem countAdd_spec {α : Type} {eq : α → α → Bool} (he : EqRel eq) (c : List (α × Nat)) (x : α)
    (n : Nat) (hd : Distinct eq (c.map Prod.fst)) :
    Distinct eq ((countAdd eq c x n).map Prod.fst) ∧
    (∀ y ∈ (countAdd eq c x n).map Prod.fst, y ∈ c.map Prod.fst ∨ y = x) ∧
    (∀ y ∈ c.map Prod.fst, y ∈ (countAdd eq c x n).map Prod.fst) ∧
    ∃ y ∈ (countAdd eq c x n).map Prod.fst, eq y x = true := by
  rw [countAdd_keys]
  by_cases h : c.any (fun p => eq p.1 x) = true
  · rw [if_pos h]
    obtain ⟨p, hp, hpx⟩ := List.any_eq_true.1 h
    exact ⟨hd, fun y hy => Or.inl hy, fun y hy => hy, p.1, List.mem_map.2 ⟨p, hp, rfl⟩, hpx⟩
  · rw [if_neg h]
    refine ⟨?_, ?_, ?_, x, by simp, he.refl x⟩
    · refine List.pairwise_append.2 ⟨hd, by simp, ?_⟩
      intro a ha b hb
      simp only [List.mem_singleton] at hb
      subst hb
      obtain ⟨p, hp, rfl⟩ := List.mem_map.1 ha
      cases hpb : eq p.1 b with
      | false => rfl
      | true => exact absurd (List.any_eq_true.2 ⟨p, hp, hpb⟩) h
    · intro y hy
      simpa using hy
    · intro y hy
      exact List.mem_append_left _ hy

theorem id2obj_zero {α : Type} {eq : α → α → Bool} {lt : α → α → Res Bool} (he : EqRel eq)
    {c : List (α × Nat)} (hd : Distinct eq (c.map Prod.fst)) {table : List α}
    (h : id2obj eq lt c 0 = .ok table) :
    Distinct eq table ∧ table ≠ [] ∧ ∀ y, y ∈ table ↔ y ∈ c.map Prod.fst := by
  unfold id2obj at h
  cases hm : firstMax c with
  | none => rw [hm] at h; simp at h
  | some best =>
    rw [hm] at h
    simp only [aboveThreshold, gt_iff_lt, Int.lt_irrefl, if_false] at h
    split at h
    · simp at h
    · rename_i l hs
      injection h with h
      subst h
      have hp := sortM_perm hs
      obtain ⟨pre, post, hc, _, _⟩ := firstMax_spec hm
      have hbmem : best.1 ∈ c.map Prod.fst := List.mem_map.2 ⟨best, by rw [hc]; simp, rfl⟩
      refine ⟨?_, by simp, ?_⟩
      · refine List.pairwise_cons.2 ⟨?_, Distinct.perm he hp.symm (List.Pairwise.filter _ hd)⟩
        intro y hy
        have := (List.mem_filter.1 (hp.mem_iff.1 hy)).2
        rw [he.symm_eq]
        simpa using this
      · intro y
        constructor
        · intro hy
          rcases List.mem_cons.1 hy with rfl | hy
          · exact hbmem
          · exact (List.mem_filter.1 (hp.mem_iff.1 hy)).1
        · intro hy
          cases hyb : eq y best.1 with
          | false =>
            exact List.mem_cons_of_mem _ (hp.mem_iff.2 (List.mem_filter.2 ⟨hy, by simp [hyb]⟩))
          | true =>
            have : y = best.1 := by
              by_contra hne
              have hpw : ∀ (l : List α), Distinct eq l → y ∈ l → best.1 ∈ l → False := by
                intro l hl h1 h2
                induction l with
                | nil => simp at h1
                | cons a l ih =>
                  obtain ⟨g1, g2⟩ := List.pairwise_cons.1 hl
                  rcases List.mem_cons.1 h1 with h1 | h1
                  · rcases List.mem_cons.1 h2 with h2 | h2
                    · exact hne (h1.trans h2.symm)
                    · have := g1 _ h2
                      rw [← h1, hyb] at this
                      simp at this
                  · rcases List.mem_cons.1 h2 with h2 | h2
                    · have := g1 _ h1
                      rw [← h2, he.symm_eq, hyb] at this
                      simp at this
                    · exact ih g2 h1 h2
              exact hpw _ hd hy hbmem
            rw [this]
            simp

theorem id2obj_zero_total {α : Type} {eq : α → α → Bool} {lt : α → α → Res Bool}
    {c : List (α × Nat)} (hne : c ≠ []) (hc : Comparable lt (c.map Prod.fst)) :
    ∃ table, id2obj eq lt c 0 = .ok table := by
  unfold id2obj
  cases hm : firstMax c with
  | none => exact absurd (firstMax_none.1 hm) hne
  | some best =>
    simp only [aboveThreshold, gt_iff_lt, Int.lt_irrefl, if_false]
    obtain ⟨r, hr⟩ := sortM_total (lt := lt) (l := (c.map Prod.fst).filter (fun o => !eq o best.1))
      (fun a ha b hb => hc a (List.mem_filter.1 ha).1 b (List.mem_filter.1 hb).1)
    exact ⟨_, by rw [hr]⟩

/-! ### splitting -/

theorem updateList_keys_congr {K V : Type} [DecidableEq K] (l l' : List (K × V)) (d d' : Dict K V)
    (hd : d.keys = d'.keys) (hl : l.map Prod.fst = l'.map Prod.fst) :
    (d.updateList l).keys = (d'.updateList l').keys := by
  induction l generalizing l' d d' with
  | nil =>
    cases l' with
    | nil => exact hd
    | cons p l' => simp at hl
  | cons p l ih =>
    cases l' with
    | nil => simp at hl
    | cons p' l' =>
      simp only [List.map_cons, List.cons.injEq] at hl
      simp only [Dict.updateList, List.foldl_cons]
      refine ih l' (d.set p.1 p.2) (d'.set p'.1 p'.2) ?_ hl.2
      rw [Dict.keys_set, Dict.keys_set, hd, hl.1]

theorem ofList_keys_congr {K V : Type} [DecidableEq K] (l l' : List (K × V))
    (hl : l.map Prod.fst = l'.map Prod.fst) : (Dict.ofList l).keys = (Dict.ofList l').keys :=
  updateList_keys_congr l l' _ _ rfl hl

/-- The names of the parts do not depend on the tag. -/
theorem split_keys {sp : Splitter} {p q : Option Pos} {ps qs : Dict Str TagPart}
    (hp : sp.split p = .ok ps) (hq : sp.split q = .ok qs) : ps.keys = qs.keys := by
  cases sp with
  | joint =>
    simp only [Splitter.split, Except.ok.injEq] at hp hq
    subst hp hq
    exact ofList_keys_congr _ _ rfl
  | xf =>
    cases p <;> cases q <;> simp only [Splitter.split, Except.ok.injEq, reduceCtorEq] at hp hq
    subst hp hq
    exact ofList_keys_congr _ _ rfl
  | uxf =>
    cases p <;> cases q <;> simp only [Splitter.split, Except.ok.injEq, reduceCtorEq] at hp hq
    subst hp hq
    exact ofList_keys_congr _ _ rfl
  | gran keys =>
    cases p <;> cases q <;> simp only [Splitter.split, Except.ok.injEq, reduceCtorEq] at hp hq
    subst hp hq
    refine updateList_keys_congr _ _ _ _ (ofList_keys_congr _ _ rfl) ?_
    exact ofList_keys_congr _ _ (by simp [Function.comp_def])

/-- What kinds of parts a splitter produces. -/
def PartOK : Splitter → Str → TagPart → Prop
  | .joint, _, y => ∃ p, y = .pos p
  | .uxf, k, y => (k = sUPOS ∨ k = sXPOS → ∃ s, y = .str s) ∧ (k = sFEATS → ∃ l, y = .feats l)
  | .xf, k, y => (k = sUPOS → ∃ s, y = .str s) ∧ (k = sXPOSFEATS → ∃ x l, y = .xf x l)
  | .gran _, _, y => ∃ s, y = .str s

theorem updateList_all {K V : Type} [DecidableEq K] (P : K → V → Prop) (l : List (K × V))
    (d : Dict K V) (hd : ∀ k v, d.get? k = some v → P k v) (hl : ∀ p ∈ l, P p.1 p.2) (k : K) (v : V)
    (h : (d.updateList l).get? k = some v) : P k v := by
  induction l generalizing d with
  | nil => exact hd k v h
  | cons p l ih =>
    simp only [Dict.updateList, List.foldl_cons] at h
    refine ih (d.set p.1 p.2) ?_ (fun q hq => hl q (List.mem_cons_of_mem _ hq)) h
    intro k' v' h'
    rw [Dict.get?_set] at h'
    split at h'
    · rename_i he
      injection h' with h'
      subst h' he
      exact hl p (by simp)
    · exact hd k' v' h'

theorem ofList_all {K V : Type} [DecidableEq K] (P : K → V → Prop) (l : List (K × V))
    (hl : ∀ p ∈ l, P p.1 p.2) (k : K) (v : V) (h : (Dict.ofList l).get? k = some v) : P k v :=
  updateList_all P l _ (by simp [Dict.get?_empty]) hl k v h

theorem ofList_mem_of_get? {K V : Type} [DecidableEq K] (l : List (K × V)) (k : K) (v : V)
    (h : (Dict.ofList l).get? k = some v) : (k, v) ∈ l :=
  ofList_all (fun k v => (k, v) ∈ l) l (fun p hp => hp) k v h

theorem split_partOK {sp : Splitter} {p : Option Pos} {ps : Dict Str TagPart}
    (hp : sp.split p = .ok ps) {k : Str} {y : TagPart} (h : ps.get? k = some y) : PartOK sp k y := by
  cases sp with
  | joint =>
    simp only [Splitter.split, Except.ok.injEq] at hp
    subst hp
    refine ofList_all (PartOK .joint) _ ?_ k y h
    simp [PartOK]
  | xf =>
    cases p <;> simp only [Splitter.split, Except.ok.injEq, reduceCtorEq] at hp
    subst hp
    refine ofList_all (PartOK .xf) _ ?_ k y h
    simp [PartOK, sUPOS, sXPOSFEATS]
  | uxf =>
    cases p <;> simp only [Splitter.split, Except.ok.injEq, reduceCtorEq] at hp
    subst hp
    refine ofList_all (PartOK .uxf) _ ?_ k y h
    simp [PartOK, sUPOS, sXPOS, sFEATS]
  | gran keys =>
    cases p <;> simp only [Splitter.split, Except.ok.injEq, reduceCtorEq] at hp
    subst hp
    refine updateList_all (PartOK (.gran keys)) _ _ ?_ ?_ k y h
    · intro k' v' h'
      refine ofList_all (PartOK (.gran keys)) _ ?_ k' v' h'
      simp [PartOK]
    · rintro ⟨k', v'⟩ hq
      refine ofList_all (PartOK (.gran keys)) _ ?_ k' v' (Dict.get?_mem.2 hq)
      intro r hr
      obtain ⟨k2, _, rfl⟩ := List.mem_map.1 hr
      exact ⟨_, rfl⟩

/-! ### counting the parts -/

/-- Invariant of the counting loop after the labels `done`. -/
structure CountInv (sp : Splitter) (keys : List Str) (result : PartCounts)
    (done : List (Option Pos)) : Prop where
  keys_eq : result.keys = keys
  distinct : ∀ k c, result.get? k = some c → Distinct TagPart.eq (c.map Prod.fst)
  from_labels : ∀ k c, result.get? k = some c → ∀ y ∈ c.map Prod.fst,
    ∃ p ∈ done, ∃ ps, sp.split p = .ok ps ∧ ps.get? k = some y
  covers : ∀ k c, result.get? k = some c → ∀ p ∈ done, ∀ ps, sp.split p = .ok ps →
    ∀ v, ps.get? k = some v → ∃ y ∈ c.map Prod.fst, TagPart.eq y v = true

theorem countParts_entries (n : Nat) (es : List (Str × TagPart)) (result : PartCounts)
    (hes : ∀ e ∈ es, e.1 ∈ result.keys) (hn : (es.map Prod.fst).Nodup) :
    ∃ r', forM' (countPart n) result es = .ok r' ∧ r'.keys = result.keys ∧
      ∀ k, r'.get? k = match assocGet k es with
        | some v => (result.get? k).map (fun c => countAdd TagPart.eq c v n)
        | none => result.get? k := by
  induction es generalizing result with
  | nil => exact ⟨result, rfl, rfl, fun k => rfl⟩
  | cons e es ih =>
    obtain ⟨k0, v0⟩ := e
    have hk := hes (k0, v0) (by simp)
    obtain ⟨c, hc⟩ := Option.isSome_iff_exists.1 (Dict.get?_isSome.2 hk)
    have hstep : countPart n result (k0, v0) = .ok (result.set k0 (countAdd TagPart.eq c v0 n)) := by
      simp only [countPart, Dict.getItem, hc]
    have hkeys : (result.set k0 (countAdd TagPart.eq c v0 n)).keys = result.keys := by
      rw [Dict.keys_set, if_pos hk]
    simp only [List.map_cons, List.nodup_cons] at hn
    obtain ⟨r', h1, h2, h3⟩ := ih (result.set k0 (countAdd TagPart.eq c v0 n)) (by
      intro e he
      rw [hkeys]
      exact hes e (List.mem_cons_of_mem _ he)) hn.2
    refine ⟨r', by simp only [forM', hstep]; exact h1, h2.trans hkeys, ?_⟩
    intro k
    rw [h3 k]
    by_cases hkk : k0 = k
    · subst hkk
      have : assocGet k0 es = none := assocGet_none.2 hn.1
      simp only [this, assocGet, if_true, Dict.get?_set, hc, Option.map_some]
    · have : ¬ k = k0 := fun e => hkk e.symm
      simp only [assocGet, hkk, if_false, Dict.get?_set, this]

theorem countInv_step {sp : Splitter} {keys : List Str} {result : PartCounts}
    {done : List (Option Pos)} (hi : CountInv sp keys result done) (item : Option Pos × Nat)
    (ps : Dict Str TagPart) (hs : sp.split item.1 = .ok ps) (hkeys : ps.keys = keys) :
    ∃ r', countLabel sp result item = .ok r' ∧ CountInv sp keys r' (done ++ [item.1]) := by
  obtain ⟨r', h1, h2, h3⟩ := countParts_entries item.2 ps.entries result (by
    intro e he
    rw [hi.keys_eq, ← hkeys]
    exact List.mem_map.2 ⟨e, he, rfl⟩) ps.nodup
  have hget : ∀ k c', r'.get? k = some c' → ∃ c v, result.get? k = some c ∧
      ps.get? k = some v ∧ c' = countAdd TagPart.eq c v item.2 := by
    intro k c' hc'
    have hk : k ∈ ps.keys := by
      rw [hkeys, ← hi.keys_eq, ← h2]
      exact Dict.get?_isSome.1 (by rw [hc']; rfl)
    obtain ⟨v, hv⟩ := Option.isSome_iff_exists.1 (Dict.get?_isSome.2 hk)
    have hv' : assocGet k ps.entries = some v := hv
    rw [h3 k, hv'] at hc'
    simp only at hc'
    obtain ⟨c, hc, rfl⟩ := Option.map_eq_some_iff.1 hc'
    exact ⟨c, v, hc, hv, rfl⟩
  refine ⟨r', by simp only [countLabel, hs]; exact h1, h2.trans hi.keys_eq, ?_, ?_, ?_⟩
  · intro k c' hc'
    obtain ⟨c, v, hc, _, rfl⟩ := hget k c' hc'
    exact (countAdd_spec partEq_rel c v item.2 (hi.distinct k c hc)).1
  · intro k c' hc' y hy
    obtain ⟨c, v, hc, hv, rfl⟩ := hget k c' hc'
    rcases (countAdd_spec partEq_rel c v item.2 (hi.distinct k c hc)).2.1 y hy with hy | rfl
    · obtain ⟨p, hp, ps', g1, g2⟩ := hi.from_labels k c hc y hy
      exact ⟨p, List.mem_append_left _ hp, ps', g1, g2⟩
    · exact ⟨item.1, by simp, ps, hs, hv⟩
  · intro k c' hc' p hp ps' hps' v' hv'
    obtain ⟨c, v, hc, hv, rfl⟩ := hget k c' hc'
    obtain ⟨_, _, g3, g4⟩ := countAdd_spec partEq_rel c v item.2 (hi.distinct k c hc)
    rcases List.mem_append.1 hp with hp | hp
    · obtain ⟨y, hy, hyv⟩ := hi.covers k c hc p hp ps' hps' v' hv'
      exact ⟨y, g3 y hy, hyv⟩
    · simp only [List.mem_singleton] at hp
      subst hp
      rw [hs] at hps'
      injection hps' with hps'
      subst hps'
      rw [hv] at hv'
      injection hv' with hv'
      subst hv'
      exact g4

theorem countInv_loop {sp : Splitter} {keys : List Str} (items : List (Option Pos × Nat))
    {result : PartCounts} {done : List (Option Pos)} (hi : CountInv sp keys result done)
    (hs : ∀ item ∈ items, ∃ ps, sp.split item.1 = .ok ps ∧ ps.keys = keys) :
    ∃ r', forM' (countLabel sp) result items = .ok r' ∧
      CountInv sp keys r' (done ++ items.map Prod.fst) := by
  induction items generalizing result done with
  | nil => exact ⟨result, rfl, by simpa using hi⟩
  | cons item items ih =>
    obtain ⟨ps, h1, h2⟩ := hs item (by simp)
    obtain ⟨r1, g1, g2⟩ := countInv_step hi item ps h1 h2
    obtain ⟨r2, k1, k2⟩ := ih g2 (fun i hi => hs i (List.mem_cons_of_mem _ hi))
    exact ⟨r2, by simp only [forM', g1]; exact k1, by simpa using k2⟩

theorem countLabel_loop_split {sp : Splitter} (items : List (Option Pos × Nat))
    {result r' : PartCounts} (h : forM' (countLabel sp) result items = .ok r') :
    ∀ item ∈ items, ∃ ps, sp.split item.1 = .ok ps := by
  induction items generalizing result with
  | nil => simp
  | cons item items ih =>
    simp only [forM'] at h
    split at h
    · rename_i r1 h1
      intro i hi
      rcases List.mem_cons.1 hi with rfl | hi
      · unfold countLabel at h1
        split at h1
        · simp at h1
        · rename_i ps hps
          exact ⟨ps, hps⟩
      · exact ih h i hi
    · simp at h

theorem countInv_init (sp : Splitter) (keys : List Str) (hn : keys.Nodup) :
    CountInv sp keys (Dict.ofList (keys.map (fun k => (k, [])))) [] := by
  have hn' : ((keys.map (fun k => (k, ([] : List (TagPart × Nat))))).map Prod.fst).Nodup := by
    simpa [Function.comp_def] using hn
  have hnil : ∀ k c, (Dict.ofList (keys.map (fun k => (k, ([] : List (TagPart × Nat)))))).get? k =
      some c → c = [] := by
    intro k c h
    have := ofList_mem_of_get? _ _ _ h
    simp only [List.mem_map, Prod.mk.injEq] at this
    obtain ⟨_, _, _, rfl⟩ := this
    rfl
  refine ⟨?_, ?_, ?_, ?_⟩
  · rw [Dict.keys, Dict.ofList_entries _ hn']
    simp [Function.comp_def]
  · intro k c h
    rw [hnil k c h]
    simp [Distinct]
  · intro k c h y hy
    rw [hnil k c h] at hy
    simp at hy
  · intro k c h p hp
    simp at hp

/-- The counts of the parts: their tables. -/
theorem countParts_spec {sp : Splitter} {counts : List (Option Pos × Nat)} {result : PartCounts}
    (h : countParts counts sp = .ok result) :
    ∃ keys, CountInv sp keys result (counts.map Prod.fst) ∧
      (∀ p ∈ counts.map Prod.fst, ∃ ps, sp.split p = .ok ps) ∧
      ∀ p ps, sp.split p = .ok ps → ps.keys = keys := by
  cases counts with
  | nil => simp [countParts] at h
  | cons first rest =>
    simp only [countParts] at h
    split at h
    · simp at h
    · rename_i ps hps
      have hsp := countLabel_loop_split _ h
      have hk : ∀ p qs, sp.split p = .ok qs → qs.keys = ps.keys :=
        fun p qs hq => split_keys hq hps
      obtain ⟨r', h1, h2⟩ := countInv_loop (first :: rest)
        (countInv_init sp ps.keys ps.nodup) (by
          intro item hi
          obtain ⟨qs, hq⟩ := hsp item hi
          exact ⟨qs, hq, hk _ _ hq⟩)
      rw [h] at h1
      injection h1 with h1
      subst h1
      refine ⟨ps.keys, by simpa using h2, ?_, hk⟩
      intro p hp
      obtain ⟨item, hi, rfl⟩ := List.mem_map.1 hp
      exact hsp item hi

theorem countParts_total {sp : Splitter} {counts : List (Option Pos × Nat)} (hne : counts ≠ [])
    (hs : ∀ p ∈ counts.map Prod.fst, ∃ ps, sp.split p = .ok ps) :
    ∃ result, countParts counts sp = .ok result := by
  cases counts with
  | nil => exact absurd rfl hne
  | cons first rest =>
    obtain ⟨ps, hps⟩ := hs first.1 (by simp)
    simp only [countParts, hps]
    obtain ⟨r', h1, _⟩ := countInv_loop (first :: rest)
      (countInv_init sp ps.keys ps.nodup) (by
        intro item hi
        obtain ⟨qs, hq⟩ := hs item.1 (List.mem_map.2 ⟨item, hi, rfl⟩)
        exact ⟨qs, hq, split_keys hq hps⟩)
    exact ⟨r', h1⟩

/-! ### the tables -/

/-- What is known about the tables of a splitter built from `labels`. -/
structure TablesOK (t : PosTable) (keys : List Str) (labels : List (Option Pos)) : Prop where
  keys_eq : ∀ p ps, t.splitter.split p = .ok ps → ps.keys = keys
  splits : ∀ p ∈ labels, ∃ ps, t.splitter.split p = .ok ps
  inverse : t.parts2id = t.id2parts.map (obj2id TagPart.eq)
  length : t.id2parts.length = keys.length
  distinct : ∀ l ∈ t.id2parts, Distinct TagPart.eq l ∧ l ≠ []
  from_labels : ∀ (j : Nat) k l, keys[j]? = some k → t.id2parts[j]? = some l → ∀ y ∈ l,
    ∃ p ∈ labels, ∃ ps, t.splitter.split p = .ok ps ∧ ps.get? k = some y
  covers : ∀ (j : Nat) k l, keys[j]? = some k → t.id2parts[j]? = some l → ∀ p ∈ labels,
    ∀ ps, t.splitter.split p = .ok ps → ∀ v, ps.get? k = some v → ∃ y ∈ l, TagPart.eq y v = true

theorem buildPosTable_spec {s : Splitting} {labels : List (Option Pos)} {t : PosTable}
    (h : buildPosTable s labels = .ok t) :
    makeSplitter s (firsts Token.optPosEq labels) = .ok t.splitter ∧
    ∃ keys, TablesOK t keys (firsts Token.optPosEq labels) := by
  unfold buildPosTable at h
  have hfst : (counter Token.optPosEq labels).map Prod.fst = firsts Token.optPosEq labels := by
    rw [counter_eq optPosEq_rel, List.map_map]
    exact List.map_id _
  rw [hfst] at h
  split at h
  · simp at h
  · rename_i sp hsp
    split at h
    · simp at h
    · rename_i counts hc
      split at h
      · simp at h
      · rename_i tables ht
        injection h with h
        subst h
        refine ⟨hsp, ?_⟩
        obtain ⟨keys, hi, hs, hk⟩ := countParts_spec hc
        rw [hfst] at hi hs
        rw [mapM'_ok_iff, forall₂_getElem?] at ht
        obtain ⟨hlen, ht⟩ := ht
        have hentry : ∀ (j : Nat) k l, keys[j]? = some k → tables[j]? = some l →
            ∃ c, counts.get? k = some c ∧ id2obj TagPart.eq TagPart.lt c 0 = .ok l := by
          intro j k l hkj hl
          rw [← hi.keys_eq, Dict.keys, List.getElem?_map] at hkj
          obtain ⟨e, he, rfl⟩ := Option.map_eq_some_iff.1 hkj
          exact ⟨e.2, Dict.get?_mem.2 (List.mem_of_getElem? he), ht j e l he hl⟩
        refine ⟨keys, hk, hs, rfl, ?_, ?_, ?_, ?_⟩
        · rw [← hlen, ← hi.keys_eq]
          simp [Dict.keys]
        · intro l hl
          obtain ⟨j, hj⟩ := List.mem_iff_getElem?.1 hl
          have hjlt : j < tables.length := (List.getElem?_eq_some_iff.1 hj).1
          have hkl : j < keys.length := by
            rw [← hi.keys_eq, Dict.keys, List.length_map]; omega
          obtain ⟨c, h1, h2⟩ := hentry j keys[j] l (List.getElem?_eq_getElem hkl) hj
          obtain ⟨g1, g2, _⟩ := id2obj_zero partEq_rel (hi.distinct _ c h1) h2
          exact ⟨g1, g2⟩
        · intro j k l hkj hl y hy
          obtain ⟨c, h1, h2⟩ := hentry j k l hkj hl
          obtain ⟨_, _, g3⟩ := id2obj_zero partEq_rel (hi.distinct _ c h1) h2
          exact hi.from_labels k c h1 y ((g3 y).1 hy)
        · intro j k l hkj hl p hp ps hps v hv
          obtain ⟨c, h1, h2⟩ := hentry j k l hkj hl
          obtain ⟨_, _, g3⟩ := id2obj_zero partEq_rel (hi.distinct _ c h1) h2
          obtain ⟨y, hy, hyv⟩ := hi.covers k c h1 p hp ps hps v hv
          exact ⟨y, (g3 y).2 hy, hyv⟩

/-- Encoding a tag that can be split: every id is in range; it points to an equal part if there is
one in the table. -/
theorem encode_spec {t : PosTable} {keys : List Str} {labels : List (Option Pos)}
    (ht : TablesOK t keys labels) {p : Option Pos} {ps : Dict Str TagPart}
    (hs : t.splitter.split p = .ok ps) :
    ∃ ids : List Nat, t.encode p = .ok (ids.map (fun (n : Nat) => (n : Int))) ∧
      ids.length = keys.length ∧
      ∀ (j : Nat) i l k, ids[j]? = some i → t.id2parts[j]? = some l → keys[j]? = some k →
        ∃ v, ps.get? k = some v ∧ (ps.entries.map Prod.snd)[j]? = some v ∧ i < l.length ∧
          ((∃ y ∈ l, TagPart.eq y v = true) → ∃ y, l[i]? = some y ∧ TagPart.eq y v = true) := by
  have hlen : ps.entries.length = keys.length := by
    rw [← ht.keys_eq p ps hs]; simp [Dict.keys]
  have hval : ∀ (j : Nat) k, keys[j]? = some k → ∃ v, ps.get? k = some v ∧
      (ps.entries.map Prod.snd)[j]? = some v := by
    intro j k hk
    rw [← ht.keys_eq p ps hs, Dict.keys, List.getElem?_map] at hk
    obtain ⟨e, he, rfl⟩ := Option.map_eq_some_iff.1 hk
    exact ⟨e.2, Dict.get?_mem.2 (List.mem_of_getElem? he), by rw [List.getElem?_map, he]; rfl⟩
  refine ⟨(ps.entries.map Prod.snd).zipIdx.map (fun q =>
    (((t.parts2id[q.2]?).bind (fun d => eqGet TagPart.eq q.1 d)).getD 0)), ?_, ?_, ?_⟩
  · simp only [PosTable.encode, hs]
    rw [List.map_map]
    refine mapM'_ok_of_forall ?_
    rintro ⟨v, j⟩ hq
    have hj := List.mem_zipIdx_iff_getElem?.1 hq
    have hjlt := (List.getElem?_eq_some_iff.1 hj).1
    rw [List.length_map, hlen] at hjlt
    have hlt : j < t.parts2id.length := by rw [ht.inverse, List.length_map, ht.length]; exact hjlt
    simp only [encodePart, List.getElem?_eq_getElem hlt, Function.comp_apply, Option.bind_some]
  · simp [hlen]
  · intro j i l k hi hl hk
    obtain ⟨v, hv1, hv2⟩ := hval j k hk
    refine ⟨v, hv1, hv2, ?_⟩
    rw [List.getElem?_map, List.getElem?_zipIdx, hv2] at hi
    have hp2 : t.parts2id[j]? = some (obj2id TagPart.eq l) := by
      rw [ht.inverse, List.getElem?_map, hl]; rfl
    simp only [Option.map_some, Nat.zero_add, hp2, Option.bind_some, Option.some.injEq] at hi
    obtain ⟨hd, hne⟩ := ht.distinct l (List.mem_of_getElem? hl)
    cases hg : eqGet TagPart.eq v (obj2id TagPart.eq l) with
    | none =>
      rw [hg] at hi
      simp only [Option.getD_none] at hi
      subst hi
      refine ⟨List.length_pos_of_ne_nil hne, ?_⟩
      rintro ⟨y, hy, hyv⟩
      exfalso
      obtain ⟨i, hi⟩ := List.mem_iff_getElem?.1 hy
      rw [(eqGet_obj2id partEq_rel hd v i).2 ⟨y, hi, hyv⟩] at hg
      simp at hg
    | some n =>
      rw [hg] at hi
      simp only [Option.getD_some] at hi
      subst hi
      obtain ⟨y, hy, hyv⟩ := (eqGet_obj2id partEq_rel hd v n).1 hg
      exact ⟨(List.getElem?_eq_some_iff.1 hy).1, fun _ => ⟨y, hy, hyv⟩⟩

/-- Decoding ids that are in range. -/
theorem decode_parts {t : PosTable} {ids : List Nat} (hlen : ids.length = t.id2parts.length)
    (hr : ∀ (j : Nat) i l, ids[j]? = some i → t.id2parts[j]? = some l → i < l.length) :
    ∃ ys : List TagPart, ys.length = ids.length ∧
      t.decode (ids.map (fun (n : Nat) => (n : Int))) = t.splitter.combine ys ∧
      ∀ (j : Nat) i l, ids[j]? = some i → t.id2parts[j]? = some l → ys[j]? = l[i]? := by
  obtain ⟨ys, hys⟩ := mapM'_total (f := decodePart t.id2parts)
    (l := (ids.map (fun (n : Nat) => (n : Int))).zipIdx) (by
      rintro ⟨i, j⟩ hq
      have hj := List.mem_zipIdx_iff_getElem?.1 hq
      rw [List.getElem?_map] at hj
      obtain ⟨n, hn, rfl⟩ := Option.map_eq_some_iff.1 hj
      have hlt := (List.getElem?_eq_some_iff.1 hn).1
      rw [hlen] at hlt
      have hl := List.getElem?_eq_getElem hlt
      have hin := hr j n _ hn hl
      refine ⟨(t.id2parts[j])[n], ?_⟩
      simp only [decodePart, hl]
      exact pyGet_nat_ok.2 (List.getElem?_eq_getElem hin))
  refine ⟨ys, ?_, by simp only [PosTable.decode, hys], ?_⟩
  · have := (mapM'_zipIdx_ok.1 hys).1
    simpa using this.symm
  · intro j i l hi hl
    have hjlt := (List.getElem?_eq_some_iff.1 hi).1
    have hyl : j < ys.length := by
      have := (mapM'_zipIdx_ok.1 hys).1
      rw [List.length_map] at this
      omega
    have := (mapM'_zipIdx_ok.1 hys).2 j (i : Int) ys[j] (by rw [List.getElem?_map, hi]; rfl)
      (List.getElem?_eq_getElem hyl)
    simp only [decodePart, hl] at this
    rw [pyGet_nat_ok] at this
    rw [this, List.getElem?_eq_getElem hyl]

/-! ### combining -/

theorem granFeats_congr (keys : List Str) (ys vs : List TagPart)
    (h : List.Forall₂ (fun y v => TagPart.eq y v = true) ys vs) (l : List (Str × Str))
    (hv : granFeats keys vs = .ok l) : granFeats keys ys = .ok l := by
  induction h generalizing keys l with
  | nil => exact hv
  | @cons y v ys vs hyv _ ih =>
    cases v with
    | str o =>
      cases y <;> simp only [TagPart.eq, decide_eq_true_eq, Bool.false_eq_true] at hyv
      subst hyv
      rename_i o
      cases o with
      | none =>
        cases keys <;> (simp only [granFeats] at hv ⊢; exact ih _ _ hv)
      | some s =>
        cases keys with
        | nil => simp [granFeats] at hv
        | cons k keys =>
          simp only [granFeats] at hv ⊢
          split at hv
          · simp at hv
          · rename_i l' hl'
            rw [ih _ _ hl']
            exact hv
    | _ => cases keys <;> simp [granFeats] at hv

theorem TagPart.eq_pos {y : TagPart} {p : Option Pos} (h : TagPart.eq y (.pos p) = true) :
    ∃ q, y = .pos q ∧ Token.optPosEq q p = true := by
  cases y with
  | pos q => exact ⟨q, rfl, h⟩
  | _ => simp [TagPart.eq] at h

theorem TagPart.eq_str {y : TagPart} {s : Option Str} (h : TagPart.eq y (.str s) = true) : y = .str s := by
  cases y <;> simp_all [TagPart.eq]

theorem TagPart.eq_feats {y : TagPart} {l : List (Str × Str)} (h : TagPart.eq y (.feats l) = true) :
    y = .feats l := by
  cases y <;> simp_all [TagPart.eq]

theorem TagPart.eq_xf {y : TagPart} {x : Option Str} {l : List (Str × Str)}
    (h : TagPart.eq y (.xf x l) = true) : y = .xf x l := by
  cases y <;> simp_all [TagPart.eq]

theorem combine_congr (sp : Splitter) (ys vs : List TagPart)
    (h : List.Forall₂ (fun y v => TagPart.eq y v = true) ys vs) (q : Option Pos)
    (hv : sp.combine vs = .ok q) :
    ∃ q', sp.combine ys = .ok q' ∧ Token.optPosEq q' q = true := by
  unfold Splitter.combine at hv
  split at hv
  · injection hv with hv
    subst hv
    obtain ⟨y, ys', h1, _, rfl⟩ := List.forall₂_cons_right_iff.1 h
    obtain ⟨q, rfl, h2⟩ := TagPart.eq_pos h1
    exact ⟨q, by simp_all [Splitter.combine], h2⟩
  · injection hv with hv
    subst hv
    obtain ⟨y1, ys1, h1, h', rfl⟩ := List.forall₂_cons_right_iff.1 h
    obtain ⟨y2, ys2, h2, h'', rfl⟩ := List.forall₂_cons_right_iff.1 h'
    obtain ⟨y3, ys3, h3, h4, rfl⟩ := List.forall₂_cons_right_iff.1 h''
    obtain rfl := TagPart.eq_str h1
    obtain rfl := TagPart.eq_str h2
    obtain rfl := TagPart.eq_feats h3
    exact ⟨_, rfl, optPosEq_rel.refl _⟩
  · injection hv with hv
    subst hv
    obtain ⟨y1, ys1, h1, h', rfl⟩ := List.forall₂_cons_right_iff.1 h
    obtain ⟨y2, ys2, h2, h'', rfl⟩ := List.forall₂_cons_right_iff.1 h'
    obtain rfl := TagPart.eq_str h1
    obtain rfl := TagPart.eq_xf h2
    exact ⟨_, rfl, optPosEq_rel.refl _⟩
  · split at hv
    · simp at hv
    · rename_i l hl
      injection hv with hv
      subst hv
      obtain ⟨y1, ys1, h1, h', rfl⟩ := List.forall₂_cons_right_iff.1 h
      obtain ⟨y2, ys2, h2, h'', rfl⟩ := List.forall₂_cons_right_iff.1 h'
      obtain rfl := TagPart.eq_str h1
      obtain rfl := TagPart.eq_str h2
      exact ⟨_, by simp only [Splitter.combine, granFeats_congr _ _ _ h'' l hl],
        optPosEq_rel.refl _⟩
  all_goals simp at hv

theorem granFeats_vals (keys : List Str) (feats : Dict Str Str) :
    granFeats keys (keys.map (fun k => TagPart.str (feats.get? k))) =
      .ok (keys.filterMap (fun k => (feats.get? k).map (fun v => (k, v)))) := by
  induction keys with
  | nil => rfl
  | cons k keys ih =>
    simp only [List.map_cons]
    cases h : feats.get? k with
    | none =>
      simp only [granFeats, List.tail_cons, ih, List.filterMap_cons, h, Option.map_none]
    | some v =>
      simp only [granFeats, ih, List.filterMap_cons, h, Option.map_some]

/-- The granular splitter's own names are not feature names. -/
def NoClash : Splitter → Prop
  | .gran keys => keys.Nodup ∧ sUPOS ∉ keys ∧ sXPOS ∉ keys
  | _ => True

/-- The granular splitter knows all the features. -/
def KnowsFeats : Splitter → Option Pos → Prop
  | .gran keys, some p => ∀ k ∈ p.feats.keys, k ∈ keys
  | _, _ => True

theorem updateList_append {K V : Type} [DecidableEq K] (l : List (K × V)) (d : Dict K V)
    (h : (d.keys ++ l.map Prod.fst).Nodup) : (d.updateList l).entries = d.entries ++ l := by
  induction l generalizing d with
  | nil => simp [Dict.updateList]
  | cons p l ih =>
    have hnew : p.1 ∉ d.entries.map Prod.fst := by
      intro hm
      have := List.nodup_append.1 h
      exact this.2.2 p.1 hm p.1 (by simp) rfl
    have hset : (d.set p.1 p.2).entries = d.entries ++ [p] := assocSet_append_new hnew
    simp only [Dict.updateList, List.foldl_cons]
    have := ih (d.set p.1 p.2) (by
      rw [Dict.keys, hset]
      simpa [Dict.keys] using h)
    rw [Dict.updateList] at this
    rw [this, hset]
    simp

theorem gran_split_entries {keys : List Str} (hn : NoClash (.gran keys)) (p : Pos)
    {ps : Dict Str TagPart} (h : (Splitter.gran keys).split (some p) = .ok ps) :
    ps.entries = (sUPOS, .str p.upos) :: (sXPOS, .str p.xpos) ::
      keys.map (fun k => (k, TagPart.str (p.feats.get? k))) := by
  obtain ⟨h1, h2, h3⟩ := hn
  simp only [Splitter.split, Except.ok.injEq] at h
  subst h
  have e1 : (Dict.ofList (keys.map (fun k => (k, TagPart.str (p.feats.get? k))))).entries =
      keys.map (fun k => (k, TagPart.str (p.feats.get? k))) :=
    Dict.ofList_entries _ (by simpa [Function.comp_def] using h1)
  have e2 : (Dict.ofList [(sUPOS, TagPart.str p.upos), (sXPOS, TagPart.str p.xpos)]).entries =
      [(sUPOS, TagPart.str p.upos), (sXPOS, TagPart.str p.xpos)] :=
    Dict.ofList_entries _ (by simp [sUPOS, sXPOS])
  rw [Dict.update, e1, updateList_append, e2]
  · rfl
  · rw [Dict.keys, e2]
    have : ((keys.map (fun k => (k, TagPart.str (p.feats.get? k)))).map Prod.fst) = keys := by
      simp [Function.comp_def]
    rw [this]
    simp only [List.map_cons, List.map_nil, List.cons_append, List.nil_append, List.nodup_cons,
      List.mem_cons]
    refine ⟨?_, h3, h1⟩
    rintro (h | h)
    · exact absurd h (by decide)
    · exact h2 h

theorem dict2repr_ofList (d : Dict Str Str) : (Dict.ofList (dict2repr d)).pyEq d = true := by
  have hp : (dict2repr d).Perm d.entries := pySorted_perm _ _
  rw [Dict.pyEq_perm, Dict.ofList_entries _ (by
    rw [(hp.map Prod.fst).nodup_iff]; exact d.nodup)]
  exact hp

/-- Splitting and combining gives the tag back. -/
theorem combine_split {sp : Splitter} (hn : NoClash sp) {p : Option Pos} (hk : KnowsFeats sp p)
    {ps : Dict Str TagPart} (h : sp.split p = .ok ps) :
    ∃ q, sp.combine (ps.entries.map Prod.snd) = .ok q ∧ Token.optPosEq q p = true := by
  cases sp with
  | joint =>
    simp only [Splitter.split, Except.ok.injEq] at h
    subst h
    exact ⟨p, rfl, optPosEq_rel.refl p⟩
  | xf =>
    cases p <;> simp only [Splitter.split, Except.ok.injEq, reduceCtorEq] at h
    subst h
    rename_i p
    rw [Dict.ofList_entries _ (by simp [sUPOS, sXPOSFEATS])]
    refine ⟨_, rfl, ?_⟩
    simp [Token.optPosEq, Pos.pyEq, dict2repr_ofList]
  | uxf =>
    cases p <;> simp only [Splitter.split, Except.ok.injEq, reduceCtorEq] at h
    subst h
    rename_i p
    rw [Dict.ofList_entries _ (by simp [sUPOS, sXPOS, sFEATS])]
    refine ⟨_, rfl, ?_⟩
    simp [Token.optPosEq, Pos.pyEq, dict2repr_ofList]
  | gran keys =>
    cases p with
    | none => simp [Splitter.split] at h
    | some p =>
      rw [gran_split_entries hn p h]
      have hv : (keys.map (fun k => (k, TagPart.str (p.feats.get? k)))).map Prod.snd =
          keys.map (fun k => TagPart.str (p.feats.get? k)) := by simp [Function.comp_def]
      simp only [List.map_cons, hv, Splitter.combine, granFeats_vals]
      refine ⟨_, rfl, ?_⟩
      have hfst : ∀ ks : List Str, (ks.filterMap
          (fun k => (p.feats.get? k).map (fun v => (k, v)))).map Prod.fst =
          ks.filter (fun k => (p.feats.get? k).isSome) := by
        intro ks
        induction ks with
        | nil => rfl
        | cons k ks ih =>
          cases hk' : p.feats.get? k <;> simp [hk', ih]
      have hnd : ((keys.filterMap (fun k => (p.feats.get? k).map (fun v => (k, v)))).map
          Prod.fst).Nodup := by
        rw [hfst]
        exact hn.1.filter _
      have heq : (Dict.ofList (keys.filterMap
          (fun k => (p.feats.get? k).map (fun v => (k, v))))).pyEq p.feats = true := by
        rw [Dict.pyEq_iff]
        intro k
        apply Option.ext
        intro v
        rw [Dict.get?_mem, Dict.ofList_entries _ hnd, List.mem_filterMap]
        constructor
        · rintro ⟨k', _, h2⟩
          obtain ⟨v', hv', h3⟩ := Option.map_eq_some_iff.1 h2
          injection h3 with h3 h4
          subst h3 h4
          exact hv'
        · intro h2
          refine ⟨k, hk k (Dict.get?_isSome.1 (by rw [h2]; rfl)), by rw [h2]; rfl⟩
      simp [Token.optPosEq, Pos.pyEq, heq]

theorem granFeats_total (keys : List Str) (ys : List TagPart) (hlen : ys.length ≤ keys.length)
    (hs : ∀ y ∈ ys, ∃ s, y = .str s) : ∃ l, granFeats keys ys = .ok l := by
  induction ys generalizing keys with
  | nil => exact ⟨[], by cases keys <;> rfl⟩
  | cons y ys ih =>
    obtain ⟨s, rfl⟩ := hs y (by simp)
    cases keys with
    | nil => simp at hlen
    | cons k keys =>
      obtain ⟨l, hl⟩ := ih keys (by simpa using hlen) (fun z hz => hs z (List.mem_cons_of_mem _ hz))
      cases s with
      | none => exact ⟨l, by simpa [granFeats] using hl⟩
      | some v => exact ⟨(k, v) :: l, by simp only [granFeats, hl]⟩

end Verif
