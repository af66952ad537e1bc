import Verif.Spec.Features
import Verif.Proofs.PyLemmas

/-! # Merging feature dictionaries, collecting sequences, sparsification -/

namespace Verif

section
variable {K V : Type} [DecidableEq K]

theorem Dict.updateList_entries (l : List (K × V)) (d : Dict K V)
    (h : (d.entries.map Prod.fst ++ l.map Prod.fst).Nodup) :
    (d.updateList l).entries = d.entries ++ l := by
  induction l generalizing d with
  | nil => simp [Dict.updateList]
  | cons p l ih =>
    have hp : p.1 ∉ d.entries.map Prod.fst := by
      intro hm
      exact List.disjoint_of_nodup_append h hm (by simp)
    have e : (d.set p.1 p.2).entries = d.entries ++ [p] := assocSet_append_new hp
    have := ih (d.set p.1 p.2) (by rw [e]; simpa using h)
    simp only [Dict.updateList, List.foldl_cons] at this ⊢
    rw [this, e]
    simp

end

/-! ### merging -/

theorem mergeStep_ok {V : Type} {a d : Dict Str V} (h : ∀ k, k ∈ a.keys → k ∉ d.keys) :
    ∃ r, mergeStep a d = .ok r ∧ r.entries = a.entries ++ d.entries := by
  have h1 : d.keys.any (fun k => (a.get? k).isSome) = false := by
    rw [List.any_eq_false]
    intro k hk hs
    rw [Dict.get?_isSome] at hs
    exact h k hs hk
  refine ⟨a.update d, by simp [mergeStep, h1], ?_⟩
  unfold Dict.update
  rw [Dict.updateList_entries]
  rw [List.nodup_append]
  refine ⟨a.nodup, d.nodup, ?_⟩
  rintro x hx y hy rfl
  exact h x hx hy

theorem mergeStep_error {V : Type} {a d : Dict Str V} (h : ¬ ∀ k, k ∈ a.keys → k ∉ d.keys) :
    mergeStep a d = .error .value := by
  have h1 : d.keys.any (fun k => (a.get? k).isSome) = true := by
    rw [List.any_eq_true]
    by_contra hno
    apply h
    intro k hk hd
    exact hno ⟨k, hd, Dict.get?_isSome.2 hk⟩
  simp [mergeStep, h1]

theorem mergeDicts_from {V : Type} (ds : List (Dict Str V)) (a : Dict Str V) :
    (DisjointKeys (a :: ds) → ∃ r, forM' mergeStep a ds = .ok r ∧
      r.entries = a.entries ++ ds.flatMap (fun d => d.entries)) ∧
    (DisjointKeys ds → ¬ DisjointKeys (a :: ds) → forM' mergeStep a ds = .error .value) ∧
    (¬ DisjointKeys ds → forM' mergeStep a ds = .error .value) := by
  induction ds generalizing a with
  | nil => simp [forM', DisjointKeys]
  | cons d ds ih =>
    have keyr : ∀ r : Dict Str V, r.entries = a.entries ++ d.entries →
        ((DisjointKeys (a :: d :: ds)) ↔
          (∀ k, k ∈ a.keys → k ∉ d.keys) ∧ DisjointKeys (r :: ds)) := by
      intro r hr
      have hk : ∀ k, k ∈ r.keys ↔ k ∈ a.keys ∨ k ∈ d.keys := by
        intro k; simp [Dict.keys, hr]
      simp only [DisjointKeys, List.pairwise_cons, List.mem_cons, forall_eq_or_imp, hk]
      constructor
      · rintro ⟨⟨h1, h2⟩, h3, h4⟩
        refine ⟨h1, ?_, h4⟩
        rintro e he k (hk | hk)
        · exact h2 e he k hk
        · exact h3 e he k hk
      · rintro ⟨h1, h2, h4⟩
        exact ⟨⟨h1, fun e he k hk => h2 e he k (Or.inl hk)⟩,
          fun e he k hk => h2 e he k (Or.inr hk), h4⟩
    by_cases h : ∀ k, k ∈ a.keys → k ∉ d.keys
    · obtain ⟨r, hr, hre⟩ := mergeStep_ok h
      have hkr := keyr r hre
      obtain ⟨i1, i2, i3⟩ := ih r
      refine ⟨?_, ?_, ?_⟩
      · intro hd
        obtain ⟨r', hr', hre'⟩ := i1 (hkr.1 hd).2
        refine ⟨r', by simp [forM', hr, hr'], ?_⟩
        rw [hre', hre]
        simp
      · intro hd hn
        simp only [forM', hr]
        have hds : DisjointKeys ds := (List.pairwise_cons.1 hd).2
        exact i2 hds (fun hx => hn (hkr.2 ⟨h, hx⟩))
      · intro hn
        simp only [forM', hr]
        by_cases hds : DisjointKeys ds
        · refine i2 hds ?_
          intro hx
          apply hn
          exact (List.pairwise_cons.1 (hkr.2 ⟨h, hx⟩)).2
        · exact i3 hds
    · have he := mergeStep_error h
      refine ⟨?_, ?_, ?_⟩
      · intro hd
        exact absurd ((List.pairwise_cons.1 hd).1 d List.mem_cons_self) h
      · intro _ _; simp [forM', he]
      · intro _; simp [forM', he]

theorem mergeDicts_ok {V : Type} {ds : List (Dict Str V)} (h : DisjointKeys ds) :
    ∃ r, mergeDicts ds = .ok r ∧ r.entries = ds.flatMap (fun d => d.entries) := by
  have := (mergeDicts_from ds Dict.empty).1 (by
    refine List.pairwise_cons.2 ⟨?_, h⟩
    intro d _ k hk
    simp [Dict.keys, Dict.empty] at hk)
  simpa [mergeDicts, Dict.empty] using this

theorem mergeDicts_error {V : Type} {ds : List (Dict Str V)} (h : ¬ DisjointKeys ds) :
    mergeDicts ds = .error .value := (mergeDicts_from ds Dict.empty).2.2 h

/-! ### collecting -/

theorem get?_appendKeys (l : List (Str × Feat)) (hn : (l.map Prod.fst).Nodup)
    (acc : Dict Str (List Feat)) (k : Str) :
    (l.foldl appendKey acc).get? k =
      match assocGet k l with
      | none => acc.get? k
      | some v => some ((acc.get? k).getD [] ++ [v]) := by
  induction l generalizing acc with
  | nil => rfl
  | cons p l ih =>
    obtain ⟨k1, v1⟩ := p
    simp only [List.map_cons, List.nodup_cons] at hn
    simp only [List.foldl_cons, ih hn.2, assocGet]
    by_cases h : k1 = k
    · subst h
      rw [assocGet_none.2 hn.1]
      simp [appendKey, Dict.get?_set]
    · have h' : ¬ k = k1 := fun e => h e.symm
      simp [h, appendKey, Dict.get?_set, h']

theorem get?_appendFeatures (acc : Dict Str (List Feat)) (d : Features) (k : Str) :
    (appendFeatures acc d).get? k =
      match d.get? k with
      | none => acc.get? k
      | some v => some ((acc.get? k).getD [] ++ [v]) :=
  get?_appendKeys d.entries d.nodup acc k

theorem get?_collectFrom (ds : List Features) (acc : Dict Str (List Feat)) (k : Str) :
    (ds.foldl appendFeatures acc).get? k =
      if k ∈ acc.keys ∨ ∃ d ∈ ds, k ∈ d.keys then
        some ((acc.get? k).getD [] ++ ds.filterMap (fun d => d.get? k))
      else none := by
  induction ds generalizing acc with
  | nil =>
    simp only [List.foldl_nil, List.not_mem_nil, false_and, exists_false, or_false,
      List.filterMap_nil, List.append_nil]
    split
    · rename_i h
      rw [← Dict.get?_isSome, Option.isSome_iff_exists] at h
      obtain ⟨v, hv⟩ := h
      simp [hv]
    · rename_i h
      exact Dict.get?_none.2 h
  | cons d ds ih =>
    rw [List.foldl_cons, ih]
    have hk : k ∈ (appendFeatures acc d).keys ↔ k ∈ acc.keys ∨ k ∈ d.keys := by
      rw [← Dict.get?_isSome, get?_appendFeatures, ← Dict.get?_isSome, ← Dict.get?_isSome]
      cases d.get? k <;> simp
    have hex : (k ∈ (appendFeatures acc d).keys ∨ ∃ d ∈ ds, k ∈ d.keys) ↔
        (k ∈ acc.keys ∨ ∃ e ∈ d :: ds, k ∈ e.keys) := by
      rw [hk]
      simp only [List.mem_cons, exists_eq_or_imp]
      tauto
    simp only [hex]
    split
    · congr 1
      rw [get?_appendFeatures, List.filterMap_cons]
      cases d.get? k with
      | none => rfl
      | some v => simp
    · rfl

theorem get?_collect (ds : List Features) (k : Str) :
    (collect ds).get? k =
      if ∃ d ∈ ds, k ∈ d.keys then some (ds.filterMap (fun d => d.get? k)) else none := by
  have hno : k ∉ (Dict.empty : Dict Str (List Feat)).keys := by simp [Dict.keys, Dict.empty]
  rw [collect, get?_collectFrom]
  simp only [hno, false_or, Dict.get?_empty, Option.getD_none, List.nil_append]

theorem foldl_min_le (l : List Nat) (a : Nat) : l.foldl min a ≤ a ∧ ∀ n ∈ l, l.foldl min a ≤ n := by
  induction l generalizing a with
  | nil => simp
  | cons b l ih =>
    obtain ⟨h1, h2⟩ := ih (min a b)
    refine ⟨le_trans h1 (min_le_left a b), ?_⟩
    intro n hn
    rcases List.mem_cons.1 hn with rfl | hn
    · exact le_trans h1 (min_le_right a n)
    · exact h2 n hn

theorem le_foldl_min (l : List Nat) (a m : Nat) (ha : m ≤ a) (hl : ∀ n ∈ l, m ≤ n) :
    m ≤ l.foldl min a := by
  induction l generalizing a with
  | nil => exact ha
  | cons b l ih =>
    exact ih _ (le_min ha (hl b List.mem_cons_self)) (fun n hn => hl n (List.mem_cons_of_mem _ hn))

theorem zipAll_getElem? {α : Type} (ls : List (List α)) (i : Nat) (t : List α)
    (h : (zipAll ls)[i]? = some t) :
    t = ls.filterMap (fun l => l[i]?) ∧ ∀ l ∈ ls, i < l.length := by
  cases ls with
  | nil => simp [zipAll] at h
  | cons l ls =>
    simp only [zipAll, List.getElem?_map, Option.map_eq_some_iff] at h
    obtain ⟨j, hj, rfl⟩ := h
    have hlt : i < (ls.map List.length).foldl min l.length := by
      have := (List.getElem?_eq_some_iff.1 hj).1
      simpa using this
    rw [List.getElem?_range hlt] at hj
    injection hj with hj
    subst hj
    refine ⟨rfl, ?_⟩
    have hm := foldl_min_le (ls.map List.length) l.length
    intro x hx
    rcases List.mem_cons.1 hx with rfl | hx
    · exact lt_of_lt_of_le hlt hm.1
    · exact lt_of_lt_of_le hlt (hm.2 _ (List.mem_map.2 ⟨x, hx, rfl⟩))

theorem zipAll_length_ge {α : Type} (ls : List (List α)) (hne : ls ≠ []) (m : Nat)
    (h : ∀ l ∈ ls, m ≤ l.length) : m ≤ (zipAll ls).length := by
  cases ls with
  | nil => exact absurd rfl hne
  | cons l ls =>
    simp only [zipAll, List.length_map, List.length_range]
    refine le_foldl_min _ _ _ (h l List.mem_cons_self) ?_
    intro n hn
    obtain ⟨x, hx, rfl⟩ := List.mem_map.1 hn
    exact h x (List.mem_cons_of_mem _ hx)

theorem zipAll_length_le {α : Type} (ls : List (List α)) (l : List α) (h : l ∈ ls) :
    (zipAll ls).length ≤ l.length := by
  by_contra hlt
  obtain ⟨t, ht⟩ : ∃ t, (zipAll ls)[l.length]? = some t :=
    ⟨_, List.getElem?_eq_getElem (by omega)⟩
  have := (zipAll_getElem? ls l.length t ht).2 l h
  omega

theorem zip_keys_filterMap (l : List (Str × List Feat)) (i : Nat)
    (h : ∀ p ∈ l, i < p.2.length) :
    (l.map Prod.fst).zip ((l.map Prod.snd).filterMap (fun v => v[i]?)) =
      l.filterMap (fun p => (p.2[i]?).map (fun x => (p.1, x))) := by
  induction l with
  | nil => rfl
  | cons p l ih =>
    have hp := h p List.mem_cons_self
    have := ih (fun q hq => h q (List.mem_cons_of_mem _ hq))
    simp only [List.map_cons, List.filterMap_cons, List.getElem?_eq_getElem hp, Option.map_some,
      List.zip_cons_cons, this]

theorem assocGet_filterMap (l : List (Str × List Feat)) (i : Nat) (k : Str)
    (hn : (l.map Prod.fst).Nodup) :
    assocGet k (l.filterMap (fun p => (p.2[i]?).map (fun x => (p.1, x)))) =
      (assocGet k l).bind (fun v => v[i]?) := by
  induction l with
  | nil => rfl
  | cons p l ih =>
    simp only [List.map_cons, List.nodup_cons] at hn
    have ih := ih hn.2
    simp only [List.filterMap_cons, assocGet]
    by_cases hk : p.1 = k
    · rw [if_pos hk, Option.bind_some]
      cases hp : p.2[i]? with
      | some x => simp [assocGet, hk]
      | none =>
        simp only [Option.map_none, ih]
        rw [← hk, assocGet_none.2 hn.1]
        rfl
    · rw [if_neg hk, ← ih]
      cases hp : p.2[i]? with
      | some x => simp [assocGet, hk]
      | none => simp

theorem filterMap_keys_nodup (l : List (Str × List Feat)) (i : Nat)
    (hn : (l.map Prod.fst).Nodup) :
    ((l.filterMap (fun p => (p.2[i]?).map (fun x => (p.1, x)))).map Prod.fst).Nodup := by
  have : ((l.filterMap (fun p => (p.2[i]?).map (fun x => (p.1, x)))).map Prod.fst).Sublist
      (l.map Prod.fst) := by
    clear hn
    induction l with
    | nil => simp
    | cons p l ih =>
      simp only [List.filterMap_cons]
      cases p.2[i]? with
      | none => simpa using ih.cons _
      | some x => simpa using ih
  exact this.nodup hn

/-- What the element interpreter is given for the `i`-th element. -/
theorem get?_converted (value : Dict Str (List Feat)) (i : Nat) (e : Features)
    (h : (converted value)[i]? = some e) (k : Str) :
    e.get? k = (value.get? k).bind (fun v => v[i]?) := by
  simp only [converted, List.getElem?_map, Option.map_eq_some_iff] at h
  obtain ⟨t, ht, rfl⟩ := h
  obtain ⟨rfl, hlen⟩ := zipAll_getElem? _ _ _ ht
  have hlen' : ∀ p ∈ value.entries, i < p.2.length := fun p hp =>
    hlen p.2 (List.mem_map.2 ⟨p, hp, rfl⟩)
  rw [show value.keys = value.entries.map Prod.fst from rfl,
    zip_keys_filterMap _ _ hlen', Dict.get?_ofList _ (filterMap_keys_nodup _ _ value.nodup),
    assocGet_filterMap _ _ _ value.nodup]
  rfl

theorem converted_length_ge (value : Dict Str (List Feat)) (hne : value.entries ≠ []) (m : Nat)
    (h : ∀ p ∈ value.entries, m ≤ p.2.length) : m ≤ (converted value).length := by
  rw [converted, List.length_map]
  apply zipAll_length_ge
  · simpa using hne
  · intro l hl
    obtain ⟨p, hp, rfl⟩ := List.mem_map.1 hl
    exact h p hp

/-! ### sparsification -/

theorem sameShape_leaf {r : Feat → Feat → Prop} {a b : Feat} (ha : a.isList = false)
    (hb : b.isList = false) (h : r a b) : Feat.SameShape r a b := by
  intro p
  cases p with
  | nil =>
    have e1 : a.at [] = some a := by cases a <;> rfl
    have e2 : b.at [] = some b := by cases b <;> rfl
    rw [e1, e2]
    refine ⟨?_, ?_, by simp⟩
    · intro x hx _
      injection hx with hx
      exact ⟨b, rfl, hb, hx ▸ h⟩
    · intro l hl
      injection hl with hl
      rw [hl] at ha
      simp [Feat.isList] at ha
  | cons i p =>
    have e1 : a.at (i :: p) = none := by cases a <;> first | rfl | simp [Feat.isList] at ha
    have e2 : b.at (i :: p) = none := by cases b <;> first | rfl | simp [Feat.isList] at hb
    rw [e1, e2]
    simp

theorem sameShape_list {r : Feat → Feat → Prop} {l l' : List Feat}
    (h : List.Forall₂ (Feat.SameShape r) l l') : Feat.SameShape r (.list l) (.list l') := by
  intro p
  cases p with
  | nil =>
    refine ⟨?_, ?_, by simp [Feat.at]⟩
    · intro x hx hl
      simp only [Feat.at, Option.some.injEq] at hx
      rw [← hx] at hl
      simp [Feat.isList] at hl
    · intro m hm
      simp only [Feat.at, Option.some.injEq, Feat.list.injEq] at hm
      exact ⟨l', rfl, by rw [← hm, h.length_eq]⟩
  | cons i p =>
    simp only [Feat.at]
    by_cases hi : i < l.length
    · have hi' : i < l'.length := by rw [← h.length_eq]; exact hi
      rw [List.getElem?_eq_getElem hi, List.getElem?_eq_getElem hi']
      exact h.get hi hi' p
    · have hi' : ¬ i < l'.length := by rw [← h.length_eq]; exact hi
      rw [List.getElem?_eq_none (l := l) (by omega), List.getElem?_eq_none (l := l') (by omega)]
      simp

theorem hasOther_list {l : List Feat} : (Feat.list l).HasOther ↔ ∃ x ∈ l, x.HasOther := by
  constructor
  · rintro ⟨p, a, h⟩
    cases p with
    | nil => simp [Feat.at] at h
    | cons i p =>
      simp only [Feat.at] at h
      cases hi : l[i]? with
      | none => simp [hi] at h
      | some x =>
        simp only [hi] at h
        exact ⟨x, List.mem_of_getElem? hi, p, a, h⟩
  · rintro ⟨x, hx, p, a, h⟩
    obtain ⟨i, hi⟩ := List.mem_iff_getElem?.1 hx
    exact ⟨i :: p, a, by simp only [Feat.at, hi]; exact h⟩

def SparseOk (rnd : Nat → Rat) (rate : Rat) (f f' : Feat) : Prop :=
  Feat.SameShape (fun x y => y = x ∨ y = .int OOV) f f' ∧ ((∀ i, rnd i > rate) → f' = f) ∧
  ((∀ i, ¬ rnd i > rate) → Feat.SameShape (fun _ y => y = .int OOV) f f')

mutual
theorem sparseRate_spec (rnd : Nat → Rat) (rate : Rat) : ∀ (f : Feat) (k : Nat),
    (¬ f.HasOther → ∃ f' k', sparseRate rnd rate f k = .ok (f', k') ∧ SparseOk rnd rate f f') ∧
    (f.HasOther → sparseRate rnd rate f k = .error .notImplemented)
  | .int n, k => by
    refine ⟨fun _ => ⟨_, _, rfl, ?_, ?_, ?_⟩, ?_⟩
    · apply sameShape_leaf rfl
      · split <;> rfl
      · split
        · exact Or.inl rfl
        · exact Or.inr rfl
    · intro h; simp [h k]
    · intro h
      apply sameShape_leaf rfl
      · split <;> rfl
      · have := h k
        simp [this]
    · rintro ⟨p, a, h⟩
      cases p <;> simp [Feat.at] at h
  | .bool b, k => by
    refine ⟨fun _ => ⟨_, _, rfl, ?_, ?_, ?_⟩, ?_⟩
    · apply sameShape_leaf rfl
      · split <;> rfl
      · split
        · exact Or.inl rfl
        · exact Or.inr rfl
    · intro h; simp [h k]
    · intro h
      apply sameShape_leaf rfl
      · split <;> rfl
      · have := h k
        simp [this]
    · rintro ⟨p, a, h⟩
      cases p <;> simp [Feat.at] at h
  | .other a, k => by
    refine ⟨fun h => absurd ⟨[], a, rfl⟩ h, fun _ => rfl⟩
  | .list l, k => by
    obtain ⟨h1, h2⟩ := sparseRateL_spec rnd rate l k
    rw [hasOther_list]
    constructor
    · intro h
      obtain ⟨l', k', hok, hr⟩ := h1 (fun x hx ho => h ⟨x, hx, ho⟩)
      refine ⟨.list l', k', by simp [sparseRate, hok], ?_, ?_, ?_⟩
      · exact sameShape_list (hr.imp (fun _ _ h => h.1))
      · intro hp
        congr 1
        have : List.Forall₂ (fun x y => y = x) l l' := hr.imp (fun _ _ h => h.2.1 hp)
        exact (List.forall₂_eq_eq_eq ▸ this.flip : l' = l)
      · intro hp
        exact sameShape_list (hr.imp (fun _ _ h => h.2.2 hp))
    · rintro ⟨x, hx, ho⟩
      simp [sparseRate, h2 ⟨x, hx, ho⟩]
theorem sparseRateL_spec (rnd : Nat → Rat) (rate : Rat) : ∀ (l : List Feat) (k : Nat),
    ((∀ x ∈ l, ¬ x.HasOther) → ∃ l' k', sparseRateL rnd rate l k = .ok (l', k') ∧
      List.Forall₂ (SparseOk rnd rate) l l') ∧
    ((∃ x ∈ l, x.HasOther) → sparseRateL rnd rate l k = .error .notImplemented)
  | [], k => by
    refine ⟨fun _ => ⟨[], k, rfl, .nil⟩, by simp⟩
  | x :: xs, k => by
    obtain ⟨h1, h2⟩ := sparseRate_spec rnd rate x k
    constructor
    · intro h
      obtain ⟨y, k1, hy, hr⟩ := h1 (h x List.mem_cons_self)
      obtain ⟨ys, k2, hys, hrs⟩ := (sparseRateL_spec rnd rate xs k1).1
        (fun z hz => h z (List.mem_cons_of_mem _ hz))
      exact ⟨y :: ys, k2, by simp [sparseRateL, hy, hys], .cons hr hrs⟩
    · rintro ⟨z, hz, ho⟩
      by_cases hx : x.HasOther
      · simp [sparseRateL, h2 hx]
      · obtain ⟨y, k1, hy, hr⟩ := h1 hx
        have hz' : ∃ z ∈ xs, z.HasOther := by
          rcases List.mem_cons.1 hz with rfl | hz
          · exact absurd ho hx
          · exact ⟨z, hz, ho⟩
        have := (sparseRateL_spec rnd rate xs k1).2 hz'
        simp [sparseRateL, hy, this]
end

end Verif
