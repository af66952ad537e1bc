import Verif.Py
import Mathlib.Data.List.Perm.Subperm

/-! Helper lemmas about the Python fragment. -/

namespace Verif

/-! ### sorting -/

section Sorting
variable {α : Type} (le : α → α → Prop) [DecidableRel le]

theorem pySorted_perm (l : List α) : (pySorted le l).Perm l := List.perm_insertionSort le l

theorem pySorted_length (l : List α) : (pySorted le l).length = l.length :=
  (pySorted_perm le l).length_eq

theorem mem_pySorted {l : List α} {x : α} : x ∈ pySorted le l ↔ x ∈ l :=
  (pySorted_perm le l).mem_iff

theorem pySorted_pairwise (htot : ∀ a b, le a b ∨ le b a)
    (htr : ∀ a b c, le a b → le b c → le a c) (l : List α) :
    (pySorted le l).Pairwise le := by
  have : Std.Total le := ⟨htot⟩
  have : IsTrans α le := ⟨htr⟩
  exact List.pairwise_insertionSort le l

theorem pySorted_eq_self {l : List α} (h : l.Pairwise le) : pySorted le l = l := by
  induction l with
  | nil => rfl
  | cons a l ih =>
    obtain ⟨h1, h2⟩ := List.pairwise_cons.mp h
    have := ih h2
    unfold pySorted at *
    rw [List.insertionSort_cons, this]
    cases l with
    | nil => rfl
    | cons b l => simp [List.orderedInsert, h1 b (by simp)]

theorem pySorted_nil : pySorted le ([] : List α) = [] := rfl

/-- Sorting two permutations of a list whose elements are told apart by the key. -/
theorem pySorted_eq_of_perm (htot : ∀ a b, le a b ∨ le b a)
    (htr : ∀ a b c, le a b → le b c → le a c) {l₁ l₂ : List α}
    (hanti : ∀ a b, a ∈ l₁ → b ∈ l₁ → le a b → le b a → a = b) (h : l₁.Perm l₂) :
    pySorted le l₁ = pySorted le l₂ := by
  apply List.Perm.eq_of_pairwise (le := le) _ (pySorted_pairwise le htot htr _)
    (pySorted_pairwise le htot htr _)
    ((pySorted_perm le l₁).trans (h.trans (pySorted_perm le l₂).symm))
  intro a b ha hb
  exact hanti a b ((mem_pySorted le).mp ha) (h.mem_iff.mpr ((mem_pySorted le).mp hb))

end Sorting

/-! ### mapM', forM' -/

section
variable {α β σ : Type}

theorem mapM'_ok_iff {f : α → Res β} {l : List α} {r : List β} :
    mapM' f l = .ok r ↔ List.Forall₂ (fun a b => f a = .ok b) l r := by
  induction l generalizing r with
  | nil => simp [mapM', eq_comm]
  | cons a l ih =>
    simp only [mapM']
    cases hfa : f a with
    | error e =>
      simp only [reduceCtorEq, false_iff]
      rintro h
      cases h with
      | cons h1 _ => rw [hfa] at h1; cases h1
    | ok b =>
      cases hm : mapM' f l with
      | error e =>
        simp only [reduceCtorEq, false_iff]
        rintro h
        cases h with
        | cons h1 h2 => rw [ih.mpr h2] at hm; cases hm
      | ok bs =>
        constructor
        · rintro h
          injection h with h
          subst h
          exact .cons hfa (ih.mp hm)
        · rintro h
          cases h with
          | cons h1 h2 =>
            rw [hfa] at h1
            rw [ih.mpr h2] at hm
            injection h1 with h1
            injection hm with hm
            subst h1 hm
            rfl

theorem mapM'_ok_of_forall {f : α → Res β} {g : α → β} {l : List α}
    (h : ∀ a ∈ l, f a = .ok (g a)) : mapM' f l = .ok (l.map g) := by
  induction l with
  | nil => rfl
  | cons a l ih =>
    simp [mapM', h a (by simp), ih (fun b hb => h b (by simp [hb]))]

theorem forM'_append (f : σ → α → Res σ) (s : σ) (l m : List α) :
    forM' f s (l ++ m) = match forM' f s l with
      | .ok s' => forM' f s' m
      | .error e => .error e := by
  induction l generalizing s with
  | nil => rfl
  | cons a l ih =>
    simp only [List.cons_append, forM']
    cases f s a with
    | ok s' => exact ih s'
    | error e => rfl

end

/-! ### indexing -/

section
variable {α : Type}

theorem pyGet_nat (l : List α) (i : Nat) :
    pyGet l (i : Int) = match l[i]? with | some x => .ok x | none => .error .index := by
  have h : ¬ ((i : Int) < 0) := by omega
  simp only [pyGet, h, if_false, Int.toNat_natCast]
  cases l[i]? <;> rfl

theorem pyGet_nat_ok {l : List α} {i : Nat} {x : α} : pyGet l (i : Int) = .ok x ↔ l[i]? = some x := by
  rw [pyGet_nat]
  cases l[i]? <;> simp

theorem slice_length (l : List α) (a b : Nat) : (slice l a b).length = min (b - a) (l.length - a) := by
  simp [slice]

theorem slice_getElem? (l : List α) (a b i : Nat) :
    (slice l a b)[i]? = if i < b - a then l[a + i]? else none := by
  simp only [slice, List.getElem?_take, List.getElem?_drop]

theorem slice_append_slice (l : List α) {a b c : Nat} (h1 : a ≤ b) (h2 : b ≤ c) :
    slice l a b ++ slice l b c = slice l a c := by
  apply List.ext_getElem?
  intro i
  rw [List.getElem?_append, slice_length]
  simp only [slice_getElem?]
  split
  · rename_i h
    have h1 : i < b - a := by omega
    have h2 : i < c - a := by omega
    simp [h1, h2]
  · rename_i h
    by_cases hi : i < b - a
    · have : l.length ≤ a + i := by omega
      have h3 : i < c - a := by omega
      rw [if_pos h3, List.getElem?_eq_none this]
      split
      · apply List.getElem?_eq_none; omega
      · rfl
    · by_cases hl : b ≤ l.length
      · have e : min (b - a) (l.length - a) = b - a := by omega
        rw [e]
        have e2 : b + (i - (b - a)) = a + i := by omega
        rw [e2]
        by_cases hc : i < c - a
        · rw [if_pos (by omega), if_pos hc]
        · rw [if_neg (by omega), if_neg hc]
      · have e : l[a + i]? = none := List.getElem?_eq_none (by omega)
        have e' : l[b + (i - min (b - a) (l.length - a))]? = none := List.getElem?_eq_none (by omega)
        rw [e, e']
        simp

theorem slice_self (l : List α) (a : Nat) : slice l a a = [] := by simp [slice]

theorem slice_zero_length (l : List α) : slice l 0 l.length = l := by simp [slice]

theorem slice_nil (a b : Nat) : slice ([] : List α) a b = [] := by simp [slice]

theorem slice_sublist (l : List α) (a b : Nat) : (slice l a b).Sublist l :=
  (List.take_sublist _ _).trans (List.drop_sublist _ _)

theorem mem_slice {l : List α} {a b : Nat} {x : α} :
    x ∈ slice l a b ↔ ∃ i, a ≤ i ∧ i < b ∧ l[i]? = some x := by
  rw [List.mem_iff_getElem?]
  constructor
  · rintro ⟨i, h⟩
    rw [slice_getElem?] at h
    split at h
    · exact ⟨a + i, by omega, by omega, h⟩
    · cases h
  · rintro ⟨i, h1, h2, h3⟩
    refine ⟨i - a, ?_⟩
    rw [slice_getElem?, if_pos (by omega)]
    rw [show a + (i - a) = i by omega]
    exact h3

end

/-! ### dictionaries -/

section
variable {K V : Type} [DecidableEq K]

theorem assocGet_mem {k : K} {v : V} {l : List (K × V)} (h : assocGet k l = some v) : (k, v) ∈ l := by
  induction l with
  | nil => simp [assocGet] at h
  | cons p l ih =>
    obtain ⟨k', v'⟩ := p
    simp only [assocGet] at h
    split at h
    · rename_i e; injection h with h; subst e h; simp
    · exact List.mem_cons_of_mem _ (ih h)

theorem assocGet_none {k : K} {l : List (K × V)} : assocGet k l = none ↔ k ∉ l.map Prod.fst := by
  induction l with
  | nil => simp [assocGet]
  | cons p l ih =>
    obtain ⟨k', v'⟩ := p
    simp only [assocGet]
    split
    · rename_i e; simp [e]
    · rename_i e
      rw [ih]
      simp only [List.map_cons, List.mem_cons, not_or]
      constructor
      · exact fun h => ⟨fun e' => e e'.symm, h⟩
      · exact fun h => h.2

theorem assocGet_of_mem {k : K} {v : V} {l : List (K × V)} (hn : (l.map Prod.fst).Nodup)
    (h : (k, v) ∈ l) : assocGet k l = some v := by
  induction l with
  | nil => simp at h
  | cons p l ih =>
    obtain ⟨k', v'⟩ := p
    simp only [List.map_cons, List.nodup_cons] at hn
    simp only [assocGet]
    rcases List.mem_cons.mp h with h | h
    · injection h with h1 h2
      simp [h1, h2]
    · have : k' ≠ k := by
        rintro rfl
        exact hn.1 (List.mem_map.mpr ⟨_, h, rfl⟩)
      simp [this, ih hn.2 h]

theorem assocGet_set (k k' : K) (v : V) (l : List (K × V)) :
    assocGet k (assocSet k' v l) = if k = k' then some v else assocGet k l := by
  induction l with
  | nil =>
    by_cases h : k = k'
    · simp [assocSet, assocGet, h]
    · have h' : ¬ k' = k := fun e => h e.symm
      simp [assocSet, assocGet, h, h']
  | cons p l ih =>
    obtain ⟨k1, v1⟩ := p
    simp only [assocSet]
    by_cases h1 : k1 = k'
    · subst h1
      by_cases h : k = k1
      · simp [assocGet, h]
      · have h' : ¬ k1 = k := fun e => h e.symm
        simp [assocGet, h, h']
    · simp only [h1, if_false, assocGet, ih]
      by_cases h2 : k1 = k
      · subst h2
        simp [h1]
      · simp [h2]

theorem Dict.get?_mem {d : Dict K V} {k : K} {v : V} : d.get? k = some v ↔ (k, v) ∈ d.entries :=
  ⟨assocGet_mem, assocGet_of_mem d.nodup⟩

theorem Dict.get?_none {d : Dict K V} {k : K} : d.get? k = none ↔ k ∉ d.keys := assocGet_none

theorem Dict.get?_isSome {d : Dict K V} {k : K} : (d.get? k).isSome ↔ k ∈ d.keys := by
  rw [← not_iff_not, ← Dict.get?_none]
  simp

theorem Dict.get?_set (d : Dict K V) (k k' : K) (v : V) :
    (d.set k' v).get? k = if k = k' then some v else d.get? k := assocGet_set k k' v d.entries

theorem Dict.get?_empty (k : K) : (Dict.empty : Dict K V).get? k = none := rfl

theorem Dict.get?_updateList (d : Dict K V) (l : List (K × V)) (k : K) :
    (d.updateList l).get? k =
      match (l.reverse.find? (fun p => p.1 == k)) with
      | some p => some p.2
      | none => d.get? k := by
  induction l generalizing d with
  | nil => rfl
  | cons p l ih =>
    simp only [Dict.updateList, List.foldl_cons] at ih ⊢
    rw [ih, List.reverse_cons, List.find?_append]
    cases h : List.find? (fun p => p.1 == k) l.reverse with
    | some q => simp
    | none =>
      simp only [Option.none_or]
      rw [Dict.get?_set]
      by_cases hk : k = p.1
      · simp [hk]
      · have hk' : ¬ p.1 = k := fun e => hk e.symm
        simp [hk, hk']

theorem Dict.get?_update (d e : Dict K V) (k : K) :
    (d.update e).get? k = (e.get? k).orElse (fun _ => d.get? k) := by
  unfold Dict.update
  rw [Dict.get?_updateList]
  cases h : List.find? (fun p => p.1 == k) e.entries.reverse with
  | some q =>
    have hq := List.find?_some h
    have hm := List.mem_of_find?_eq_some h
    simp only [beq_iff_eq] at hq
    subst hq
    have : e.get? q.1 = some q.2 := Dict.get?_mem.mpr (by simpa using hm)
    simp [this]
  | none =>
    have : e.get? k = none := by
      rw [Dict.get?_none]
      intro hk
      obtain ⟨q, hq, rfl⟩ := List.mem_map.mp hk
      have := List.find?_eq_none.mp h q (by simpa using hq)
      simp at this
    simp [this]

theorem Dict.get?_ofList (l : List (K × V)) (hn : (l.map Prod.fst).Nodup) (k : K) :
    (Dict.ofList l).get? k = assocGet k l := by
  unfold Dict.ofList
  rw [Dict.get?_updateList]
  cases h : List.find? (fun p => p.1 == k) l.reverse with
  | some q =>
    have hq := List.find?_some h
    have hm := List.mem_of_find?_eq_some h
    simp only [beq_iff_eq] at hq
    subst hq
    exact (assocGet_of_mem hn (by simpa using hm)).symm
  | none =>
    symm
    simp only [Dict.get?_empty]
    rw [assocGet_none]
    intro hk
    obtain ⟨q, hq, rfl⟩ := List.mem_map.mp hk
    have := List.find?_eq_none.mp h q (by simpa using hq)
    simp at this

theorem assocSet_append_new {k : K} {v : V} {l : List (K × V)} (h : k ∉ l.map Prod.fst) :
    assocSet k v l = l ++ [(k, v)] := by
  induction l with
  | nil => rfl
  | cons p l ih =>
    obtain ⟨k', v'⟩ := p
    simp only [List.map_cons, List.mem_cons, not_or] at h
    simp only [assocSet, if_neg (fun e => h.1 (Eq.symm e)), ih h.2, List.cons_append]

/-- `dict(items)` of items with distinct keys keeps them in order. -/
theorem Dict.ofList_entries (l : List (K × V)) (hn : (l.map Prod.fst).Nodup) :
    (Dict.ofList l).entries = l := by
  suffices H : ∀ (l : List (K × V)) (d : Dict K V), (d.entries.map Prod.fst ++ l.map Prod.fst).Nodup →
      (d.updateList l).entries = d.entries ++ l by
    have := H l Dict.empty (by simpa [Dict.empty] using hn)
    unfold Dict.ofList
    rw [this]
    simp [Dict.empty]
  intro l
  induction l with
  | nil => intro d _; simp [Dict.updateList]
  | cons p l ih =>
    intro d hd
    have hp : p.1 ∉ d.entries.map Prod.fst := by
      intro hm
      exact List.disjoint_of_nodup_append hd hm (by simp)
    have e : (d.set p.1 p.2).entries = d.entries ++ [p] := assocSet_append_new hp
    have := ih (d.set p.1 p.2) (by rw [e]; simpa using hd)
    simp only [Dict.updateList, List.foldl_cons] at this ⊢
    rw [this, e]
    simp

omit [DecidableEq K] in
theorem Dict.ext {d e : Dict K V} (h : d.entries = e.entries) : d = e := by
  cases d; cases e; simp_all

theorem Dict.ofList_self (d : Dict K V) : Dict.ofList d.entries = d :=
  Dict.ext (Dict.ofList_entries d.entries d.nodup)

theorem Dict.keys_set (d : Dict K V) (k : K) (v : V) :
    (d.set k v).keys = if k ∈ d.keys then d.keys else d.keys ++ [k] := assocSet_keys k v d.entries

omit [DecidableEq K] in
theorem Dict.nodup_entries (d : Dict K V) : d.entries.Nodup := List.Nodup.of_map _ d.nodup

theorem Dict.pyEq_iff [DecidableEq V] {d e : Dict K V} :
    d.pyEq e = true ↔ ∀ k, d.get? k = e.get? k := by
  constructor
  · intro h
    simp only [Dict.pyEq, Bool.and_eq_true, beq_iff_eq, List.all_eq_true] at h
    obtain ⟨hl, ha⟩ := h
    have hsub : d.entries ⊆ e.entries := by
      intro p hp
      exact Dict.get?_mem.mp (by simpa using ha p hp)
    have hsp : d.entries.Subperm e.entries := List.subperm_of_subset d.nodup_entries hsub
    have hp : d.entries.Perm e.entries := hsp.perm_of_length_le (by omega)
    intro k
    cases hk : e.get? k with
    | some v => exact Dict.get?_mem.mpr (hp.mem_iff.mpr (Dict.get?_mem.mp hk))
    | none =>
      rw [Dict.get?_none] at hk ⊢
      intro hm
      exact hk ((hp.map Prod.fst).mem_iff.mp hm)
  · intro h
    have hmem : ∀ p, p ∈ d.entries ↔ p ∈ e.entries := by
      rintro ⟨k, v⟩
      rw [← Dict.get?_mem, ← Dict.get?_mem, h]
    have hp : d.entries.Perm e.entries :=
      (List.perm_ext_iff_of_nodup d.nodup_entries e.nodup_entries).mpr hmem
    simp only [Dict.pyEq, Bool.and_eq_true, beq_iff_eq, List.all_eq_true]
    refine ⟨hp.length_eq, ?_⟩
    rintro ⟨k, v⟩ hkv
    exact Dict.get?_mem.mpr ((hmem _).mp hkv)

theorem Dict.pyEq_perm [DecidableEq V] {d e : Dict K V} :
    d.pyEq e = true ↔ d.entries.Perm e.entries := by
  rw [Dict.pyEq_iff]
  constructor
  · intro h
    apply (List.perm_ext_iff_of_nodup d.nodup_entries e.nodup_entries).mpr
    rintro ⟨k, v⟩
    rw [← Dict.get?_mem, ← Dict.get?_mem, h]
  · intro hp k
    cases hk : e.get? k with
    | some v => exact Dict.get?_mem.mpr (hp.mem_iff.mpr (Dict.get?_mem.mp hk))
    | none =>
      rw [Dict.get?_none] at hk ⊢
      intro hm
      exact hk ((hp.map Prod.fst).mem_iff.mp hm)

end

end Verif
