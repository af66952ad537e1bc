import Verif.Model.Lemmas
import Mathlib.Data.List.Infix

namespace Verif

theorem commonStart_spec (w l : Str) :
    w.take (commonStart w l) = l.take (commonStart w l) ∧
    commonStart w l ≤ w.length ∧ commonStart w l ≤ l.length := by
  induction w generalizing l with
  | nil => simp [commonStart]
  | cons a w ih =>
    cases l with
    | nil => simp [commonStart]
    | cons b l =>
      by_cases h : a = b
      · have := ih l
        simp only [commonStart, h, if_true, List.take_succ_cons, List.length_cons]
        exact ⟨by rw [this.1], by omega, by omega⟩
      · simp [commonStart, h]

theorem commonStart_max (w l p : Str) (hw : p <+: w) (hl : p <+: l) :
    p.length ≤ commonStart w l := by
  induction p generalizing w l with
  | nil => simp
  | cons c p ih =>
    obtain ⟨w', rfl⟩ := hw
    obtain ⟨l', rfl⟩ := hl
    simp only [List.cons_append, commonStart, if_true, List.length_cons]
    have := ih (p ++ w') (p ++ l') (List.prefix_append _ _) (List.prefix_append _ _)
    omega

namespace Trie

/-- The rules stored at a path, if the path exists. -/
def obs (t : Trie) : List Char → Option (List Entry × List Entry)
  | [] => some (t.regular, t.exceptions)
  | c :: p =>
    match t.getChild c with
    | none => none
    | some t' => obs t' p

def addTo (e : Entry) (x : List Entry × List Entry) : List Entry × List Entry :=
  if e.1.isRegular then (x.1 ++ [e], x.2) else (x.1, x.2 ++ [e])

theorem assocGet_assocSet {V : Type} (k k' : Char) (v : V) (l : List (Char × V)) :
    assocGet k' (assocSet k v l) = if k = k' then some v else assocGet k' l := by
  induction l with
  | nil => simp [assocSet, assocGet]
  | cons p l ih =>
    obtain ⟨a, b⟩ := p
    by_cases h : a = k
    · subst h
      simp [assocSet, assocGet]
      split <;> rfl
    · simp only [assocSet, h, if_false, assocGet, ih]
      by_cases h2 : a = k'
      · subst h2
        have h' : ¬ k = a := fun e => h e.symm
        simp [h']
      · simp [h2]

theorem getChild_setChild (t : Trie) (c c' : Char) (u : Trie) :
    (t.setChild c u).getChild c' = if c = c' then some u else t.getChild c' := by
  simp [setChild, getChild, children, assocGet_assocSet]

theorem obs_empty (p : List Char) : obs empty p = if p = [] then some ([], []) else none := by
  cases p <;> simp [obs, empty, regular, exceptions, getChild, children, assocGet]

theorem obs_put (s p : List Char) (t : Trie) (e : Entry) :
    obs (t.put s e) p =
      if p = s then some (addTo e ((obs t p).getD ([], [])))
      else if p <+: s then some ((obs t p).getD ([], []))
      else obs t p := by
  induction s generalizing t p with
  | nil =>
    cases p with
    | nil =>
      simp only [put, obs, if_true, addTo, addRule, Option.getD_some]
      split <;> rfl
    | cons c p =>
      have hc : (t.addRule e).getChild c = t.getChild c := by
        simp only [addRule]
        split <;> rfl
      simp only [put, List.prefix_nil, reduceCtorEq, if_false, obs, hc]
  | cons c s ih =>
    cases p with
    | nil => simp [put, obs, setChild, regular, exceptions]
    | cons c' p =>
      simp only [put, obs, getChild_setChild, List.cons.injEq, List.cons_prefix_cons]
      by_cases h : c = c'
      · subst h
        simp only [if_true, true_and, ih]
        cases hc : t.getChild c with
        | none =>
          simp only [Option.getD_none, obs_empty]
          by_cases h1 : p = s
          · simp only [h1, if_true, Option.getD_none]
            split <;> rfl
          · simp only [h1, if_false, Option.getD_none]
            by_cases h2 : p <+: s
            · simp only [h2, if_true]
              split <;> rfl
            · have : p ≠ [] := by rintro rfl; exact h2 (List.nil_prefix)
              simp [h2, this]
        | some t' => simp
      · have h' : ¬ c' = c := fun e => h e.symm
        simp [h, h']

def sel (k : Bool) (L : List Entry) (p : List Char) : List Entry :=
  L.filter (fun e => decide (e.1.wordSuffix.reverse = p) && (e.1.isRegular == k))

theorem obs_build (L : List Entry) (p : List Char) :
    obs (build L) p =
      if p = [] ∨ ∃ e ∈ L, p <+: e.1.wordSuffix.reverse then some (sel true L p, sel false L p)
      else none := by
  induction L using List.reverseRecOn with
  | nil => simp [build, obs_empty, sel]
  | append_singleton L e ih =>
    have hb : build (L ++ [e]) = (build L).put e.1.wordSuffix.reverse e := by
      simp [build, List.foldl_append]
    rw [hb, obs_put, ih]
    have hs : ∀ k, sel k (L ++ [e]) p =
        sel k L p ++ if e.1.wordSuffix.reverse = p ∧ e.1.isRegular = k then [e] else [] := by
      intro k
      simp only [sel, List.filter_append]
      congr 1
      simp only [List.filter_cons, List.filter_nil, Bool.and_eq_true, decide_eq_true_eq,
        beq_iff_eq]
    by_cases h1 : p = e.1.wordSuffix.reverse
    · have hx : (p = [] ∨ ∃ x ∈ L ++ [e], p <+: x.1.wordSuffix.reverse) :=
        Or.inr ⟨e, by simp, by rw [← h1]⟩
      rw [if_pos h1, if_pos hx]
      have hn : ((if p = [] ∨ ∃ e ∈ L, p <+: e.1.wordSuffix.reverse then
          some (sel true L p, sel false L p) else none).getD ([], [])) =
          (sel true L p, sel false L p) := by
        split
        · rfl
        · rename_i hno
          have hk : ∀ k, sel k L p = [] := by
            intro k
            simp only [sel, List.filter_eq_nil_iff]
            intro x hx hh
            simp only [Bool.and_eq_true, decide_eq_true_eq] at hh
            exact hno (Or.inr ⟨x, hx, by rw [hh.1]⟩)
          simp [hk]
      rw [hn, hs, hs, addTo]
      cases hr : e.1.isRegular <;> simp [h1]
    · rw [if_neg h1]
      have hk : ∀ k, sel k (L ++ [e]) p = sel k L p := by
        intro k
        rw [hs, if_neg (fun h => h1 h.1.symm), List.append_nil]
      rw [hk, hk]
      by_cases h2 : p <+: e.1.wordSuffix.reverse
      · have hx : (p = [] ∨ ∃ x ∈ L ++ [e], p <+: x.1.wordSuffix.reverse) :=
          Or.inr ⟨e, by simp, h2⟩
        rw [if_pos h2, if_pos hx]
        congr 1
        split
        · rfl
        · rename_i hno
          have hk : ∀ k, sel k L p = [] := by
            intro k
            simp only [sel, List.filter_eq_nil_iff]
            intro x hx hh
            simp only [Bool.and_eq_true, decide_eq_true_eq] at hh
            exact hno (Or.inr ⟨x, hx, by rw [hh.1]⟩)
          simp [hk]
      · rw [if_neg h2]
        have : (p = [] ∨ ∃ x ∈ L ++ [e], p <+: x.1.wordSuffix.reverse) ↔
            (p = [] ∨ ∃ x ∈ L, p <+: x.1.wordSuffix.reverse) := by
          simp only [List.mem_append, List.mem_singleton]
          constructor
          · rintro (h | ⟨x, hx | rfl, hp⟩)
            · exact Or.inl h
            · exact Or.inr ⟨x, hx, hp⟩
            · exact absurd hp h2
          · rintro (h | ⟨x, hx, hp⟩)
            · exact Or.inl h
            · exact Or.inr ⟨x, Or.inl hx, hp⟩
        simp only [this]

/-- Walking in terms of the observations. -/
theorem walk_obs (t : Trie) (q d : List Char) (hd : d <+: q) (hex : (obs t d).isSome)
    (hmax : ∀ d', d' <+: q → (obs t d').isSome → d'.length ≤ d.length) :
    t.walk q =
      (List.range (if d = q then q.length else d.length + 1)).flatMap
        (fun i => ((obs t (q.take i)).getD ([], [])).1) ++ ((obs t d).getD ([], [])).2 := by
  induction q generalizing t d with
  | nil =>
    have : d = [] := List.prefix_nil.1 hd
    subst this
    simp [walk, obs]
  | cons c q ih =>
    cases d with
    | nil =>
      have hno : t.getChild c = none := by
        cases h : t.getChild c with
        | none => rfl
        | some t' =>
          have := hmax [c] ⟨q, rfl⟩ (by simp [obs, h])
          simp at this
      simp [walk, hno, obs]
    | cons c' d =>
      obtain ⟨rfl, hd'⟩ := List.cons_prefix_cons.1 hd
      cases h : t.getChild c' with
      | none => simp [obs, h] at hex
      | some t' =>
        have hex' : (obs t' d).isSome := by simpa [obs, h] using hex
        have := ih t' d hd' hex' (by
          intro d' hd2 hx
          have := hmax (c' :: d') (List.cons_prefix_cons.2 ⟨rfl, hd2⟩) (by simpa [obs, h] using hx)
          simpa using this)
        simp only [walk, h, this, obs, List.cons.injEq, true_and, List.length_cons]
        have hr : (if d = q then q.length + 1 else d.length + 1 + 1) =
            (if d = q then q.length else d.length + 1) + 1 := by split <;> rfl
        rw [hr, List.range_succ_eq_map, List.flatMap_cons, List.flatMap_map, List.append_assoc]
        simp [obs, h]

/-- Collecting the rules stored at the proper prefixes. -/
theorem flatMap_sel (L : List Entry) (k : Bool) (q : List Char) (n : Nat) (hn : n ≤ q.length) :
    ((List.range n).flatMap (fun i => sel k L (q.take i))).Perm
      (L.filter (fun e => decide (e.1.wordSuffix.reverse <+: q ∧ e.1.wordSuffix.length < n) &&
        (e.1.isRegular == k))) := by
  induction n with
  | zero => simp
  | succ n ih =>
    rw [List.range_succ, List.flatMap_append, List.flatMap_singleton]
    refine ((ih (by omega)).append_right _).trans ?_
    have hlen : (q.take n).length = n := by simp; omega
    clear ih
    induction L with
    | nil => simp [sel]
    | cons e L ihL =>
      have hiff : (e.1.wordSuffix.reverse <+: q ∧ e.1.wordSuffix.length < n + 1) ↔
          (e.1.wordSuffix.reverse <+: q ∧ e.1.wordSuffix.length < n) ∨
            e.1.wordSuffix.reverse = q.take n := by
        constructor
        · rintro ⟨h1, h2⟩
          by_cases h3 : e.1.wordSuffix.length < n
          · exact Or.inl ⟨h1, h3⟩
          · right
            have : e.1.wordSuffix.reverse.length = n := by simp; omega
            rw [← this]
            exact (List.prefix_iff_eq_take.1 h1)
        · rintro (⟨h1, h2⟩ | h)
          · exact ⟨h1, by omega⟩
          · have hl := congrArg List.length h
            simp only [List.length_reverse, hlen] at hl
            exact ⟨by rw [h]; exact List.take_prefix _ _, by omega⟩
      have hdis : ¬ ((e.1.wordSuffix.reverse <+: q ∧ e.1.wordSuffix.length < n) ∧
            e.1.wordSuffix.reverse = q.take n) := by
        rintro ⟨⟨_, h⟩, h2⟩
        have hl := congrArg List.length h2
        simp only [List.length_reverse, hlen] at hl
        omega
      simp only [sel, List.filter_cons] at ihL ⊢
      by_cases hk : e.1.isRegular = k
      · by_cases hA : (e.1.wordSuffix.reverse <+: q ∧ e.1.wordSuffix.length < n)
        · have hB : ¬ e.1.wordSuffix.reverse = q.take n := fun h => hdis ⟨hA, h⟩
          have hC := hiff.2 (Or.inl hA)
          simp only [hA, hB, hC, hk]
          simpa using ihL
        · by_cases hB : e.1.wordSuffix.reverse = q.take n
          · have hC := hiff.2 (Or.inr hB)
            have a1 : (decide (e.1.wordSuffix.reverse <+: q ∧ e.1.wordSuffix.length < n) &&
                (e.1.isRegular == k)) = false := by rw [decide_eq_false hA]; rfl
            have a2 : (decide (e.1.wordSuffix.reverse = q.take n) &&
                (e.1.isRegular == k)) = true := by rw [decide_eq_true hB, hk]; simp
            have a3 : (decide (e.1.wordSuffix.reverse <+: q ∧ e.1.wordSuffix.length < n + 1) &&
                (e.1.isRegular == k)) = true := by rw [decide_eq_true hC, hk]; simp
            rw [a1, a2, a3, if_pos rfl, if_pos rfl, if_neg (by simp)]
            exact List.perm_middle.trans (List.Perm.cons _ ihL)
          · have hC : ¬ (e.1.wordSuffix.reverse <+: q ∧ e.1.wordSuffix.length < n + 1) := by
              rw [hiff]; tauto
            simp only [hA, hB, hC]
            simpa using ihL
      · have hk' : (e.1.isRegular == k) = false := by simpa using hk
        simp only [hk', Bool.and_false]
        simpa using ihL

end Trie

end Verif
