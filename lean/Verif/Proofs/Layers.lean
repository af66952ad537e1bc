import Verif.Spec.Layers
import Verif.Proofs.PyLemmas
import Verif.Props.Extractors
import Mathlib.Tactic.Ring
import Mathlib.Tactic.FieldSimp
import Mathlib.Tactic.Linarith

/-!
# Lemmas about layers
-/

namespace Verif

/-! ### Applicable rules -/

/-- The vector of applicable rules: all entries of rules that fit are true, and true entries belong to rules
whose suffix is a suffix of the word. -/
theorem applicable_spec {lower : Str → Str} {threshold : Int} {dataset : List Document}
    {rules : List LemmaRule} (hb : buildRules lower threshold dataset = .ok rules) (text : Str) :
    ∃ v, applicableRules lower rules text = .ok v ∧ v.length = rules.length ∧
      (∀ i : Nat, v[i]? = some true → ∃ r, rules[i]? = some r ∧ r.wordSuffix <:+ lower text) ∧
      ∀ (i : Nat) r, rules[i]? = some r → r.Fits (lower text) → v[i]? = some true := by
  have hd := buildRules_distinct hb
  have hz : obj2id LemmaRule.pyEq rules = rules.zipIdx := obj2id_eq ruleEq_rel hd
  have hsound : ∀ e ∈ (Trie.build rules.zipIdx).getApplicableRules (lower text),
      rules[e.2]? = some e.1 ∧ e.1.wordSuffix <:+ lower text := by
    intro e he
    obtain ⟨h1, h2, _⟩ := C35_sound _ _ e he
    obtain ⟨r, i⟩ := e
    exact ⟨List.mem_zipIdx_iff_getElem?.1 h1, h2⟩
  obtain ⟨v, h1, h2, h3⟩ := setTrue_all
    ((Trie.build rules.zipIdx).getApplicableRules (lower text))
    (List.replicate rules.length false) (by
      intro e he
      rw [List.length_replicate]
      exact (List.getElem?_eq_some_iff.1 (hsound e he).1).1)
  rw [List.length_replicate] at h2
  refine ⟨v, by rw [applicableRules, hz]; exact h1, h2, ?_, ?_⟩
  · intro i hi
    rcases (h3 i).1 hi with h | ⟨e, he, rfl⟩
    · exfalso
      rw [List.getElem?_replicate] at h
      split at h <;> simp at h
    · exact ⟨e.1, hsound e he⟩
  · intro i r hi hf
    refine (h3 i).2 (Or.inr ⟨(r, i), ?_, rfl⟩)
    have hin : (r, i) ∈ rules.zipIdx := List.mem_zipIdx_iff_getElem?.2 hi
    obtain ⟨c1, _, c3⟩ := C36_complete rules.zipIdx (lower text) (r, i)
    rw [← List.count_pos_iff] at hin ⊢
    rcases hf with ⟨f1, f2⟩ | ⟨f1, f2, f3⟩
    · rw [c3 f1 f2]; exact hin
    · rw [c1 (by simp [LemmaRule.isRegular, f1]) f2 f3]; exact hin

theorem maskLogits_length {v : List Bool} {logits : List Rat} (h : logits.length = v.length) :
    (maskLogits v logits).length = v.length := by
  simp [maskLogits, h]

theorem maskLogits_getElem? {v : List Bool} {logits : List Rat} (h : logits.length = v.length) (i : Nat) :
    (maskLogits v logits)[i]? = match v[i]?, logits[i]? with
      | some a, some x => some (if a then x else floatMin)
      | _, _ => none := by
  rw [maskLogits, List.getElem?_zipWith]
  cases v[i]? <;> cases logits[i]? <;> rfl

/-! ### Losses -/

theorem productSum_mask {lengths : List Nat} {ragged padded : List (List Rat)} (n : Nat)
    (hl : ragged.map List.length = lengths) (hn : ∀ k ∈ lengths, k ≤ n)
    (hr : List.Forall₂ (fun r p => ∃ rest, p = r ++ rest) ragged padded)
    (hw : ∀ p ∈ padded, p.length = n) :
    productSum padded (lengths.map (fun k => (List.range n).map (fun j => if j < k then 1 else 0))) =
      ragged.flatten.sum := by
  induction hr generalizing lengths with
  | nil => simp [productSum]
  | @cons r p rs ps h1 h2 ih =>
    subst hl
    obtain ⟨rest, rfl⟩ := h1
    have ih' := ih rfl (fun k hk => hn k (List.mem_cons_of_mem _ hk))
      (fun p hp => hw p (List.mem_cons_of_mem _ hp))
    have hlen : (r ++ rest).length = n := hw _ (by simp)
    have hrow : (List.zipWith (· * ·) (r ++ rest)
        ((List.range n).map (fun j => if j < r.length then (1 : Rat) else 0))).sum = r.sum := by
      have : (List.range n).map (fun j => if j < r.length then (1 : Rat) else 0) =
          List.replicate r.length 1 ++ List.replicate rest.length 0 := by
        apply List.ext_getElem
        · simp [← hlen]
        · intro i h1 h2
          simp only [List.getElem_map, List.getElem_range, List.getElem_append, List.length_replicate,
            List.getElem_replicate]
          split <;> rfl
      rw [this, List.zipWith_append (by simp)]
      have e1 : ∀ l : List Rat, (List.zipWith (· * ·) l (List.replicate l.length 1)) = l := by
        intro l
        induction l with
        | nil => rfl
        | cons a l ih => simp [List.replicate_succ, ih]
      have e2 : ∀ l : List Rat, (List.zipWith (· * ·) l (List.replicate l.length 0)).sum = 0 := by
        intro l
        induction l with
        | nil => rfl
        | cons a l ih => simp [List.replicate_succ, ih]
      rw [List.sum_append, e1, e2, add_zero]
    simp only [productSum, List.map_cons, List.zipWith_cons_cons, List.sum_cons, List.flatten_cons,
      List.sum_append] at ih' ⊢
    rw [hrow]
    congr 1

theorem le_maxLength {l : List Nat} {n : Nat} (h : n ∈ l) : n ≤ maxLength l := by
  induction l with
  | nil => simp at h
  | cons a l ih =>
    simp only [maxLength, List.foldr_cons] at ih ⊢
    rcases List.mem_cons.1 h with rfl | h
    · exact Nat.le_max_left _ _
    · exact (ih h).trans (Nat.le_max_right _ _)

theorem maxLength_le {l : List Nat} {m : Nat} (h : ∀ n ∈ l, n ≤ m) : maxLength l ≤ m := by
  induction l with
  | nil => simp [maxLength]
  | cons a l ih =>
    simp only [maxLength, List.foldr_cons] at ih ⊢
    exact Nat.max_le.2 ⟨h a (by simp), ih (fun n hn => h n (List.mem_cons_of_mem _ hn))⟩

theorem sentenceNorm_eq {α : Type} (ragged : List (List α)) :
    sentenceNorm (ragged.map List.length) = (ragged.flatten.length : Rat) := by
  induction ragged with
  | nil => simp [sentenceNorm]
  | cons r rs ih =>
    simp only [sentenceNorm, List.map_cons, List.sum_cons, List.flatten_cons, List.length_append,
      Nat.cast_add] at ih ⊢
    rw [ih]

theorem denseLoss_eq {ragged padded : List (List Rat)} (h : PadsTo ragged padded) :
    denseLoss (ragged.map List.length) padded =
      divide ragged.flatten.sum (ragged.flatten.length : Rat) := by
  rw [denseLoss, sentenceNorm_eq, sequenceMask,
    productSum_mask (maxLength (ragged.map List.length)) rfl (fun k hk => le_maxLength hk) h.rows h.width]

end Verif
