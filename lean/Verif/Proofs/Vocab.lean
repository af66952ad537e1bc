import Verif.Proofs.Tables
import Verif.Proofs.Datamodel
import Verif.Props.Lemmas

/-! # Vocabularies and label vectors -/

namespace Verif

theorem EqRel.of_iff {α : Type} {eq : α → α → Bool} (h : ∀ a b, eq a b = true ↔ a = b) :
    EqRel eq :=
  ⟨fun a => (h a a).2 rfl, fun a b hab => (h b a).2 ((h a b).1 hab).symm,
    fun a b c hab hbc => (h a c).2 (((h a b).1 hab).trans ((h b c).1 hbc))⟩

theorem strEq_rel : EqRel strEq := .of_iff (fun a b => by simp [strEq])

theorem optStrEq_rel : EqRel optStrEq := .of_iff (fun a b => by simp [optStrEq])

theorem ruleEq_iff (a b : LemmaRule) : a.pyEq b = true ↔ a = b := (C69_rule_order a b b).1

theorem ruleEq_rel : EqRel LemmaRule.pyEq := .of_iff ruleEq_iff

theorem Distinct.nodup {α : Type} {eq : α → α → Bool} (h : ∀ a b, eq a b = true ↔ a = b)
    {l : List α} (hd : Distinct eq l) : l.Nodup := by
  refine hd.imp ?_
  intro a b hab e
  rw [(h a b).2 e] at hab
  simp at hab

/-! ### enumerated words -/

theorem enumerate_keys (ws : List Str) (base : Int) :
    (ws.zipIdx.map (fun p => (p.1, base + (p.2 : Int)))).map Prod.fst = ws := by
  rw [List.map_map]
  have : (Prod.fst ∘ fun p : Str × Nat => (p.1, base + (p.2 : Int))) = Prod.fst := rfl
  rw [this]
  exact List.zipIdx_map_fst 0 ws

theorem enumerate_entries {ws : List Str} (hn : ws.Nodup) (base : Int) :
    (Dict.ofList (ws.zipIdx.map (fun p => (p.1, base + (p.2 : Int))))).entries =
      ws.zipIdx.map (fun p => (p.1, base + (p.2 : Int))) :=
  Dict.ofList_entries _ (by rw [enumerate_keys]; exact hn)

theorem enumerate_get? {ws : List Str} (hn : ws.Nodup) (base : Int) (w : Str) (i : Int) :
    (Dict.ofList (ws.zipIdx.map (fun p => (p.1, base + (p.2 : Int))))).get? w = some i ↔
      ∃ j : Nat, ws[j]? = some w ∧ i = base + j := by
  rw [Dict.get?_mem, enumerate_entries hn]
  simp only [List.mem_map, Prod.mk.injEq]
  constructor
  · rintro ⟨⟨w', j⟩, hm, rfl, rfl⟩
    exact ⟨j, List.mem_zipIdx_iff_getElem?.1 hm, rfl⟩
  · rintro ⟨j, hj, rfl⟩
    exact ⟨(w, j), List.mem_zipIdx_iff_getElem?.2 hj, rfl, rfl⟩

/-- The words of a vocabulary, in the order of their ids. -/
def vocabWords (threshold : Int) (xs : List Str) : List Str :=
  pySorted (· ≤ ·) (((mostCommon (counter strEq xs)).filter
    (fun p => decide ((p.2 : Int) ≥ threshold))).map Prod.fst)

theorem vocabWords_perm (threshold : Int) (xs : List Str) :
    (vocabWords threshold xs).Perm ((firsts strEq xs).filter
      (fun w => decide ((occurrences strEq w xs : Int) ≥ threshold))) := by
  refine (pySorted_perm _ _).trans ?_
  refine (((pySorted_perm _ _).filter _).map Prod.fst).trans ?_
  rw [counter_eq strEq_rel, List.filter_map, List.map_map]
  have : (Prod.fst ∘ fun x : Str => (x, occurrences strEq x xs)) = id := rfl
  rw [this, List.map_id]
  rfl

theorem occurrences_strEq (w : Str) (xs : List Str) : occurrences strEq w xs = xs.count w := by
  rw [occurrences, List.count]
  congr 1
  funext a
  by_cases h : w = a
  · subst h; simp [strEq]
  · have : ¬ a = w := fun e => h e.symm
    simp [strEq, h, this]

theorem firsts_strEq_mem (w : Str) (xs : List Str) : w ∈ firsts strEq xs ↔ w ∈ xs := by
  constructor
  · exact firsts_mem
  · intro h
    obtain ⟨y, hy, hyw⟩ := firsts_covers strEq_rel h
    simp only [strEq, decide_eq_true_eq] at hyw
    exact hyw ▸ hy

theorem mem_vocabWords {threshold : Int} {xs : List Str} {w : Str} :
    w ∈ vocabWords threshold xs ↔ w ∈ xs ∧ threshold ≤ xs.count w := by
  rw [(vocabWords_perm threshold xs).mem_iff, List.mem_filter, firsts_strEq_mem,
    occurrences_strEq]
  simp

theorem vocabWords_nodup (threshold : Int) (xs : List Str) : (vocabWords threshold xs).Nodup := by
  rw [(vocabWords_perm threshold xs).nodup_iff]
  exact ((firsts_distinct strEq_rel xs).nodup (fun a b => by simp [strEq])).filter _

theorem vocabulary_eq (threshold base : Int) (xs : List Str) :
    vocabulary threshold base xs =
      Dict.ofList ((vocabWords threshold xs).zipIdx.map (fun p => (p.1, base + (p.2 : Int)))) := rfl

theorem vocabulary_get? (threshold base : Int) (xs : List Str) (w : Str) (i : Int) :
    (vocabulary threshold base xs).get? w = some i ↔
      ∃ j : Nat, (vocabWords threshold xs)[j]? = some w ∧ i = base + j := by
  rw [vocabulary_eq, enumerate_get? (vocabWords_nodup threshold xs)]

theorem vocabulary_length (threshold base : Int) (xs : List Str) :
    (vocabulary threshold base xs).entries.length = (vocabWords threshold xs).length := by
  rw [vocabulary_eq, enumerate_entries (vocabWords_nodup threshold xs)]
  simp

theorem vocabulary_isSome (threshold base : Int) (xs : List Str) (w : Str) :
    (∃ i, (vocabulary threshold base xs).get? w = some i) ↔ w ∈ xs ∧ threshold ≤ xs.count w := by
  rw [← mem_vocabWords, List.mem_iff_getElem?]
  constructor
  · rintro ⟨i, h⟩
    obtain ⟨j, hj, _⟩ := (vocabulary_get? ..).1 h
    exact ⟨j, hj⟩
  · rintro ⟨j, hj⟩
    exact ⟨base + j, (vocabulary_get? ..).2 ⟨j, hj, rfl⟩⟩

theorem vocabulary_range {threshold base : Int} {xs : List Str} {w : Str} {i : Int}
    (h : (vocabulary threshold base xs).get? w = some i) :
    base ≤ i ∧ i < base + (vocabulary threshold base xs).entries.length ∧
      ∀ w', (vocabulary threshold base xs).get? w' = some i → w' = w := by
  obtain ⟨j, hj, rfl⟩ := (vocabulary_get? ..).1 h
  refine ⟨by omega, ?_, ?_⟩
  · rw [vocabulary_length]
    have := (List.getElem?_eq_some_iff.1 hj).1
    omega
  · intro w' h'
    obtain ⟨j', hj', he⟩ := (vocabulary_get? ..).1 h'
    have : j = j' := by omega
    subst this
    rw [hj] at hj'
    exact (Option.some.inj hj').symm

theorem strLe_total (a b : Str) : a ≤ b ∨ b ≤ a := le_total a b

theorem vocabulary_perm {xs ys : List Str} (h : xs.Perm ys) (threshold base : Int) :
    vocabulary threshold base xs = vocabulary threshold base ys := by
  have hp : (vocabWords threshold xs).Perm (vocabWords threshold ys) := by
    rw [List.perm_ext_iff_of_nodup (vocabWords_nodup _ _) (vocabWords_nodup _ _)]
    intro w
    rw [mem_vocabWords, mem_vocabWords, h.mem_iff, h.count_eq]
  have hs : ∀ zs : List Str, (vocabWords threshold zs).Pairwise (· ≤ ·) := fun zs =>
    pySorted_pairwise _ (fun a b => le_total a b) (fun a b c hab hbc => le_trans hab hbc) _
  have : vocabWords threshold xs = vocabWords threshold ys :=
    hp.eq_of_pairwise (fun a b _ _ hab hba => le_antisymm hab hba) (hs xs) (hs ys)
  rw [vocabulary_eq, vocabulary_eq, this]

/-! ### the applicability vector -/

theorem setTrue_all (es : List Entry) (v : List Bool) (h : ∀ e ∈ es, e.2 < v.length) :
    ∃ v', forM' setTrue v es = .ok v' ∧ v'.length = v.length ∧
      ∀ i : Nat, v'[i]? = some true ↔ (v[i]? = some true ∨ ∃ e ∈ es, e.2 = i) := by
  induction es generalizing v with
  | nil => exact ⟨v, rfl, rfl, by simp⟩
  | cons e es ih =>
    have he := h e (by simp)
    obtain ⟨v', h1, h2, h3⟩ := ih (v.set e.2 true) (by
      intro e' he'
      rw [List.length_set]
      exact h e' (List.mem_cons_of_mem _ he'))
    refine ⟨v', by simp only [forM', setTrue, if_pos he]; exact h1, by rw [h2, List.length_set], ?_⟩
    intro i
    rw [h3, List.getElem?_set]
    by_cases hi : e.2 = i
    · subst hi
      simp [he]
    · simp [hi]

/-! ### characters of a lemma -/

/-- A table of ids that leaves the special ids alone. -/
structure CharTable (v : Dict Str Int) : Prop where
  base : ∀ w i, v.get? w = some i → 4 ≤ i
  inj : ∀ w w' i, v.get? w = some i → v.get? w' = some i → w = w'

theorem CharTable.invert {v : Dict Str Int} (h : CharTable v) {w : Str} {i : Int}
    (hw : v.get? w = some i) : (invert v).get? i = some w := by
  unfold Verif.invert
  have hn : ((v.entries.map (fun p => (p.2, p.1))).map Prod.fst).Nodup := by
    rw [List.map_map]
    refine List.Nodup.map_on ?_ v.nodup_entries
    rintro ⟨a, i⟩ ha ⟨b, j⟩ hb hij
    simp only [Function.comp_apply] at hij
    subst hij
    rw [h.inj a b i (Dict.get?_mem.2 ha) (Dict.get?_mem.2 hb)]
  rw [Dict.get?_mem, Dict.ofList_entries _ hn]
  exact List.mem_map.2 ⟨(w, i), Dict.get?_mem.1 hw, rfl⟩

/-- The characters with an id. -/
def knownOnly (v : Dict Str Int) (segs : List Str) : List Str :=
  segs.filter (fun s => (v.get? s).isSome)

theorem decodeChars_segs {v : Dict Str Int} (h : CharTable v) (segs : List Str) (rest : List Int)
    (s : Str) (hr : decodeChars (invert v) rest = .ok s) :
    decodeChars (invert v) (segs.map (fun s => (v.get? s).getD OOV) ++ rest) =
      .ok ((knownOnly v segs).flatten ++ s) := by
  induction segs with
  | nil => simpa [knownOnly] using hr
  | cons a segs ih =>
    simp only [List.map_cons, List.cons_append, decodeChars]
    cases ha : v.get? a with
    | none =>
      simp only [Option.getD_none]
      rw [if_neg (by simp [OOV, END]), if_pos (by simp), ih]
      simp [knownOnly, List.filter_cons, ha]
    | some i =>
      have h4 := h.base a i ha
      simp only [Option.getD_some]
      rw [if_neg (by simp only [END]; omega),
        if_neg (by simp only [START, OOV, PADDING]; omega)]
      simp only [Dict.getItem, h.invert ha, ih]
      simp [knownOnly, List.filter_cons, ha]

theorem decodeChars_label {v : Dict Str Int} (h : CharTable v) (segment : Str → List Str)
    (n : Nat) (l : Str) :
    decodeChars (invert v) (fitLength n (subwordIds segment v l)) =
      .ok (knownOnly v ((segment l).take (n - 1))).flatten := by
  unfold fitLength
  split
  · rename_i hlen
    simp only [subwordIds, List.length_append, List.length_map, List.length_cons,
      List.length_nil] at hlen
    cases n with
    | zero => simp [decodeChars, knownOnly]
    | succ n =>
      simp only [subwordIds, List.cons_append, List.nil_append, List.take_succ_cons,
        Nat.add_sub_cancel]
      rw [decodeChars, if_neg (by decide), if_pos (by simp),
        List.take_append_of_le_length (by simp; omega), ← List.map_take]
      have := decodeChars_segs h ((segment l).take n) [] [] rfl
      simpa using this
  · rename_i hlen
    simp only [subwordIds, List.length_append, List.length_map, List.length_cons,
      List.length_nil] at hlen
    have hn : (segment l).take (n - 1) = segment l := List.take_of_length_le (by omega)
    rw [hn]
    simp only [subwordIds, List.cons_append, List.nil_append, List.append_assoc]
    rw [decodeChars, if_neg (by decide), if_pos (by simp)]
    have := decodeChars_segs h (segment l) (END :: List.replicate
      (n - (START :: (List.map (fun s => (v.get? s).getD OOV) (segment l) ++ [END])).length)
        PADDING) [] (by rw [decodeChars, if_pos rfl])
    simpa using this

theorem fitLength_length (n : Nat) (ids : List Int) : (fitLength n ids).length = n := by
  unfold fitLength
  split
  · rw [List.length_take]; omega
  · rw [List.length_append, List.length_replicate]; omega

/-! ### reading embeddings -/

theorem pyGet_zero_singleton {α : Type} (x : α) : pyGet [x] 0 = .ok x := by
  have := pyGet_nat_ok (l := [x]) (i := 0) (x := x)
  exact this.2 rfl

end Verif
