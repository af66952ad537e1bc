import Verif.Proofs.Vocab

/-! # Properties of vocabularies, label tables and lemma labels -/

namespace Verif

namespace Demo

/-- "ab ab c": three words with lemmas. -/
def xtext : Str := "ab ab c".toList
def x0 : Token := { start := 0, stop := 2, lemma' := some "a".toList }
def x1 : Token := { start := 3, stop := 5, lemma' := some "ab".toList }
def x2 : Token := { start := 6, stop := 7, lemma' := some "d".toList }
def xdoc : Document := { text := xtext, tokens := [x0, x1, x2], sentences := [{ start := 0, stop := 3 }] }

end Demo

/-! ### C43 -/

/-- C43: in every vocabulary built from a training set, the words with an id are exactly those that
occur at least `threshold` times; the ids start at the base, stay below the announced size, and
determine the word. -/
theorem C43_vocabulary (threshold base : Int) (xs : List Str) (w : Str) :
    ((∃ i, (vocabulary threshold base xs).get? w = some i) ↔ w ∈ xs ∧ threshold ≤ xs.count w) ∧
    ∀ i, (vocabulary threshold base xs).get? w = some i →
      base ≤ i ∧ i < base + (vocabulary threshold base xs).entries.length ∧
      ∀ w', (vocabulary threshold base xs).get? w' = some i → w' = w :=
  ⟨vocabulary_isSome threshold base xs w, fun _ h => vocabulary_range h⟩

/-- C43: the id of a word (trainable vocabulary) is the out-of-vocabulary id or at least 2, and
below the first component of the announced shape `[len(word2id) + 2]`. -/
theorem C43_word_id (lower : Str → Str) (threshold : Int) (dataset : List Document)
    (lowercase : Bool) (text : Str) :
    (wordId lower (trainableVocabulary threshold dataset) lowercase text = 1 ∨
      2 ≤ wordId lower (trainableVocabulary threshold dataset) lowercase text) ∧
    wordId lower (trainableVocabulary threshold dataset) lowercase text <
      (trainableVocabulary threshold dataset).entries.length + 2 := by
  unfold wordId trainableVocabulary
  cases h : (vocabulary threshold 2 ((datasetTokens dataset).flatMap
      (fun t => t.1.map (fun c => [c])))).get? (if lowercase then lower text else text) with
  | none =>
    refine ⟨Or.inl rfl, ?_⟩
    show (1 : Int) < _
    omega
  | some i =>
    obtain ⟨h1, h2, _⟩ := vocabulary_range h
    simp only [Option.getD_some]
    omega

/-- C43: the ids of the subwords of a word are START, then one id per subword, then END; every one
of them is below the first component of the announced shape `[len(char2id) + 4]`, and the ids in
between are the out-of-vocabulary id or at least 4. -/
theorem C43_subword_ids (segment : Str → List Str) (threshold : Int) (dataset : List Document)
    (text : Str) :
    ∃ ids : List Int, subwordIds segment (subwordVocabulary segment threshold dataset) text =
        [2] ++ ids ++ [3] ∧ ids.length = (segment text).length ∧
      (∀ i ∈ ids, i = 1 ∨ 4 ≤ i) ∧
      ∀ i : Int, i ∈ [2] ++ ids ++ [3] →
        i < (subwordVocabulary segment threshold dataset).entries.length + 4 := by
  have key : ∀ s : Str,
      (((subwordVocabulary segment threshold dataset).get? s).getD OOV = 1 ∨
        4 ≤ ((subwordVocabulary segment threshold dataset).get? s).getD OOV) ∧
      ((subwordVocabulary segment threshold dataset).get? s).getD OOV <
        (subwordVocabulary segment threshold dataset).entries.length + 4 := by
    intro s
    cases h : (subwordVocabulary segment threshold dataset).get? s with
    | none =>
      refine ⟨Or.inl rfl, ?_⟩
      show (1 : Int) < _
      omega
    | some i =>
      obtain ⟨h1, h2, _⟩ := vocabulary_range h
      simp only [Option.getD_some]
      unfold subwordVocabulary
      omega
  refine ⟨(segment text).map
    (fun s => ((subwordVocabulary segment threshold dataset).get? s).getD OOV), rfl, by simp, ?_, ?_⟩
  · intro i hi
    obtain ⟨s, _, rfl⟩ := List.mem_map.1 hi
    exact (key s).1
  · intro i hi
    simp only [List.mem_append, List.mem_cons, List.not_mem_nil, or_false] at hi
    rcases hi with (rfl | hi) | rfl
    · omega
    · obtain ⟨s, _, rfl⟩ := List.mem_map.1 hi
      exact (key s).2
    · omega

example : subwordIds charSegment (subwordVocabulary charSegment 2 [Demo.xdoc]) "abc".toList =
    [2, 4, 5, 1, 3] := by decide +kernel

/-! ### C73 -/

/-- C73: the ids of a vocabulary do not depend on the order in which the training data come. -/
theorem C73_order_independent (segment : Str → List Str) (threshold : Int)
    (dataset dataset' : List Document) (h : dataset.Perm dataset') :
    trainableVocabulary threshold dataset = trainableVocabulary threshold dataset' ∧
    subwordVocabulary segment threshold dataset = subwordVocabulary segment threshold dataset' := by
  have ht : (datasetTokens dataset).Perm (datasetTokens dataset') :=
    h.flatMap_right _
  exact ⟨vocabulary_perm (ht.flatMap_right _) _ _, vocabulary_perm (ht.flatMap_right _) _ _⟩

example : trainableVocabulary 1 [Demo.xdoc, { Demo.xdoc with text := "zz zz y".toList }] =
    trainableVocabulary 1 [{ Demo.xdoc with text := "zz zz y".toList }, Demo.xdoc] := by
  decide +kernel

/-! ### C44 -/

theorem count_singletons (l : List Char) (c : Char) :
    (l.map (fun c => ([c] : Str))).count [c] = l.count c := by
  induction l with
  | nil => rfl
  | cons a l ih =>
    rw [List.map_cons, List.count_cons, List.count_cons, ih]
    simp

theorem flatten_singletons (l : List Char) : (l.map (fun c => ([c] : Str))).flatten = l := by
  induction l with
  | nil => rfl
  | cons a l ih => simp [ih]

/-- C44 does not hold: the vocabulary consists of single characters, so every word that is looked up
under a string of any other length is out of vocabulary, for every training set, threshold and
lowercase setting. -/
theorem C44_words_unknown (lower : Str → Str) (threshold : Int) (dataset : List Document)
    (lowercase : Bool) (text : Str)
    (h : (if lowercase then lower text else text).length ≠ 1) :
    wordId lower (trainableVocabulary threshold dataset) lowercase text = 1 := by
  unfold wordId trainableVocabulary
  cases hg : (vocabulary threshold 2 ((datasetTokens dataset).flatMap
      (fun t => t.1.map (fun c => [c])))).get? (if lowercase then lower text else text) with
  | none => rfl
  | some i =>
    exfalso
    have hm := ((vocabulary_isSome ..).1 ⟨i, hg⟩).1
    simp only [List.mem_flatMap, List.mem_map] at hm
    obtain ⟨t, _, c, _, hc⟩ := hm
    rw [← hc] at h
    exact h rfl

/-- C44 does not hold: "ab" occurs twice in the training set and is out of vocabulary with a
minimal frequency of 1. -/
theorem C44_refuted : ¬ ∀ (lower : Str → Str) (threshold : Int) (dataset : List Document)
    (text : Str), threshold ≤ ((datasetTokens dataset).map Prod.fst).count text →
      text ∈ (datasetTokens dataset).map Prod.fst →
      wordId lower (trainableVocabulary threshold dataset) false text ≠ 1 := by
  intro h
  exact h id 1 [Demo.xdoc] "ab".toList (by decide +kernel) (by decide +kernel)
    (C44_words_unknown id 1 [Demo.xdoc] false "ab".toList (by decide))

/-- C44, what holds: a word that is looked up under a single character gets an id of its own if that
character occurs at least `threshold` times inside the training words.  Missing: all other words. -/
theorem C44_partial (lower : Str → Str) (threshold : Int) (dataset : List Document)
    (lowercase : Bool) (text : Str) (c : Char)
    (hc : (if lowercase then lower text else text) = [c])
    (hin : c ∈ (datasetTokens dataset).flatMap Prod.fst)
    (hcount : threshold ≤ ((datasetTokens dataset).flatMap Prod.fst).count c) :
    2 ≤ wordId lower (trainableVocabulary threshold dataset) lowercase text ∧
    ∀ text', wordId lower (trainableVocabulary threshold dataset) lowercase text' =
        wordId lower (trainableVocabulary threshold dataset) lowercase text →
      (if lowercase then lower text' else text') = [c] := by
  have hxs : (datasetTokens dataset).flatMap (fun t => t.1.map (fun c => [c])) =
      ((datasetTokens dataset).flatMap Prod.fst).map (fun c => [c]) := by
    rw [List.map_flatMap]
  have hsome : ∃ i, (trainableVocabulary threshold dataset).get? [c] = some i := by
    refine (vocabulary_isSome ..).2 ?_
    rw [hxs]
    refine ⟨List.mem_map.2 ⟨c, hin, rfl⟩, ?_⟩
    rw [count_singletons]
    exact hcount
  obtain ⟨i, hi⟩ := hsome
  obtain ⟨h1, _, h3⟩ := vocabulary_range hi
  have hid : wordId lower (trainableVocabulary threshold dataset) lowercase text = i := by
    unfold wordId
    rw [hc, hi]
    rfl
  rw [hid]
  refine ⟨h1, ?_⟩
  intro text' h'
  unfold wordId at h'
  cases hg : (trainableVocabulary threshold dataset).get?
      (if lowercase then lower text' else text') with
  | none => rw [hg] at h'; simp only [Option.getD_none, OOV] at h'; omega
  | some j =>
    rw [hg] at h'
    simp only [Option.getD_some] at h'
    subst h'
    exact h3 _ hg

example : wordId id (trainableVocabulary 1 [Demo.xdoc]) false "c".toList = 4 := by decide +kernel

/-! ### C46 -/

/-- C46: a label table that is built from labels `xs` lists labels from `xs`, no two of them equal;
the first one is the earliest label with the highest number of occurrences; a label is in the table
exactly when it equals the first one or the threshold is not positive or the label occurs more often
than the threshold; and looking up a label gives exactly the positions of the equal entries. -/
theorem C46_table {α : Type} {eq : α → α → Bool} {lt : α → α → Res Bool} (he : EqRel eq)
    (xs : List α) (threshold : Int) (table : List α)
    (h : id2obj eq lt (counter eq xs) threshold = .ok table) :
    (∃ b rest pre post, table = b :: rest ∧ xs = pre ++ b :: post ∧
      (∀ x ∈ pre, occurrences eq x xs < occurrences eq b xs) ∧
      (∀ x ∈ xs, occurrences eq x xs ≤ occurrences eq b xs) ∧
      ∀ x ∈ xs, (∃ y ∈ table, eq y x = true) ↔
        (eq b x = true ∨ threshold ≤ 0 ∨ threshold < occurrences eq x xs)) ∧
    Distinct eq table ∧ (∀ y ∈ table, y ∈ xs) ∧
    ∀ x i, eqGet eq x (obj2id eq table) = some i ↔ ∃ y, table[i]? = some y ∧ eq y x = true := by
  have hs := id2obj_spec he h
  obtain ⟨b, rest, pre, post, h1, h2, h3, h4⟩ := hs.best
  refine ⟨⟨b, rest, pre, post, h1, h2, h3, h4, ?_⟩, hs.distinct, hs.subset,
    fun x i => eqGet_obj2id he hs.distinct x i⟩
  intro x hx
  rw [hs.covers x hx, h1]
  simp

/-- C46: the table exists whenever there is a label and comparisons do not raise; without labels
an `IndexError` is raised.  If the comparison is a strict order, the labels after the first one are
in increasing order. -/
theorem C46_built {α : Type} {eq : α → α → Bool} {lt : α → α → Res Bool} (he : EqRel eq)
    (xs : List α) (threshold : Int) :
    (xs = [] → id2obj eq lt (counter eq xs) threshold = .error .index) ∧
    (xs ≠ [] → Comparable lt xs →
      ∃ table, id2obj eq lt (counter eq xs) threshold = .ok table) ∧
    (OrderedBy eq lt xs → ∀ table, id2obj eq lt (counter eq xs) threshold = .ok table →
      table.tail.Pairwise (fun a b => lt a b = .ok true)) := by
  refine ⟨?_, fun h1 h2 => id2obj_total he h1 h2, fun h1 t h2 => id2obj_sorted he h1 h2⟩
  rintro rfl
  rfl

example : id2obj optStrEq optStrKeyLt
    (counter optStrEq [some ['b'], some ['a'], none, some ['a'], some ['b'], some ['c']]) 0 =
    .ok [some ['b'], none, some ['a'], some ['c']] := by decide +kernel

example : id2obj optStrEq optStrKeyLt
    (counter optStrEq [some ['b'], some ['a'], none, some ['a'], some ['b'], some ['c']]) 1 =
    .ok [some ['b'], some ['a']] := by decide +kernel

/-! ### C47 -/

theorem suffixRule_some {lower : Str → Str} {t : TextToken} {l : Str} (h : t.2.lemma' = some l) :
    suffixRule lower t = .ok (LemmaRule.getRule (lower t.1) (lower l)) := by
  simp [suffixRule, h]

/-- The rules of a training set that has a table. -/
theorem buildRules_ok {lower : Str → Str} {threshold : Int} {dataset : List Document}
    {rules : List LemmaRule} (h : buildRules lower threshold dataset = .ok rules) :
    ∃ all, mapM' (suffixRule lower) (datasetTokens dataset) = .ok all ∧
      id2obj LemmaRule.pyEq (fun a b => .ok (a.lt b)) (counter LemmaRule.pyEq all) threshold =
        .ok rules := by
  unfold buildRules at h
  cases hm : mapM' (suffixRule lower) (datasetTokens dataset) with
  | error e => rw [hm] at h; simp at h
  | ok all => rw [hm] at h; exact ⟨all, rfl, h⟩

theorem buildRules_distinct {lower : Str → Str} {threshold : Int} {dataset : List Document}
    {rules : List LemmaRule} (h : buildRules lower threshold dataset = .ok rules) :
    Distinct LemmaRule.pyEq rules := by
  obtain ⟨all, _, h2⟩ := buildRules_ok h
  exact (id2obj_spec ruleEq_rel h2).distinct

/-- C47: for every token whose lemma rule is in the table, the label is an index of the table and
interpreting it yields the token with the lower-cased lemma and nothing else changed. -/
theorem C47_round_trip (lower : Str → Str) (threshold : Int) (dataset : List Document)
    (rules : List LemmaRule) (hb : buildRules lower threshold dataset = .ok rules)
    (t : TextToken) (l : Str) (hl : t.2.lemma' = some l)
    (hin : LemmaRule.getRule (lower t.1) (lower l) ∈ rules) :
    ∃ i : Nat, i < rules.length ∧ encodeRule lower rules t = .ok [(i : Int)] ∧
      interpretRule lower rules t [(i : Int)] = .ok { t.2 with lemma' := some (lower l) } := by
  have hd := buildRules_distinct hb
  obtain ⟨i, hi⟩ := List.mem_iff_getElem?.1 hin
  refine ⟨i, (List.getElem?_eq_some_iff.1 hi).1, ?_, ?_⟩
  · have hg : eqGet LemmaRule.pyEq (LemmaRule.getRule (lower t.1) (lower l))
        (obj2id LemmaRule.pyEq rules) = some i :=
      (eqGet_obj2id ruleEq_rel hd _ i).2 ⟨_, hi, ruleEq_rel.refl _⟩
    simp only [encodeRule, suffixRule_some hl, hg, Option.getD_some]
  · obtain ⟨h1, h2, _⟩ := C34_round_trip (lower t.1) (lower l)
    simp only [interpretRule, pyGet_zero_singleton, pyGet_nat_ok.2 hi, h1, if_true, h2,
      Token.withMorphology_ok]

/-- C47: without a positive threshold (and with any threshold for the frequent rules) the rules of
training tokens are in the table. -/
theorem C47_training_rules (lower : Str → Str) (threshold : Int) (dataset : List Document)
    (rules : List LemmaRule) (hb : buildRules lower threshold dataset = .ok rules)
    (t : TextToken) (ht : t ∈ datasetTokens dataset) :
    ∃ l, t.2.lemma' = some l ∧
      (threshold ≤ 0 ∨ threshold < ((datasetTokens dataset).countP (fun t' =>
          t'.2.lemma'.any (fun l' => LemmaRule.getRule (lower t'.1) (lower l') =
            LemmaRule.getRule (lower t.1) (lower l)))) →
        LemmaRule.getRule (lower t.1) (lower l) ∈ rules) := by
  obtain ⟨all, h1, h2⟩ := buildRules_ok hb
  rw [mapM'_ok_iff] at h1
  have hl : ∃ l, t.2.lemma' = some l := by
    cases hl : t.2.lemma' with
    | some l => exact ⟨l, rfl⟩
    | none =>
      exfalso
      obtain ⟨i, hi⟩ := List.mem_iff_getElem?.1 ht
      have hlt := (List.getElem?_eq_some_iff.1 hi).1
      have hlen := h1.length_eq
      have := (List.forall₂_iff_get.1 h1).2 i hlt (by omega)
      rw [List.get_eq_getElem, (List.getElem?_eq_some_iff.1 hi).2] at this
      simp [suffixRule, hl] at this
  obtain ⟨l, hl⟩ := hl
  refine ⟨l, hl, ?_⟩
  intro hthr
  have hmem : ∀ (ts : List TextToken) (rs : List LemmaRule),
      List.Forall₂ (fun a b => suffixRule lower a = .ok b) ts rs → t ∈ ts →
      LemmaRule.getRule (lower t.1) (lower l) ∈ rs := by
    intro ts rs h
    induction h with
    | nil => simp
    | cons hab _ ih =>
      intro hm
      rcases List.mem_cons.1 hm with rfl | hm
      · rw [suffixRule_some hl] at hab
        injection hab with hab
        rw [hab]
        simp
      · exact List.mem_cons_of_mem _ (ih hm)
  have hocc : ∀ (ts : List TextToken) (rs : List LemmaRule) (r : LemmaRule),
      List.Forall₂ (fun a b => suffixRule lower a = .ok b) ts rs →
      ts.countP (fun t' => t'.2.lemma'.any (fun l' => LemmaRule.getRule (lower t'.1) (lower l') = r))
        = occurrences LemmaRule.pyEq r rs := by
    intro ts rs r h
    induction h with
    | nil => rfl
    | @cons a b ts rs hab _ ih =>
      rw [occurrences, List.countP_cons, List.countP_cons, ih, occurrences]
      congr 1
      cases hla : a.2.lemma' with
      | none => simp [suffixRule, hla] at hab
      | some la =>
        rw [suffixRule_some hla] at hab
        injection hab with hab
        subst hab
        simp only [Option.any_some, decide_eq_true_eq, ruleEq_iff]
        congr 1
        exact propext eq_comm
  have hx := hmem _ _ h1 ht
  rw [hocc _ _ _ h1] at hthr
  have := ((id2obj_spec ruleEq_rel h2).covers _ hx).2 (Or.inr hthr)
  obtain ⟨y, hy, hyx⟩ := this
  rw [ruleEq_iff] at hyx
  exact hyx ▸ hy

/-- C47: any label in range is interpreted without an exception; the new lemma is the lower-cased
word with its suffix replaced, or the lower-cased word if the rule does not apply. -/
theorem C47_any_label (lower : Str → Str) (rules : List LemmaRule) (t : TextToken) (i : Nat)
    (hi : i < rules.length) :
    ∃ lem, interpretRule lower rules t [(i : Int)] = .ok { t.2 with lemma' := some lem } ∧
      ((∃ p, lower t.1 = p ++ rules[i].wordSuffix ∧ lem = p ++ rules[i].lemmaSuffix) ∨
       (¬ rules[i].wordSuffix <:+ lower t.1 ∧ lem = lower t.1)) := by
  have hg : rules[i]? = some rules[i] := List.getElem?_eq_getElem hi
  by_cases h : rules[i].wordSuffix <:+ lower t.1
  · obtain ⟨p, hp⟩ := h
    have htr := (C34_transform rules[i] (lower t.1)).1 p hp.symm
    have happ : rules[i].isApplicable (lower t.1) = true := by
      rw [LemmaRule.isApplicable, endsWith, List.isSuffixOf_iff_suffix]
      exact ⟨p, hp⟩
    refine ⟨p ++ rules[i].lemmaSuffix, ?_, Or.inl ⟨p, hp.symm, rfl⟩⟩
    simp only [interpretRule, pyGet_zero_singleton, pyGet_nat_ok.2 hg, happ, if_true, htr,
      Token.withMorphology_ok]
  · have happ : rules[i].isApplicable (lower t.1) = false := by
      rw [← Bool.not_eq_true, LemmaRule.isApplicable, endsWith, List.isSuffixOf_iff_suffix]
      exact h
    refine ⟨lower t.1, ?_, Or.inr ⟨h, rfl⟩⟩
    simp only [interpretRule, pyGet_zero_singleton, pyGet_nat_ok.2 hg, happ, Bool.false_eq_true,
      if_false, Token.withMorphology_ok]

/-- C47: every token with a lemma gets a label in range, also if its rule is unknown. -/
theorem C47_label_in_range (lower : Str → Str) (threshold : Int) (dataset : List Document)
    (rules : List LemmaRule) (hb : buildRules lower threshold dataset = .ok rules)
    (t : TextToken) :
    (t.2.lemma' = none → encodeRule lower rules t = .error .attribute) ∧
    (t.2.lemma' ≠ none → ∃ i : Nat, i < rules.length ∧ encodeRule lower rules t = .ok [(i : Int)]) := by
  constructor
  · intro h
    simp [encodeRule, suffixRule, h]
  · intro h
    obtain ⟨l, hl⟩ := Option.ne_none_iff_exists'.1 h
    have hd := buildRules_distinct hb
    simp only [encodeRule, suffixRule_some hl]
    cases hg : eqGet LemmaRule.pyEq (LemmaRule.getRule (lower t.1) (lower l))
        (obj2id LemmaRule.pyEq rules) with
    | some i =>
      obtain ⟨y, hy, _⟩ := (eqGet_obj2id ruleEq_rel hd _ i).1 hg
      exact ⟨i, (List.getElem?_eq_some_iff.1 hy).1, rfl⟩
    | none =>
      refine ⟨0, ?_, rfl⟩
      obtain ⟨all, _, h2⟩ := buildRules_ok hb
      obtain ⟨b, rest, _, _, h3, _⟩ := (id2obj_spec ruleEq_rel h2).best
      simp [h3]

example : buildRules id 0 [Demo.xdoc] =
    .ok [⟨['b'], [], false⟩, ⟨[], [], false⟩, ⟨['c'], ['d'], true⟩] := by decide +kernel

example : encodeRule id [⟨['b'], [], false⟩, ⟨[], [], false⟩, ⟨['c'], ['d'], true⟩]
    ("ab".toList, Demo.x1) = .ok [1] := by decide +kernel

/-! ### C48 -/

/-- C48: the applicability vector never raises, has one entry per rule, and an entry is true only
for a rule that can be applied to the lower-cased word; for every token whose lemma rule is in the
table the entry of that rule is true. -/
theorem C48_gold_not_masked (lower : Str → Str) (threshold : Int) (dataset : List Document)
    (rules : List LemmaRule) (hb : buildRules lower threshold dataset = .ok rules) (text : Str) :
    ∃ v, applicableRules lower rules text = .ok v ∧ v.length = rules.length ∧
      (∀ i : Nat, v[i]? = some true → ∃ r, rules[i]? = some r ∧
        ∃ l, r.transform (lower text) = .ok l) ∧
      ∀ (l : Str) (i : Nat), rules[i]? = some (LemmaRule.getRule (lower text) (lower l)) →
        v[i]? = some true := by
  have hd := buildRules_distinct hb
  have hz : obj2id LemmaRule.pyEq rules = rules.zipIdx := obj2id_eq ruleEq_rel hd
  have hsound : ∀ e ∈ (Trie.build rules.zipIdx).getApplicableRules (lower text),
      rules[e.2]? = some e.1 ∧ ∃ l, e.1.transform (lower text) = .ok l := by
    intro e he
    obtain ⟨h1, _, h3⟩ := C35_sound _ _ e he
    obtain ⟨r, i⟩ := e
    exact ⟨List.mem_zipIdx_iff_getElem?.1 h1, h3⟩
  obtain ⟨v, h1, h2, h3⟩ := setTrue_all
    ((Trie.build rules.zipIdx).getApplicableRules (lower text))
    (List.replicate rules.length false) (by
      intro e he
      rw [List.length_replicate]
      exact (List.getElem?_eq_some_iff.1 (hsound e he).1).1)
  rw [List.length_replicate] at h2
  refine ⟨v, by rw [applicableRules, hz]; exact h1, h2, ?_, ?_⟩
  · intro i hi
    rcases (h3 i).1 hi with h | ⟨e, he, rfl⟩
    · exfalso
      rw [List.getElem?_replicate] at h
      split at h <;> simp at h
    · exact ⟨e.1, hsound e he⟩
  · intro l i hi
    refine (h3 i).2 (Or.inr ⟨(LemmaRule.getRule (lower text) (lower l), i), ?_, rfl⟩)
    have hin : (LemmaRule.getRule (lower text) (lower l), i) ∈ rules.zipIdx :=
      List.mem_zipIdx_iff_getElem?.2 hi
    obtain ⟨c1, _, c3⟩ := C36_complete rules.zipIdx (lower text)
      (LemmaRule.getRule (lower text) (lower l), i)
    rw [← List.count_pos_iff] at hin ⊢
    cases hexc : (LemmaRule.getRule (lower text) (lower l)).exc with
    | true =>
      have hw : (LemmaRule.getRule (lower text) (lower l)).wordSuffix = lower text := by
        simp only [LemmaRule.getRule, beq_iff_eq] at hexc
        simp [LemmaRule.getRule, hexc]
      rw [c3 hexc hw]
      exact hin
    | false =>
      have hne : (LemmaRule.getRule (lower text) (lower l)).wordSuffix ≠ lower text := by
        simp only [LemmaRule.getRule, beq_eq_false_iff_ne] at hexc
        obtain ⟨_, hle, _⟩ := commonStart_spec (lower text) (lower l)
        intro he
        have := congrArg List.length he
        simp only [LemmaRule.getRule, List.length_drop] at this
        omega
      rw [c1 (by simp [LemmaRule.isRegular, hexc]) (by
        simp [LemmaRule.getRule, List.drop_suffix]) hne]
      exact hin

example : applicableRules id [⟨['b'], [], false⟩, ⟨[], [], false⟩, ⟨['c'], ['d'], true⟩]
    "ab".toList = .ok [true, true, false] := by decide +kernel

/-! ### C49 -/

theorem lemmaVocabulary_table {segment : Str → List Str} {threshold : Int}
    {dataset : List Document} {v : Dict Str Int}
    (h : lemmaVocabulary segment threshold dataset = .ok v) : CharTable v := by
  unfold lemmaVocabulary at h
  split at h
  · simp at h
  · injection h with h
    subst h
    exact ⟨fun w i hw => (vocabulary_range hw).1, fun w w' i hw hw' => (vocabulary_range hw').2.2 w hw⟩

/-- C49: the label of a lemma always has length `max_word_length`, and interpreting it gives the
known characters among the first `max_word_length - 1` characters of the lemma. -/
theorem C49_characters (segment : Str → List Str) (threshold : Int) (dataset : List Document)
    (v : Dict Str Int) (hv : lemmaVocabulary segment threshold dataset = .ok v) (n : Nat)
    (tok : Token) (l : Str) :
    ∃ ids, encodeChars segment v n (some l) = .ok ids ∧ ids.length = n ∧
      interpretChars (invert v) tok ids = .ok
        { tok with
          lemma' := some (((segment l).take (n - 1)).filter (fun s => (v.get? s).isSome)).flatten } := by
  refine ⟨_, rfl, fitLength_length _ _, ?_⟩
  simp only [interpretChars, decodeChars_label (lemmaVocabulary_table hv), Token.withMorphology_ok]
  rfl

/-- C49: with the character segmenter, a lemma whose characters all occur at least `threshold` times
in the training lemmas and that is shorter than `max_word_length` is decoded exactly. -/
theorem C49_exact (threshold : Int) (dataset : List Document)
    (v : Dict Str Int) (hv : lemmaVocabulary charSegment threshold dataset = .ok v) (n : Nat)
    (tok : Token) (l : Str) (hlen : l.length < n)
    (hchars : ∀ c ∈ l, c ∈ ((datasetTokens dataset).flatMap (fun t => t.2.lemma'.getD [])) ∧
      threshold ≤ ((datasetTokens dataset).flatMap (fun t => t.2.lemma'.getD [])).count c) :
    ∃ ids, encodeChars charSegment v n (some l) = .ok ids ∧
      interpretChars (invert v) tok ids = .ok { tok with lemma' := some l } := by
  obtain ⟨ids, h1, _, h3⟩ := C49_characters charSegment threshold dataset v hv n tok l
  refine ⟨ids, h1, ?_⟩
  rw [h3]
  congr 3
  have htake : (charSegment l).take (n - 1) = charSegment l :=
    List.take_of_length_le (by simp [charSegment]; omega)
  rw [htake]
  have hknown : ∀ s ∈ charSegment l, (v.get? s).isSome = true := by
    intro s hs
    simp only [charSegment, List.mem_map] at hs
    obtain ⟨c, hc, rfl⟩ := hs
    obtain ⟨hin, hcount⟩ := hchars c hc
    unfold lemmaVocabulary at hv
    split at hv
    · simp at hv
    · rename_i ss hss
      injection hv with hv
      have hxs : ss.flatten =
          ((datasetTokens dataset).flatMap (fun t => t.2.lemma'.getD [])).map (fun c => [c]) := by
        rw [mapM'_ok_iff] at hss
        clear hin hcount hv hchars
        generalize datasetTokens dataset = ts at hss
        induction hss with
        | nil => rfl
        | @cons a b as bs hab _ ih =>
          rw [List.flatten_cons, ih, List.flatMap_cons, List.map_append]
          congr 1
          cases hla : a.2.lemma' with
          | none => simp [lemmaSegments, hla] at hab
          | some la =>
            simp only [lemmaSegments, hla] at hab
            injection hab with hab
            rw [← hab]
            rfl
      obtain ⟨i, hi⟩ := (vocabulary_isSome threshold 4 ss.flatten [c]).2 (by
        rw [hxs]
        refine ⟨List.mem_map.2 ⟨c, hin, rfl⟩, ?_⟩
        rw [count_singletons]
        exact hcount)
      rw [← hv, hi]
      rfl
  rw [List.filter_eq_self.2 hknown]
  exact flatten_singletons l

/-- C49: a token without lemma has no label. -/
theorem C49_no_lemma (segment : Str → List Str) (v : Dict Str Int) (n : Nat) :
    encodeChars segment v n none = .error .type := rfl

example : (lemmaVocabulary charSegment 1 [Demo.xdoc]).isOk = true := by decide +kernel
example : ∃ v, lemmaVocabulary charSegment 1 [Demo.xdoc] = .ok v ∧
    encodeChars charSegment v 5 (some "bxd".toList) = .ok [2, 5, 1, 6, 3] ∧
    decodeChars (invert v) [2, 5, 1, 6, 3] = .ok "bd".toList := by
  refine ⟨_, rfl, ?_⟩
  decide +kernel

/-! ### C71 -/

/-- C71: the BPE segmenter joins to the encoder's pieces without one leading word-boundary mark; it
introduces no empty piece; and an encoder without pieces raises an `IndexError`. -/
theorem C71_bpe (encode : Str → List Str) (token : Str) :
    (encode token = [] → bpeSegment encode token = .error .index) ∧
    (encode token ≠ [] → (∀ s ∈ encode token, s ≠ []) →
      ∃ segs, bpeSegment encode token = .ok segs ∧ (∀ s ∈ segs, s ≠ []) ∧
        (encode token).flatten = (if (encode token).flatten.head? = some '▁' then ['▁'] else []) ++
          segs.flatten ∧
        segs.tail <:+ encode token) := by
  refine ⟨fun h => by simp [bpeSegment, h], ?_⟩
  intro hne hpieces
  cases henc : encode token with
  | nil => exact absurd henc hne
  | cons s rest =>
    rw [henc] at hpieces
    cases s with
    | nil => exact absurd rfl (hpieces [] (by simp))
    | cons c s =>
      simp only [bpeSegment, henc, List.head?_cons, Option.some.injEq, List.flatten_cons,
        List.cons_append]
      by_cases hc : c = '▁'
      · subst hc
        simp only [if_true]
        cases s with
        | nil =>
          refine ⟨rest, by simp, fun x hx => hpieces x (by simp [hx]), by simp, ?_⟩
          exact (List.tail_suffix rest).trans (List.suffix_cons _ _)
        | cons d s =>
          refine ⟨(d :: s) :: rest, by simp, ?_, by simp, ?_⟩
          · intro x hx
            rcases List.mem_cons.1 hx with rfl | hx
            · simp
            · exact hpieces x (by simp [hx])
          · exact List.suffix_cons _ _
      · simp only [hc, if_false]
        exact ⟨(c :: s) :: rest, rfl, hpieces, by simp, List.suffix_cons _ _⟩

example : bpeSegment (fun _ => ["▁".toList, "ab".toList]) "ab".toList = .ok ["ab".toList] := by
  decide
example : bpeSegment (fun _ => ["▁▁a".toList, "▁b".toList]) "ab".toList =
    .ok ["▁a".toList, "▁b".toList] := by decide

/-! ### C72 -/

/-- C72: the lemma dictionary of a non-empty training set always exists (no comparison raises, even
if some tokens have no lemma), and the label of a training lemma decodes to that lemma with nothing
else changed. -/
theorem C72_lemma_dictionary (lemmas : List (Option Str)) (hne : lemmas ≠ []) :
    ∃ table, buildLemmaTable lemmas = .ok table ∧
      ∀ l ∈ lemmas, ∃ i : Nat, i < table.length ∧ encodeLemma table l = [(i : Int)] ∧
        ∀ tok : Token, interpretLemma table tok [(i : Int)] = .ok { tok with lemma' := l } := by
  obtain ⟨table, ht⟩ := id2obj_total (lt := optStrKeyLt) (threshold := 0) optStrEq_rel hne (by
    intro a _ b _
    cases a <;> cases b <;> exact ⟨_, rfl⟩)
  refine ⟨table, ht, ?_⟩
  intro l hl
  have hs := id2obj_spec optStrEq_rel ht
  obtain ⟨y, hy, hyl⟩ := (hs.covers l hl).2 (Or.inr (Or.inl (by omega)))
  simp only [optStrEq, decide_eq_true_eq] at hyl
  subst hyl
  obtain ⟨i, hi⟩ := List.mem_iff_getElem?.1 hy
  refine ⟨i, (List.getElem?_eq_some_iff.1 hi).1, ?_, ?_⟩
  · have := (eqGet_obj2id optStrEq_rel hs.distinct y i).2 ⟨y, hi, optStrEq_rel.refl y⟩
    simp [encodeLemma, this]
  · intro tok
    simp only [interpretLemma, pyGet_zero_singleton, pyGet_nat_ok.2 hi, Token.withMorphology_ok]

/-- C72: an unknown lemma gets label 1, which is the label of a known lemma as soon as there are two
different training lemmas; with only one it is out of range. -/
theorem C72_unknown_lemma (lemmas : List (Option Str)) (table : List (Option Str))
    (ht : buildLemmaTable lemmas = .ok table) (l : Option Str) (hl : l ∉ lemmas) :
    encodeLemma table l = [1] ∧
    ((∃ a ∈ lemmas, ∃ b ∈ lemmas, a ≠ b) →
      ∃ known ∈ lemmas, known ≠ l ∧ encodeLemma table known = [1]) ∧
    ((∀ a ∈ lemmas, ∀ b ∈ lemmas, a = b) →
      ∀ tok, interpretLemma table tok [1] = .error .index) := by
  have hs := id2obj_spec optStrEq_rel ht
  have hdis : table.Nodup := hs.distinct.nodup (fun a b => by simp [optStrEq])
  refine ⟨?_, ?_, ?_⟩
  · cases hg : eqGet optStrEq l (obj2id optStrEq table) with
    | none => simp [encodeLemma, hg, OOV]
    | some i =>
      exfalso
      obtain ⟨y, hy, hyl⟩ := (eqGet_obj2id optStrEq_rel hs.distinct l i).1 hg
      simp only [optStrEq, decide_eq_true_eq] at hyl
      subst hyl
      exact hl (hs.subset y (List.mem_of_getElem? hy))
  · rintro ⟨a, ha, b, hb, hab⟩
    have hin : ∀ x ∈ lemmas, x ∈ table := by
      intro x hx
      obtain ⟨y, hy, hyx⟩ := (hs.covers x hx).2 (Or.inr (Or.inl (by omega)))
      simp only [optStrEq, decide_eq_true_eq] at hyx
      exact hyx ▸ hy
    cases h1 : table[1]? with
    | none =>
      exfalso
      have hlen : table.length ≤ 1 := List.getElem?_eq_none_iff.1 h1
      have ha' := hin a ha
      have hb' := hin b hb
      match table, hlen, ha', hb' with
      | [x], _, ha', hb' =>
        simp only [List.mem_singleton] at ha' hb'
        exact hab (ha'.trans hb'.symm)
    | some y =>
      have hym := hs.subset y (List.mem_of_getElem? h1)
      refine ⟨y, hym, fun e => hl (e ▸ hym), ?_⟩
      have := (eqGet_obj2id optStrEq_rel hs.distinct y 1).2 ⟨y, h1, optStrEq_rel.refl y⟩
      simp [encodeLemma, this]
  · intro hall tok
    have hlen : table.length ≤ 1 := by
      match table, hs.subset, hdis with
      | [], _, _ => simp
      | [x], _, _ => simp
      | x :: y :: rest, hsub, hnd =>
        exfalso
        have := hall x (hsub x (by simp)) y (hsub y (by simp))
        subst this
        simp at hnd
    have hget : pyGet table 1 = .error .index := by
      have := pyGet_nat table 1
      rw [List.getElem?_eq_none_iff.2 hlen] at this
      simpa using this
    simp only [interpretLemma, pyGet_zero_singleton, hget]

example : buildLemmaTable [some ['b'], none, some ['a'], some ['a']] =
    .ok [some ['a'], none, some ['b']] := by decide +kernel

end Verif
