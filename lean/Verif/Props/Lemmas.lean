import Verif.Proofs.Lemmas

/-! # Properties of lemma rules and of the rule trie -/

namespace Verif

/-! ### Specification vocabulary -/

/-- The two words begin with the same character. -/
def ShareFirst (w l : Str) : Prop := ∃ c w' l', w = c :: w' ∧ l = c :: l'

/-- The longest end of the word which is also the end of the word suffix of some rule. -/
structure LongestKnownEnd (rules : List Entry) (word d : Str) : Prop where
  ends : d <:+ word
  known : d = [] ∨ ∃ e ∈ rules, d <:+ e.1.wordSuffix
  longest : ∀ d', d' <:+ word → (∃ e ∈ rules, d' <:+ e.1.wordSuffix) → d'.length ≤ d.length

/-! ### C34 -/

/-- C34: the rule derived from a word and its lemma applies to the word and yields the lemma;
it is an exception exactly when the two do not begin with the same character; and no rule with a
shorter word suffix maps the word to the lemma. -/
theorem C34_round_trip (w l : Str) :
    (LemmaRule.getRule w l).isApplicable w = true ∧
    (LemmaRule.getRule w l).transform w = .ok l ∧
    ((LemmaRule.getRule w l).exc = true ↔ ¬ ShareFirst w l) ∧
    ∀ r : LemmaRule, r.transform w = .ok l →
      (LemmaRule.getRule w l).wordSuffix.length ≤ r.wordSuffix.length := by
  obtain ⟨h1, h2, h3⟩ := commonStart_spec w l
  have happ : (LemmaRule.getRule w l).isApplicable w = true := by
    simp [LemmaRule.isApplicable, LemmaRule.getRule, endsWith, List.drop_suffix]
  refine ⟨happ, ?_, ?_, ?_⟩
  · simp only [LemmaRule.transform, happ, Bool.not_true, Bool.false_eq_true, if_false]
    congr 1
    simp only [LemmaRule.getRule, List.length_drop]
    rw [show w.length - (w.length - commonStart w l) = commonStart w l by omega, h1,
      List.take_append_drop]
  · simp only [LemmaRule.getRule, beq_iff_eq]
    cases w with
    | nil => simp [commonStart, ShareFirst]
    | cons a w =>
      cases l with
      | nil => simp [commonStart, ShareFirst]
      | cons b l =>
        by_cases h : a = b
        · subst h
          simp [commonStart, ShareFirst]
        · simp only [commonStart, h, if_false, true_iff]
          rintro ⟨c, w', l', e1, e2⟩
          injection e1 with e1
          injection e2 with e2
          exact h (e1.trans e2.symm)
  · intro r hr
    simp only [LemmaRule.transform] at hr
    split at hr
    · simp at hr
    · rename_i hap
      simp only [LemmaRule.isApplicable, endsWith, Bool.not_eq_true', Bool.not_eq_false,
        List.isSuffixOf_iff_suffix] at hap
      injection hr with hr
      have hp := commonStart_max w l (w.take (w.length - r.wordSuffix.length))
        (List.take_prefix _ _) (by rw [← hr]; exact List.prefix_append _ _)
      have hle := hap.length_le
      simp only [LemmaRule.getRule, List.length_drop]
      simp only [List.length_take] at hp
      omega

example : LemmaRule.getRule "cats".toList "cat".toList = ⟨"s".toList, [], false⟩ := by decide
example : (LemmaRule.getRule "was".toList "be".toList) = ⟨"was".toList, "be".toList, true⟩ := by
  decide

/-- C34: a rule replaces the word suffix of any word ending in it, and raises `ValueError` on every
other word. -/
theorem C34_transform (r : LemmaRule) (w : Str) :
    (∀ p, w = p ++ r.wordSuffix → r.transform w = .ok (p ++ r.lemmaSuffix)) ∧
    (¬ r.wordSuffix <:+ w → r.transform w = .error .value) := by
  constructor
  · rintro p rfl
    simp [LemmaRule.transform, LemmaRule.isApplicable, endsWith]
  · intro h
    have : List.isSuffixOf r.wordSuffix w = false := by
      rw [← Bool.not_eq_true, List.isSuffixOf_iff_suffix]
      exact h
    simp [LemmaRule.transform, LemmaRule.isApplicable, endsWith, this]

/-! ### The complete answer of the trie -/

/-- The rules the trie returns for a word, up to order and with multiplicity. -/
theorem getApplicableRules_perm (rules : List Entry) (word d : Str)
    (hd : LongestKnownEnd rules word d) :
    ((Trie.build rules).getApplicableRules word).Perm
      (rules.filter (fun e => e.1.isRegular &&
          decide (e.1.wordSuffix <:+ word ∧ e.1.wordSuffix ≠ word)) ++
        rules.filter (fun e => e.1.exc && decide (e.1.wordSuffix = d))) := by
  obtain ⟨hends, hknown, hlongest⟩ := hd
  have hpre : d.reverse <+: word.reverse := List.reverse_prefix.2 hends
  have hisSome : ∀ p : List Char, (Trie.obs (Trie.build rules) p).isSome ↔
      (p = [] ∨ ∃ e ∈ rules, p <+: e.1.wordSuffix.reverse) := by
    intro p
    rw [Trie.obs_build]
    split
    · rename_i h
      simpa using h
    · rename_i h
      simpa using h
  have hkn : d.reverse = [] ∨ ∃ e ∈ rules, d.reverse <+: e.1.wordSuffix.reverse := by
    rcases hknown with h | ⟨e, he, h⟩
    · left; simp [h]
    · right; exact ⟨e, he, List.reverse_prefix.2 h⟩
  rw [Trie.getApplicableRules, Trie.walk_obs (Trie.build rules) word.reverse d.reverse hpre
    ((hisSome _).2 hkn)
    (by
      intro d' hd' hs
      rcases (hisSome d').1 hs with h | ⟨e, he, h⟩
      · simp [h]
      · have := hlongest d'.reverse (by
          have := List.reverse_suffix.2 hd'
          simpa using this) ⟨e, he, by
          have := List.reverse_suffix.2 h
          simpa using this⟩
        simpa using this)]
  have hget : ∀ p : List Char, ((Trie.obs (Trie.build rules) p).getD ([], [])) =
      (Trie.sel true rules p, Trie.sel false rules p) := by
    intro p
    rw [Trie.obs_build]
    split
    · rfl
    · rename_i hno
      have hk : ∀ k, Trie.sel k rules p = [] := by
        intro k
        simp only [Trie.sel, List.filter_eq_nil_iff]
        intro x hx hh
        simp only [Bool.and_eq_true, decide_eq_true_eq] at hh
        exact hno (Or.inr ⟨x, hx, by rw [hh.1]⟩)
      simp [hk]
  simp only [hget]
  refine List.Perm.append ?_ ?_
  · refine (Trie.flatMap_sel rules true word.reverse _ ?_).trans ?_
    · split
      · simp
      · rename_i hne
        have h1 := hpre.length_le
        rcases Nat.lt_or_ge d.reverse.length word.reverse.length with h | h
        · omega
        · exact absurd (hpre.eq_of_length (by omega)) hne
    · refine List.Perm.of_eq (List.filter_congr ?_)
      intro e he
      rw [Bool.and_comm, show (e.1.isRegular == true) = e.1.isRegular by simp]
      congr 1
      rw [decide_eq_decide]
      have hs : e.1.wordSuffix.reverse <+: word.reverse ↔ e.1.wordSuffix <:+ word :=
        List.reverse_prefix
      rw [hs]
      constructor
      · rintro ⟨h1, h2⟩
        refine ⟨h1, ?_⟩
        rintro rfl
        split at h2
        · simp at h2
        · rename_i hne
          have h3 := hlongest _ h1 ⟨e, he, List.suffix_rfl⟩
          have h4 := hpre.length_le
          simp only [List.length_reverse] at h4
          exact hne (hpre.eq_of_length (by simp; omega))
      · rintro ⟨h1, h2⟩
        refine ⟨h1, ?_⟩
        split
        · have := h1.length_le
          simp only [List.length_reverse]
          rcases Nat.lt_or_ge e.1.wordSuffix.length word.length with h | h
          · exact h
          · exact absurd (h1.eq_of_length (by omega)) h2
        · have h3 := hlongest _ h1 ⟨e, he, List.suffix_rfl⟩
          simp only [List.length_reverse]
          omega
  · refine List.Perm.of_eq (List.filter_congr ?_)
    intro e _
    rw [Bool.and_comm]
    congr 1
    · simp [LemmaRule.isRegular]
    · rw [decide_eq_decide]
      exact List.reverse_inj

theorem exists_longestKnownEnd (rules : List Entry) (word : Str) :
    ∃ d, LongestKnownEnd rules word d := by
  classical
  by_cases hn : ∃ d', d' <:+ word ∧ ∃ e ∈ rules, d' <:+ e.1.wordSuffix
  · have hP : ∃ k, ∃ d', d' <:+ word ∧ (∃ e ∈ rules, d' <:+ e.1.wordSuffix) ∧
        word.length - d'.length = k := by
      obtain ⟨d', a, b⟩ := hn
      exact ⟨_, d', a, b, rfl⟩
    obtain ⟨d', a, b, hk⟩ := Nat.find_spec hP
    refine ⟨d', a, Or.inr b, ?_⟩
    intro d2 a2 b2
    have := Nat.find_min' hP ⟨d2, a2, b2, rfl⟩
    have l1 := a.length_le
    have l2 := a2.length_le
    omega
  · refine ⟨[], List.nil_suffix, Or.inl rfl, ?_⟩
    intro d' a b
    exact absurd ⟨d', a, b⟩ hn

/-! ### C35 -/

/-- C35: every rule the trie returns for a word was put into it, with that index, and applies to
the word. -/
theorem C35_sound (rules : List Entry) (word : Str) (e : Entry)
    (he : e ∈ (Trie.build rules).getApplicableRules word) :
    e ∈ rules ∧ e.1.wordSuffix <:+ word ∧ ∃ l, e.1.transform word = .ok l := by
  obtain ⟨d, hd⟩ := exists_longestKnownEnd rules word
  have := (getApplicableRules_perm rules word d hd).mem_iff.1 he
  have hs : e ∈ rules ∧ e.1.wordSuffix <:+ word := by
    simp only [List.mem_append, List.mem_filter, Bool.and_eq_true, decide_eq_true_eq] at this
    rcases this with ⟨h1, _, h2, _⟩ | ⟨h1, _, h2⟩
    · exact ⟨h1, h2⟩
    · exact ⟨h1, h2 ▸ hd.ends⟩
  refine ⟨hs.1, hs.2, ?_⟩
  obtain ⟨p, hp⟩ := hs.2
  exact ⟨_, (C34_transform e.1 word).1 p hp.symm⟩

/-! ### C36 -/

/-- C36: for every word and every multiset of rules, the regular rules returned are exactly those
whose word suffix is a proper suffix of the word, and the exceptions returned include exactly the
inserted copies of those whose word suffix is the whole word; a regular rule whose word suffix is
the whole word is not returned. -/
theorem C36_complete (rules : List Entry) (word : Str) (e : Entry) :
    (e.1.isRegular = true → e.1.wordSuffix <:+ word → e.1.wordSuffix ≠ word →
      ((Trie.build rules).getApplicableRules word).count e = rules.count e) ∧
    (e.1.isRegular = true → e.1.wordSuffix = word →
      e ∉ (Trie.build rules).getApplicableRules word) ∧
    (e.1.exc = true → e.1.wordSuffix = word →
      ((Trie.build rules).getApplicableRules word).count e = rules.count e) := by
  obtain ⟨d, hd⟩ := exists_longestKnownEnd rules word
  have hp := getApplicableRules_perm rules word d hd
  have hcount : ((Trie.build rules).getApplicableRules word).count e = _ := hp.count_eq e
  refine ⟨?_, ?_, ?_⟩
  · intro h1 h2 h3
    rw [hcount, List.count_append]
    have hz : (rules.filter (fun e => e.1.exc && decide (e.1.wordSuffix = d))).count e = 0 := by
      refine List.count_eq_zero.2 ?_
      intro hm
      simp only [List.mem_filter, Bool.and_eq_true] at hm
      simp [LemmaRule.isRegular, hm.2.1] at h1
    rw [hz, Nat.add_zero]
    exact List.count_filter (by simp [h1, h2, h3])
  · intro h1 h2 hm
    have := hp.mem_iff.1 hm
    simp only [List.mem_append, List.mem_filter, Bool.and_eq_true, decide_eq_true_eq] at this
    rcases this with ⟨_, _, _, h⟩ | ⟨_, h, _⟩
    · exact h h2
    · simp [LemmaRule.isRegular, h] at h1
  · intro h1 h2
    rw [hcount, List.count_append]
    have hz : (rules.filter (fun e => e.1.isRegular &&
          decide (e.1.wordSuffix <:+ word ∧ e.1.wordSuffix ≠ word))).count e = 0 := by
      refine List.count_eq_zero.2 ?_
      intro hm
      simp only [List.mem_filter, Bool.and_eq_true] at hm
      simp [LemmaRule.isRegular, h1] at hm
    rw [hz, Nat.zero_add]
    by_cases he : e ∈ rules
    · have hdw : d = word := by
        refine hd.ends.eq_of_length ?_
        have := hd.longest word List.suffix_rfl ⟨e, he, by rw [h2]⟩
        have := hd.ends.length_le
        omega
      exact List.count_filter (by simp [h1, h2, hdw])
    · rw [List.count_eq_zero.2 he, List.count_eq_zero]
      intro hm
      exact he (List.mem_filter.1 hm).1

namespace Demo

/-- `~s -> ~`, `be -> am`, `~ -> ~`. -/
def someRules : List Entry :=
  [(⟨"s".toList, [], false⟩, 0), (⟨"be".toList, "am".toList, true⟩, 1), (⟨[], [], false⟩, 2)]

end Demo

example : (Trie.build Demo.someRules).getApplicableRules "cats".toList =
    [(⟨[], [], false⟩, 2), (⟨"s".toList, [], false⟩, 0)] := by decide
example : (Trie.build Demo.someRules).getApplicableRules "s".toList =
    [(⟨[], [], false⟩, 2)] := by decide
example : (Trie.build Demo.someRules).getApplicableRules "be".toList =
    [(⟨[], [], false⟩, 2), (⟨"be".toList, "am".toList, true⟩, 1)] := by decide

/-! ### C37 -/

/-- C37 does not hold: a rule made for the word "be" only is offered for "maybe". -/
theorem C37_refuted : ¬ ∀ (rules : List Entry) (word : Str) (e : Entry),
    e ∈ (Trie.build rules).getApplicableRules word → e.1.exc = true → e.1.wordSuffix = word := by
  intro h
  have := h Demo.someRules "maybe".toList (⟨"be".toList, "am".toList, true⟩, 1) (by decide) rfl
  exact absurd this (by decide)

/-- C37, what holds: the exceptions returned are exactly the inserted copies of those whose word
suffix is the longest end of the word known to the trie.  So only exact exceptions are returned if
the whole word is an end of the word suffix of some rule, in particular if some exception was made
for the word. -/
theorem C37_partial (rules : List Entry) (word : Str) :
    (∃ d, LongestKnownEnd rules word d ∧ ∀ e : Entry, e.1.exc = true →
      ((Trie.build rules).getApplicableRules word).count e =
        if e.1.wordSuffix = d then rules.count e else 0) ∧
    ((∃ e ∈ rules, word <:+ e.1.wordSuffix) →
      ∀ e ∈ (Trie.build rules).getApplicableRules word, e.1.exc = true → e.1.wordSuffix = word) := by
  obtain ⟨d, hd⟩ := exists_longestKnownEnd rules word
  have hp := getApplicableRules_perm rules word d hd
  have hcount : ∀ e : Entry, e.1.exc = true →
      ((Trie.build rules).getApplicableRules word).count e =
        if e.1.wordSuffix = d then rules.count e else 0 := by
    intro e h1
    rw [hp.count_eq e, List.count_append]
    have hz : (rules.filter (fun e => e.1.isRegular &&
          decide (e.1.wordSuffix <:+ word ∧ e.1.wordSuffix ≠ word))).count e = 0 := by
      refine List.count_eq_zero.2 ?_
      intro hm
      simp only [List.mem_filter, Bool.and_eq_true] at hm
      simp [LemmaRule.isRegular, h1] at hm
    rw [hz, Nat.zero_add]
    split
    · rename_i h2
      exact List.count_filter (by simp [h1, h2])
    · rename_i h2
      rw [List.count_eq_zero]
      intro hm
      simp only [List.mem_filter, Bool.and_eq_true, decide_eq_true_eq] at hm
      exact h2 hm.2.2
  refine ⟨⟨d, hd, hcount⟩, ?_⟩
  intro hw e he h1
  have hdw : d = word := by
    refine hd.ends.eq_of_length ?_
    have := hd.longest word List.suffix_rfl hw
    have := hd.ends.length_le
    omega
  have hpos := List.count_pos_iff.2 he
  rw [hcount e h1] at hpos
  split at hpos
  · rename_i h; rw [h, hdw]
  · omega

example : LongestKnownEnd Demo.someRules "maybe".toList "be".toList := by
  refine ⟨by decide, Or.inr ⟨_, List.mem_cons_of_mem _ List.mem_cons_self, List.suffix_rfl⟩, ?_⟩
  rintro d' - ⟨e, he, hs⟩
  have := hs.length_le
  simp only [Demo.someRules, List.mem_cons, List.not_mem_nil, or_false] at he
  rcases he with rfl | rfl | rfl <;> exact le_trans this (by decide)

/-! ### C69 -/

/-- C69: rules are equal exactly when all three components are, rules that are equal have equal
hashed tuples, and the comparison is a strict total order compatible with equality, so sorting rules
is deterministic. -/
theorem C69_rule_order (a b c : LemmaRule) :
    (a.pyEq b = true ↔ a = b) ∧ (a.pyEq b = true ↔ a.tupleView = b.tupleView) ∧
    a.lt a = false ∧ (a.lt b = true → b.lt c = true → a.lt c = true) ∧
    (a.lt b = true ∨ a = b ∨ b.lt a = true) := by
  obtain ⟨a1, a2, a3⟩ := a
  obtain ⟨b1, b2, b3⟩ := b
  obtain ⟨c1, c2, c3⟩ := c
  refine ⟨?_, ?_, ?_, ?_, ?_⟩
  · simp [LemmaRule.pyEq, and_assoc]
  · simp [LemmaRule.pyEq, LemmaRule.tupleView, and_assoc]
  · simp [LemmaRule.lt]
  · simp only [LemmaRule.lt]
    by_cases h1 : a1 = b1
    · subst h1
      by_cases h2 : a1 = c1
      · subst h2
        simp only [ne_eq, not_true_eq_false, if_false]
        by_cases h3 : a2 = b2
        · subst h3
          by_cases h4 : a2 = c2
          · subst h4
            cases a3 <;> cases b3 <;> cases c3 <;> simp
          · simp [h4]
        · by_cases h4 : b2 = c2
          · subst h4
            simp only [h3, not_false_eq_true, if_true, not_true_eq_false, if_false]
            exact fun h _ => h
          · simp only [h3, h4, not_false_eq_true, if_true, decide_eq_true_eq]
            intro p q
            have hpq := lt_trans p q
            simp [hpq.ne, hpq]
      · simp [h2]
    · by_cases h2 : b1 = c1
      · subst h2
        simp only [ne_eq, h1, not_false_eq_true, if_true]
        exact fun h _ => h
      · simp only [ne_eq, h1, h2, not_false_eq_true, if_true, decide_eq_true_eq]
        intro p q
        have hpq := lt_trans p q
        simp [hpq.ne, hpq]
  · simp only [LemmaRule.lt]
    rcases lt_trichotomy a1 b1 with h | rfl | h
    · left; simp [h.ne, h]
    · rcases lt_trichotomy a2 b2 with h | rfl | h
      · left; simp [h.ne, h]
      · cases a3 <;> cases b3 <;> simp
      · right; right; simp [h.ne, h]
    · right; right; simp [h.ne, h]

example : (⟨"s".toList, [], false⟩ : LemmaRule).lt ⟨"s".toList, [], true⟩ = true := by decide

end Verif
