import Verif.Props.Extractors
import Verif.Proofs.Average
import Verif.Proofs.Pipeline

/-! # C113: label ids and the order of the training data -/

namespace Verif

/-- `m` occurs in the list more often than every other element. -/
def MostFrequent {α : Type} [DecidableEq α] (xs : List α) (m : α) : Prop :=
  m ∈ xs ∧ ∀ x ∈ xs, x ≠ m → xs.count x < xs.count m

theorem occurrences_count {α : Type} [DecidableEq α] {eq : α → α → Bool} (hi : ∀ a b, eq a b = true ↔ a = b)
    (x : α) (xs : List α) : occurrences eq x xs = xs.count x := by
  unfold occurrences List.count
  congr 1
  funext c
  rw [Bool.eq_iff_iff, hi, beq_iff_eq, eq_comm]

/-- Tables made of the same elements in different orders are the same, if one element is the most frequent. -/
theorem id2obj_perm {α : Type} [DecidableEq α] {eq : α → α → Bool} {lt : α → α → Res Bool}
    (hi : ∀ a b, eq a b = true ↔ a = b) {xs ys : List α} (hp : xs.Perm ys) {threshold : Int}
    (ho : OrderedBy eq lt xs) (hs : ∀ a b, lt a b = .ok true → lt b a ≠ .ok true) (hc : Comparable lt xs)
    {m : α} (hm : MostFrequent xs m) :
    id2obj eq lt (counter eq xs) threshold = id2obj eq lt (counter eq ys) threshold := by
  have he : EqRel eq := .of_iff hi
  have ho' : OrderedBy eq lt ys :=
    ⟨fun a ha b hb c hc => ho.trans a (hp.mem_iff.2 ha) b (hp.mem_iff.2 hb) c (hp.mem_iff.2 hc),
      fun a ha b hb => ho.total a (hp.mem_iff.2 ha) b (hp.mem_iff.2 hb)⟩
  have hc' : Comparable lt ys := fun a ha b hb => hc a (hp.mem_iff.2 ha) b (hp.mem_iff.2 hb)
  have hne : xs ≠ [] := List.ne_nil_of_mem hm.1
  have hne' : ys ≠ [] := List.ne_nil_of_mem (hp.mem_iff.1 hm.1)
  obtain ⟨t, ht⟩ := id2obj_total (lt := lt) (threshold := threshold) he hne hc
  obtain ⟨t', ht'⟩ := id2obj_total (lt := lt) (threshold := threshold) he hne' hc'
  have sp := id2obj_spec he ht
  have sp' := id2obj_spec he ht'
  have so := id2obj_sorted he ho ht
  have so' := id2obj_sorted he ho' ht'
  have hocc : ∀ x, occurrences eq x ys = occurrences eq x xs := by
    intro x; rw [occurrences_count hi, occurrences_count hi, hp.count_eq]
  obtain ⟨b, r, pre, post, rfl, hb, _, hmax⟩ := sp.best
  obtain ⟨b', r', pre', post', rfl, hb', _, hmax'⟩ := sp'.best
  have hbm : b = m := by
    by_contra hne
    have h1 := hm.2 b (by rw [hb]; simp) hne
    have h2 := hmax m hm.1
    rw [occurrences_count hi, occurrences_count hi] at h2
    omega
  have hbm' : b' = m := by
    by_contra hne
    have h1 := hm.2 b' (hp.mem_iff.2 (by rw [hb']; simp)) hne
    have h2 := hmax' m (hp.mem_iff.1 hm.1)
    rw [hocc, hocc, occurrences_count hi, occurrences_count hi] at h2
    omega
  subst hbm
  subst hbm'
  have hn := List.nodup_cons.1 (sp.distinct.nodup hi)
  have hn' := List.nodup_cons.1 (sp'.distinct.nodup hi)
  have hmem : ∀ x, x ∈ b' :: r ↔ x ∈ b' :: r' := by
    intro x
    have g : x ∈ xs → (x ∈ b' :: r ↔ x ∈ b' :: r') := by
      intro hx
      have c1 := sp.covers x hx
      have c2 := sp'.covers x (hp.mem_iff.1 hx)
      simp only [hi, List.head?_cons, Option.some.injEq, hocc] at c1 c2
      have d1 : (∃ y ∈ b' :: r, y = x) ↔ x ∈ b' :: r := by simp
      have d2 : (∃ y ∈ b' :: r', y = x) ↔ x ∈ b' :: r' := by simp
      rw [d1] at c1
      rw [d2] at c2
      rw [c1, c2]
    constructor
    · intro h; exact (g (sp.subset x h)).1 h
    · intro h; exact (g (hp.mem_iff.2 (sp'.subset x h))).2 h
  have hmem' : ∀ x, x ∈ r ↔ x ∈ r' := by
    intro x
    have h := hmem x
    simp only [List.mem_cons] at h
    constructor
    · intro hx
      rcases h.1 (Or.inr hx) with e | e
      · exact absurd (e ▸ hx) hn.1
      · exact e
    · intro hx
      rcases h.2 (Or.inr hx) with e | e
      · exact absurd (e ▸ hx) hn'.1
      · exact e
  have hperm : r.Perm r' := (List.perm_ext_iff_of_nodup hn.2 hn'.2).2 hmem'
  have : r = r' := by
    refine hperm.eq_of_pairwise ?_ so so'
    intro a b _ _ h1 h2
    exact absurd h2 (hs a b h1)
  rw [ht, ht', this]

/-! ### rules -/

/-- The rules of the training tokens, in order. -/
def trainingRules (lower : Str → Str) (dataset : List Document) : List LemmaRule :=
  dataset.flatMap (fun d => d.tokens.filterMap (fun t =>
    t.lemma'.map (fun l => LemmaRule.getRule (lower (tokText d.text t)) (lower l))))

theorem mapM'_suffixRule (lower : Str → Str) (dataset : List Document)
    (h : ∀ d ∈ dataset, ∀ t ∈ d.tokens, t.lemma' ≠ none) :
    mapM' (suffixRule lower) (datasetTokens dataset) = .ok (trainingRules lower dataset) := by
  have h1 : ∀ d ∈ dataset, (d.textTokens.map (fun x : TextToken =>
      LemmaRule.getRule (lower x.1) (lower (x.2.lemma'.getD [])))) =
      d.tokens.filterMap (fun t => t.lemma'.map (fun l =>
        LemmaRule.getRule (lower (tokText d.text t)) (lower l))) := by
    intro d hd
    unfold Document.textTokens
    have key : ∀ l : List Token, (∀ t ∈ l, t.lemma' ≠ none) →
        (l.map (fun t => (tokText d.text t, t))).map (fun x : TextToken =>
          LemmaRule.getRule (lower x.1) (lower (x.2.lemma'.getD []))) =
        l.filterMap (fun t => t.lemma'.map (fun l =>
          LemmaRule.getRule (lower (tokText d.text t)) (lower l))) := by
      intro l hl
      induction l with
      | nil => rfl
      | cons t l ih =>
        have ih' := ih (fun x hx => hl x (List.mem_cons_of_mem _ hx))
        cases ht : t.lemma' with
        | none => exact absurd ht (hl t List.mem_cons_self)
        | some w => simp only [List.map_cons, List.filterMap_cons, ht, Option.map_some, Option.getD_some, ih']
    exact key d.tokens (h d hd)
  rw [mapM'_pure (g := fun x : TextToken => LemmaRule.getRule (lower x.1) (lower (x.2.lemma'.getD [])))]
  · congr 1
    unfold datasetTokens trainingRules
    rw [List.map_flatMap]
    exact List.flatMap_congr h1
  · intro x hx
    simp only [datasetTokens, List.mem_flatMap, Document.textTokens, List.mem_map] at hx
    obtain ⟨d, hd, t, ht, rfl⟩ := hx
    cases hl : t.lemma' with
    | none => exact absurd hl (h d hd t ht)
    | some w => simp [suffixRule, hl]

theorem trainingRules_perm (lower : Str → Str) {dataset dataset' : List Document} (hp : dataset.Perm dataset') :
    (trainingRules lower dataset).Perm (trainingRules lower dataset') := hp.flatMap_right _

theorem ruleOrdered (l : List LemmaRule) : OrderedBy LemmaRule.pyEq (fun a b => .ok (a.lt b)) l := by
  refine ⟨?_, ?_⟩
  · intro a _ b _ c _ hab hbc
    injection hab with hab
    injection hbc with hbc
    rw [(C69_rule_order a b c).2.2.2.1 hab hbc]
  · intro a _ b _ hab
    rcases (C69_rule_order a b a).2.2.2.2 with h | h | h
    · exact Or.inl (by rw [h])
    · rw [(ruleEq_iff a b).2 h] at hab; cases hab
    · exact Or.inr (by rw [h])

theorem rule_asymm (a b : LemmaRule) (hab : (Except.ok (a.lt b) : Res Bool) = .ok true) :
    (Except.ok (b.lt a) : Res Bool) ≠ .ok true := by
  intro hba
  injection hab with hab
  injection hba with hba
  have := (C69_rule_order a b a).2.2.2.1 hab hba
  rw [(C69_rule_order a b a).2.2.1] at this
  cases this

/-- C69: the sorted list of a set of rules does not depend on the order in which they were collected: it is
the only increasing list of these rules. -/
theorem C69_sorted (rules : List LemmaRule) (hn : rules.Nodup) :
    ∃ sorted, sortM (fun a b => .ok (a.lt b)) rules = .ok sorted ∧ sorted.Perm rules ∧
      sorted.Pairwise (fun a b => a.lt b = true) ∧
      ∀ rules' : List LemmaRule, rules.Perm rules' →
        sortM (fun a b => .ok (a.lt b)) rules' = .ok sorted := by
  have dist : ∀ l : List LemmaRule, l.Nodup → Distinct LemmaRule.pyEq l := by
    intro l hl
    refine hl.imp ?_
    intro a b hab
    cases h : a.pyEq b with
    | false => rfl
    | true => exact absurd ((ruleEq_iff a b).1 h) hab
  have tot : ∀ l : List LemmaRule, ∃ r, sortM (fun a b => .ok (a.lt b)) l = .ok r :=
    fun l => sortM_total (fun a _ b _ => ⟨_, rfl⟩)
  obtain ⟨r, hr⟩ := tot rules
  have so := sortM_sorted hr (dist _ hn) (ruleOrdered _)
  refine ⟨r, hr, sortM_perm hr, so.imp (fun h => by injection h), ?_⟩
  intro rules' hp
  obtain ⟨r', hr'⟩ := tot rules'
  have so' := sortM_sorted hr' (dist _ (hp.nodup hn)) (ruleOrdered _)
  have hperm : r.Perm r' := (sortM_perm hr).trans (hp.trans (sortM_perm hr').symm)
  rw [hr', hperm.eq_of_pairwise (fun a b _ _ h1 h2 => absurd h2 (rule_asymm a b h1)) so so']

example : sortM (fun a b => .ok (a.lt b)) [⟨['c'], ['d'], true⟩, ⟨['b'], [], false⟩, (⟨[], [], false⟩ : LemmaRule)] =
    .ok [⟨[], [], false⟩, ⟨['b'], [], false⟩, ⟨['c'], ['d'], true⟩] := by decide +kernel

/-- C113 for lemma rules, what holds: if the documents of the training set come in another order, the rules get the
same ids, provided one rule is needed more often than every other one (missing: ties, see `C113_refuted`).  A token without lemma is an
`AttributeError` in every order. -/
theorem C113_rules_partial (lower : Str → Str) (threshold : Int) (dataset dataset' : List Document)
    (hp : dataset.Perm dataset') :
    ((∃ d ∈ dataset, ∃ t ∈ d.tokens, t.lemma' = none) →
      buildRules lower threshold dataset = .error .attribute ∧
      buildRules lower threshold dataset' = .error .attribute) ∧
    ((∃ m, MostFrequent (trainingRules lower dataset) m) →
      buildRules lower threshold dataset = buildRules lower threshold dataset') := by
  have err : ∀ ds : List Document, (∃ d ∈ ds, ∃ t ∈ d.tokens, t.lemma' = none) →
      buildRules lower threshold ds = .error .attribute := by
    rintro ds ⟨d, hd, t, ht, hl⟩
    unfold buildRules
    rw [mapM'_err (e := .attribute)]
    · intro x _ e he
      unfold suffixRule at he
      split at he
      · injection he with he; exact he.symm
      · cases he
    · refine ⟨(tokText d.text t, t), ?_, by simp [suffixRule, hl]⟩
      simp only [datasetTokens, List.mem_flatMap, Document.textTokens, List.mem_map]
      exact ⟨d, hd, t, ht, rfl⟩
  have trans : (∃ d ∈ dataset, ∃ t ∈ d.tokens, t.lemma' = none) →
      ∃ d ∈ dataset', ∃ t ∈ d.tokens, t.lemma' = none := by
    rintro ⟨d, hd, r⟩
    exact ⟨d, hp.mem_iff.1 hd, r⟩
  refine ⟨fun h => ⟨err _ h, err _ (trans h)⟩, ?_⟩
  rintro ⟨m, hm⟩
  by_cases hn : ∃ d ∈ dataset, ∃ t ∈ d.tokens, t.lemma' = none
  · rw [err _ hn, err _ (trans hn)]
  · have h1 : ∀ d ∈ dataset, ∀ t ∈ d.tokens, t.lemma' ≠ none := fun d hd t ht e => hn ⟨d, hd, t, ht, e⟩
    have h2 : ∀ d ∈ dataset', ∀ t ∈ d.tokens, t.lemma' ≠ none := fun d hd => h1 d (hp.mem_iff.2 hd)
    unfold buildRules
    rw [mapM'_suffixRule lower dataset h1, mapM'_suffixRule lower dataset' h2]
    exact id2obj_perm ruleEq_iff (trainingRules_perm lower hp) (ruleOrdered _) rule_asymm
      (fun a _ b _ => ⟨_, rfl⟩) hm

/-- C113 for the lemma dictionary, what holds: the ids of lemmas do not depend on the order of the training tokens,
provided one lemma is more frequent than every other one (missing: ties, see `C113_refuted`). -/
theorem C113_lemmas_partial (lemmas lemmas' : List (Option Str)) (hp : lemmas.Perm lemmas')
    (hm : ∃ m, MostFrequent lemmas m) : buildLemmaTable lemmas = buildLemmaTable lemmas' := by
  obtain ⟨m, hm⟩ := hm
  unfold buildLemmaTable
  refine id2obj_perm (fun a b => by simp [optStrEq]) hp ⟨?_, ?_⟩ ?_ ?_ hm
  · rintro (_ | a) _ (_ | b) _ (_ | c) _ <;> simp [optStrKeyLt]
    exact fun h1 h2 => lt_trans h1 h2
  · rintro (_ | a) _ (_ | b) _ <;> simp [optStrKeyLt, optStrEq]
  · rintro (_ | a) (_ | b) <;> simp [optStrKeyLt]
    exact fun h => le_of_lt h
  · rintro (_ | a) _ (_ | b) _ <;> exact ⟨_, rfl⟩

namespace Demo

/-- One word, "ab" with lemma "a". -/
def od1 : Document := { text := "ab".toList, tokens := [{ start := 0, stop := 2, lemma' := some "a".toList }],
                        sentences := [{ start := 0, stop := 1 }] }
/-- One word, "c" with lemma "c". -/
def od2 : Document := { text := "c".toList, tokens := [{ start := 0, stop := 1, lemma' := some "c".toList }],
                        sentences := [{ start := 0, stop := 1 }] }
/-- Two words with their lemmas. -/
def od3 : Document := { text := "c d".toList,
                        tokens := [{ start := 0, stop := 1, lemma' := some "c".toList },
                          { start := 2, stop := 3, lemma' := some "d".toList }],
                        sentences := [{ start := 0, stop := 2 }] }

end Demo

/-- C113 is false if two rules (or lemmas) are equally frequent: the id 0 belongs to the one that comes
first in the training data. -/
theorem C113_refuted : ∃ (a b : Document) (l l' : Option Str), Built a ∧ Built b ∧
    buildRules id 0 [a, b] ≠ buildRules id 0 [b, a] ∧ buildLemmaTable [l, l'] ≠ buildLemmaTable [l', l] := by
  refine ⟨Demo.od1, Demo.od2, some ['a'], some ['b'], ?_, ?_, by decide +kernel, by decide +kernel⟩
  · exact ⟨Demo.od1.text, Demo.od1.tokens, Demo.od1.sentences, false, by decide +kernel⟩
  · exact ⟨Demo.od2.text, Demo.od2.tokens, Demo.od2.sentences, false, by decide +kernel⟩

example : MostFrequent (trainingRules id [Demo.od1, Demo.od3]) ⟨[], [], false⟩ ∧
    buildRules id 0 [Demo.od3, Demo.od1] = .ok [⟨[], [], false⟩, ⟨['b'], [], false⟩] := by
  refine ⟨⟨by decide +kernel, by decide +kernel⟩, by decide +kernel⟩

example : MostFrequent [some ['a'], none, some ['a']] (some ['a']) := ⟨by decide, by decide⟩

end Verif
