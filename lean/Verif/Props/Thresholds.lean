import Verif.Proofs.Thresholds
import Verif.Props.LabelOrder
import Verif.Proofs.HyperRequired
import Mathlib.Data.List.Flatten

/-!
# C165: lower thresholds and more training data
-/

namespace Verif

theorem datasetTokens_sublist {ds ds' : List Document} (h : ds'.Sublist ds) :
    (datasetTokens ds').Sublist (datasetTokens ds) := h.flatMap _

/-- C165: with a lower threshold and with more documents everything that was in the vocabulary of characters or subwords
is still there, in the same order. -/
theorem C165_vocabularies (segment : Str → List Str) (th th' : Int) (ds ds' : List Document) (h : th ≤ th')
    (hd : ds'.Sublist ds) :
    Extends (trainableVocabulary th ds) (trainableVocabulary th' ds') ∧
    Extends (subwordVocabulary segment th ds) (subwordVocabulary segment th' ds') :=
  ⟨vocabulary_extends 2 h ((datasetTokens_sublist hd).flatMap _), vocabulary_extends 4 h ((datasetTokens_sublist hd).flatMap _)⟩

/-- C165: the same for the characters of lemmas. -/
theorem C165_lemma_characters (segment : Str → List Str) (th th' : Int) (ds ds' : List Document) (h : th ≤ th')
    (hd : ds'.Sublist ds) (v : Dict Str Int) (hv : lemmaVocabulary segment th ds = .ok v) :
    ∃ v', lemmaVocabulary segment th' ds' = .ok v' ∧ Extends v v' := by
  unfold lemmaVocabulary at hv
  split at hv
  · cases hv
  · rename_i ss hss
    cases hv
    have hall : ∀ l ss, mapM' (lemmaSegments segment) l = .ok ss →
        ss.flatten = l.flatMap (fun t => (t.2.lemma'.map segment).getD []) ∧ ∀ t ∈ l, t.2.lemma' ≠ none := by
      intro l
      induction l with
      | nil => intro ss h; cases h; exact ⟨rfl, by simp⟩
      | cons t l ih =>
        intro ss h
        rw [mapM'_ok_iff] at h
        cases h with
        | cons h1 h2 =>
          rename_i s ss
          obtain ⟨e, hn⟩ := ih ss (mapM'_ok_iff.mpr h2)
          unfold lemmaSegments at h1
          split at h1
          · cases h1
          · rename_i x hx
            cases h1
            refine ⟨by simp [e, hx], ?_⟩
            intro t' ht'
            rcases List.mem_cons.mp ht' with rfl | ht'
            · rw [hx]; simp
            · exact hn t' ht'
    obtain ⟨e, hn⟩ := hall _ _ hss
    have hex : ∃ ss', mapM' (lemmaSegments segment) (datasetTokens ds') = .ok ss' := by
      have hs : ∀ t ∈ datasetTokens ds', t.2.lemma' ≠ none := fun t ht => hn t ((datasetTokens_sublist hd).subset ht)
      refine ⟨(datasetTokens ds').map (fun t => (t.2.lemma'.map segment).getD []), ?_⟩
      rw [mapM'_ok_iff, List.forall₂_map_right_iff, List.forall₂_same]
      intro t ht
      cases hl : t.2.lemma' with
      | none => exact absurd hl (hs t ht)
      | some x => simp [lemmaSegments, hl]
    obtain ⟨ss', hss'⟩ := hex
    refine ⟨_, by unfold lemmaVocabulary; rw [hss'], ?_⟩
    rw [e, (hall _ _ hss').1]
    exact vocabulary_extends 4 h ((datasetTokens_sublist hd).flatMap _)

/-- C165: no word has more unknown subwords with a lower threshold or more documents. -/
theorem C165_unknown (segment : Str → List Str) (th th' : Int) (ds ds' : List Document) (h : th ≤ th')
    (hd : ds'.Sublist ds) (text : Str) :
    (subwordIds segment (subwordVocabulary segment th ds) text).count OOV ≤
      (subwordIds segment (subwordVocabulary segment th' ds') text).count OOV := by
  have hk := (C165_vocabularies segment th th' ds ds' h hd).2.known
  simp only [subwordIds, List.count_append]
  have : ((segment text).map (fun s => ((subwordVocabulary segment th ds).get? s).getD OOV)).count OOV ≤
      ((segment text).map (fun s => ((subwordVocabulary segment th' ds').get? s).getD OOV)).count OOV := by
    simp only [List.count, List.countP_map]
    refine List.countP_mono_left ?_
    intro s _ hs
    simp only [Function.comp_apply, beq_iff_eq] at hs ⊢
    cases hg : (subwordVocabulary segment th' ds').get? s with
    | none => rfl
    | some i' =>
      obtain ⟨i, hi, _⟩ := hk s i' hg
      rw [hi] at hs
      have := (vocabulary_range hi).1
      simp only [Option.getD_some] at hs
      rw [hs] at this
      exact absurd this (by decide)
  omega

/-- C165: with a threshold of at most one every subword of the training words is known. -/
theorem C165_all (segment : Str → List Str) (th : Int) (ds : List Document) (h : th ≤ 1) (d : Document) (hd : d ∈ ds)
    (t : Token) (ht : t ∈ d.tokens) (s : Str) (hs : s ∈ segment (tokText d.text t)) :
    ∃ i, (subwordVocabulary segment th ds).get? s = some i := by
  refine (vocabulary_isSome ..).mpr ?_
  have hm : s ∈ (datasetTokens ds).flatMap (fun t => segment t.1) := by
    refine List.mem_flatMap.mpr ⟨(tokText d.text t, t), ?_, hs⟩
    simp only [datasetTokens, List.mem_flatMap, Document.textTokens, List.mem_map]
    exact ⟨d, hd, t, ht, rfl⟩
  refine ⟨hm, ?_⟩
  have := List.count_pos_iff.mpr hm
  omega

/-! ### Rules -/

theorem rule_sublist {l l' : List LemmaRule} (h : ∀ r ∈ l', r ∈ l) (hs : l.Pairwise (fun a b => a.lt b = true))
    (hs' : l'.Pairwise (fun a b => a.lt b = true)) : l'.Sublist l := by
  have irr : ∀ a b : LemmaRule, a.lt b = true → b.lt a = true → False := fun a b h1 h2 =>
    rule_asymm a b (by rw [h1]) (by rw [h2])
  haveI : Std.Antisymm (fun a b : LemmaRule => a.lt b = true) := ⟨fun a b h1 h2 => (irr a b h1 h2).elim⟩
  refine List.sublist_of_subperm_of_pairwise (r := fun a b : LemmaRule => a.lt b = true) ?_ hs' hs
  refine List.subperm_of_subset (List.Pairwise.imp ?_ hs') h
  rintro a b hab rfl
  exact irr a a hab hab

/-- C165: with a lower threshold no rule is lost: the table for the higher threshold is the one for the lower threshold
with some rules left out, and the rule with number 0 is the same.  Whether a table can be built does not depend on the
threshold. -/
theorem C165_rules (lower : Str → Str) (th th' : Int) (ds : List Document) (h : th ≤ th') (rules' : List LemmaRule)
    (hr : buildRules lower th' ds = .ok rules') :
    ∃ rules, buildRules lower th ds = .ok rules ∧ rules'.Sublist rules ∧ rules'.head? = rules.head? := by
  obtain ⟨all, h1, h2⟩ := buildRules_ok hr
  have h2' := h2
  obtain ⟨best, rest', hb, hs', rfl⟩ := id2obj_ok_iff.mp h2'
  have hne : all ≠ [] := by
    rintro rfl
    cases hb
  obtain ⟨rules, hrules⟩ := id2obj_total (lt := fun a b => .ok (a.lt b)) (threshold := th) ruleEq_rel hne
    (fun a _ b _ => ⟨_, rfl⟩)
  refine ⟨rules, by unfold buildRules; rw [h1]; exact hrules, ?_⟩
  have so := id2obj_sorted ruleEq_rel (ruleOrdered _) hrules
  have so' := id2obj_sorted ruleEq_rel (ruleOrdered _) h2
  obtain ⟨best2, rest, hb2, hs, rfl⟩ := id2obj_ok_iff.mp hrules
  rw [hb] at hb2
  cases hb2
  refine ⟨List.Sublist.cons_cons _ (rule_sublist ?_ (so.imp (fun h => by injection h)) (so'.imp (fun h => by injection h))), rfl⟩
  intro r hr
  have := (tableRest_mem ruleEq_rel).mp ((sortM_perm hs').mem_iff.mp hr)
  refine (sortM_perm hs).mem_iff.mpr ((tableRest_mem ruleEq_rel).mpr ⟨this.1, ?_, this.2.2⟩)
  rcases this.2.1 with h0 | h0 <;> omega

/-- C165: a rule that occurs more than `th` times, or any rule if `th` is not positive, is not lost if documents are
added. -/
theorem C165_rules_more (lower : Str → Str) (th : Int) (ds ds' : List Document) (hd : ds'.Sublist ds)
    (rules : List LemmaRule) (hr : buildRules lower th ds = .ok rules) (r : LemmaRule)
    (hm : r ∈ trainingRules lower ds') (hc : th ≤ 0 ∨ th < (trainingRules lower ds').count r) : r ∈ rules := by
  obtain ⟨all, h1, h2⟩ := buildRules_ok hr
  have hall : ∀ d ∈ ds, ∀ t ∈ d.tokens, t.lemma' ≠ none := by
    intro d hdd t ht e
    obtain ⟨y, _, hy⟩ := mapM'_read h1 (show (tokText d.text t, t) ∈ datasetTokens ds by
      simp only [datasetTokens, List.mem_flatMap, Document.textTokens, List.mem_map]
      exact ⟨d, hdd, t, ht, rfl⟩)
    simp [suffixRule, e] at hy
  rw [mapM'_suffixRule lower ds hall] at h1
  cases h1
  have hsub : (trainingRules lower ds').Sublist (trainingRules lower ds) := hd.flatMap _
  have hcov := ((id2obj_spec ruleEq_rel h2).covers r (hsub.subset hm)).mpr (.inr ?_)
  · obtain ⟨y, hy, hyr⟩ := hcov
    rw [← (ruleEq_iff _ _).mp hyr]
    exact hy
  · rcases hc with h0 | h0
    · exact .inl h0
    · refine .inr ?_
      have e : occurrences LemmaRule.pyEq r (trainingRules lower ds) = (trainingRules lower ds).count r := by
        rw [occurrences, List.count]
        congr 1
        funext a
        rw [Bool.eq_iff_iff, ruleEq_iff, beq_iff_eq]
        exact eq_comm
      rw [e]
      have := hsub.count_le r
      omega

/-- C165: with a lower threshold no gold label that leads to the right lemma is lost. -/
theorem C165_right (lower : Str → Str) (th th' : Int) (ds : List Document) (h : th ≤ th') (rules rules' : List LemmaRule)
    (hr : buildRules lower th ds = .ok rules) (hr' : buildRules lower th' ds = .ok rules') (t : TextToken) (l : Str)
    (hl : t.2.lemma' = some l) (ids' : List Int) (he' : encodeRule lower rules' t = .ok ids')
    (hi' : interpretRule lower rules' t ids' = .ok { t.2 with lemma' := some (lower l) }) :
    ∃ ids, encodeRule lower rules t = .ok ids ∧
      interpretRule lower rules t ids = .ok { t.2 with lemma' := some (lower l) } := by
  obtain ⟨rules2, hr2, hsub, hhead⟩ := C165_rules lower th th' ds h rules' hr'
  rw [hr] at hr2
  cases hr2
  by_cases hin : LemmaRule.getRule (lower t.1) (lower l) ∈ rules
  · obtain ⟨i, _, h1, h2⟩ := C47_round_trip lower th ds rules hr t l hl hin
    exact ⟨_, h1, h2⟩
  · have zero : ∀ rs : List LemmaRule, Distinct LemmaRule.pyEq rs → LemmaRule.getRule (lower t.1) (lower l) ∉ rs →
        encodeRule lower rs t = .ok [0] := by
      intro rs hdis hnot
      unfold encodeRule
      rw [suffixRule_some hl]
      cases hg : eqGet LemmaRule.pyEq (LemmaRule.getRule (lower t.1) (lower l)) (obj2id LemmaRule.pyEq rs) with
      | none => simp [hg]
      | some i =>
        obtain ⟨y, hy, hyr⟩ := (eqGet_obj2id ruleEq_rel hdis _ i).mp hg
        exact absurd ((ruleEq_iff _ _).mp hyr ▸ List.mem_of_getElem? hy) hnot
    have h0 := zero rules (buildRules_distinct hr) hin
    have h0' := zero rules' (buildRules_distinct hr') (fun hm => hin (hsub.subset hm))
    rw [h0'] at he'
    cases he'
    refine ⟨_, h0, ?_⟩
    rw [← hi']
    have hp : pyGet rules 0 = pyGet rules' 0 := by
      cases rules with
      | nil => cases rules' with
        | nil => rfl
        | cons _ _ => cases hhead
      | cons a l1 => cases rules' with
        | nil => cases hhead
        | cons b l2 =>
          cases hhead
          rfl
    simp only [interpretRule, pyGet_zero_singleton, hp]

/-- C165: the rule with number 0 may be forgotten if documents are added: with `rules_threshold` 1 it is in the table
only because no other rule is more frequent. -/
theorem C165_forgotten : ∃ (a b : Document) (r : LemmaRule), Built a ∧ Built b ∧
    (∃ t, buildRules id 1 [a] = .ok t ∧ r ∈ t) ∧ ∃ t, buildRules id 1 [a, b] = .ok t ∧ r ∉ t := by
  refine ⟨Demo.od1, Demo.od3, ⟨['b'], [], false⟩, ?_, ?_, ⟨[⟨['b'], [], false⟩], by decide +kernel, by decide⟩,
    ⟨[⟨[], [], false⟩], by decide +kernel, by decide⟩⟩
  · exact ⟨Demo.od1.text, Demo.od1.tokens, Demo.od1.sentences, false, by decide +kernel⟩
  · exact ⟨Demo.od3.text, Demo.od3.tokens, Demo.od3.sentences, false, by decide +kernel⟩

/-- With threshold 2 there is nothing in the vocabulary of one document, with threshold 1 and one more document there are
all characters. -/
example : (subwordVocabulary charSegment 2 [Demo.od1]).entries = [] ∧
    (subwordVocabulary charSegment 1 [Demo.od1]).entries = [(['a'], 4), (['b'], 5)] ∧
    (subwordVocabulary charSegment 1 [Demo.od2, Demo.od1]).entries = [(['a'], 4), (['b'], 5), (['c'], 6)] := by
  refine ⟨by decide +kernel, by decide +kernel, by decide +kernel⟩

/-- Two rules, one of which is left out with a higher threshold. -/
example : buildRules id 1 [Demo.od3, Demo.od1] = .ok [⟨[], [], false⟩] ∧
    buildRules id 0 [Demo.od3, Demo.od1] = .ok [⟨[], [], false⟩, ⟨['b'], [], false⟩] ∧
    1 < (trainingRules id [Demo.od3]).count ⟨[], [], false⟩ := by
  refine ⟨by decide +kernel, by decide +kernel, by decide +kernel⟩

end Verif
