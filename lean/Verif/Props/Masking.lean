import Verif.Proofs.Masking
import Verif.Proofs.Interpreters4
import Verif.Props.RulesCache

/-! # C144: the rule a network is trained to choose is one it may choose -/

namespace Verif

section
variable {F : Type} (lower : Str → Str) (float : Str → Res F) (zero : F) (other : TextToken) (sp : Sparsify)
  (seen : Seen) (ps : List Provider) (n : Nat) (docs : List Document) (steps : List (Features × Features))

/-- C144: in every training step, with and without sparsification, the rule of a word that is known from the training
data is the label of the word, and the mask of the word leaves it open.  A word whose rule is not known is labelled with
rule 0.  Both tables of rules are the same one (`hshare`; this is what the cache is for, see C142_partial). -/
theorem C144_partial (dataset : List Document) (ho : seen.Orders ps dataset) (hn : 0 < n)
    (h : trainingFeed lower float zero other sp seen ps n docs = .ok steps) (f l : Str) (t : Int)
    (hp : Provider.lemmaRules f l t ∈ ps) (hshare : seen (.applicable f t) = seen (.suffix l t))
    (b i : Nat) (d : Document) (s : Sentence) (hrow : TrainingRow n docs b i d s) (hd : Built d) (j : Nat)
    (hj : j < s.stop - s.start) :
    ∃ step mask labels x r, steps[b]? = some step ∧ step.1.get? f = some mask ∧ step.2.get? l = some labels ∧
      d.tokens[s.start + j]? = some x ∧ labels.at [i, j, 0] = some (.int (r : Nat)) ∧
      (KnownFor lower dataset (tokText d.text x, x) (.lemmaRules f l t) → mask.at [i, j, r] = some (.bool true)) ∧
      (¬ KnownFor lower dataset (tokText d.text x, x) (.lemmaRules f l t) → r = 0) := by
  obtain ⟨step, os, batch, hst, hso, hi⟩ := feed_row hn h hrow
  obtain ⟨id, hid⟩ := List.mem_iff_getElem?.1 hp
  obtain ⟨r1, hr1, hf1⟩ := hso.features
  obtain ⟨fb, lb, X, Y, hmf, hml, hX, hY, rfl⟩ := assemble_ok.1 hr1
  obtain ⟨r2, hr2, hf2⟩ := hso.labels
  obtain ⟨fb', lb', X', Y', hmf', hml', hX', hY', rfl⟩ := assemble_ok.1 hr2
  obtain ⟨mask, y1, k1, w1, hm, hy1, hk1, he1, ha1⟩ := word_value feature_mk hmf hX hso.stand hf1 hid
    (s := .applicable f t) rfl rfl hi hd hj
  obtain ⟨labels, y2, k2, w2, hl, hy2, hk2, he2, ha2⟩ := word_value label_mk hml' hY' hso.stand hf2 hid
    (s := .suffix l t) rfl rfl hi hd hj
  -- the word
  obtain ⟨_, hdoc⟩ := hrow
  have hs : s ∈ d.sentences := by
    have := List.mem_of_getElem? hdoc
    obtain ⟨d', _, hd'⟩ := List.mem_flatMap.1 this
    obtain ⟨s', hs', e⟩ := List.mem_map.1 hd'
    simp only [Prod.mk.injEq] at e
    rw [← e.1, ← e.2]
    exact hs'
  have hstop := (hd.docOk.tiles.mem hs).2
  have hlt : s.start + j < d.tokens.length := by omega
  have htok : docTok other d (s.start + j) = (tokText d.text d.tokens[s.start + j], d.tokens[s.start + j]) := by
    simp [docTok, Document.textTokens, List.getD_eq_getElem?_getD, List.getElem?_eq_getElem hlt]
  generalize hx : d.tokens[s.start + j] = x at htok
  rw [htok] at hk1 hk2
  -- the tables
  rw [hshare] at hy1
  simp only [LeafSpec.build] at hy1 hy2
  cases hrules : buildRules lower t (seen (.suffix l t)) with
  | error e => rw [hrules] at hy2; cases hy2
  | ok rules =>
    rw [hrules] at hy1 hy2
    injection hy1 with hy1
    injection hy2 with hy2
    subst hy1 hy2
    simp only [constInit, tokenX, hk1, hk2] at he1 he2
    obtain ⟨v, hv, hvl, _, hgold⟩ := C48_gold_not_masked lower t _ rules hrules (tokText d.text x)
    rw [hv] at he1
    simp only [Except.map, LeafSpec.name, Except.ok.injEq] at he1
    have hw1 : w1 = .list (v.map Feat.bool) := by
      have := (get?_single f (Feat.list (v.map Feat.bool)) f (Feat.list (v.map Feat.bool))).2 ⟨rfl, rfl⟩
      rw [he1] at this
      exact ((get?_single ..).1 this).2.symm
    subst hw1
    cases hlem : x.lemma' with
    | none =>
      rw [(C47_label_in_range lower t _ rules hrules (tokText d.text x, x)).1 hlem] at he2
      cases he2
    | some lem =>
      obtain ⟨r, hr, henc⟩ := (C47_label_in_range lower t _ rules hrules (tokText d.text x, x)).2 (by simp [hlem])
      rw [henc] at he2
      simp only [Except.map, LeafSpec.name, Except.ok.injEq] at he2
      have hw2 : w2 = idsFeat [(r : Int)] := by
        have := (get?_single l (idsFeat [(r : Int)]) l (idsFeat [(r : Int)])).2 ⟨rfl, rfl⟩
        rw [he2] at this
        exact ((get?_single ..).1 this).2.symm
      subst hw2
      refine ⟨step, mask, labels, x, r, hst, hm, hl, by rw [List.getElem?_eq_getElem hlt, hx],
        ha2 [0] _ (by simp [at_ids]) rfl, ?_, ?_⟩
      · intro hknown
        obtain ⟨lem', hlem', hin⟩ := known_rule hrules (KnownFor.perm (ho.label hp rfl).symm hknown)
        obtain ⟨r', hr'⟩ := List.mem_iff_getElem?.1 hin
        have hg := (eqGet_obj2id ruleEq_rel (buildRules_distinct hrules) _ r').2 ⟨_, hr', ruleEq_rel.refl _⟩
        simp only [encodeRule, suffixRule_some hlem', hg, Option.getD_some, Except.ok.injEq, List.cons.injEq, and_true,
          Int.natCast_inj] at henc
        subst henc
        exact ha1 [r'] _ (by rw [at_flags, hgold lem' r' hr']; rfl) rfl
      · intro hunknown
        exact unknown_rule hrules (fun hk => hunknown (KnownFor.perm (ho.label hp rfl) hk)) henc

end

namespace Demo

def mice : Document :=
  { text := "dogs cats mice".toList,
    tokens := [{ start := 0, stop := 4, lemma' := some "dog".toList }, { start := 5, stop := 9, lemma' := some "cat".toList },
      { start := 10, stop := 14, lemma' := some "mouse".toList }],
    sentences := [{ start := 0, stop := 3 }] }

theorem mice_built : Built mice := ⟨mice.text, mice.tokens, mice.sentences, false, by decide +kernel⟩

def ruleProviders (threshold : Int) : List Provider :=
  [.lemmaRules "applicable_rules".toList "lemma_rule_labels".toList threshold]

/-- The rules for the mask and for the labels from two iterations of a data set that shuffles. -/
def uncachedSeen : Seen
  | .applicable _ _ => [od1, od2]
  | _ => [od2, od1]

end Demo

/-- C144, refuted for rare rules: with a threshold, a word of the training data whose rule is rare is labelled with the
most frequent rule, even if that cannot be applied to the word.  Here `mice` is labelled with the rule for `dogs` and
`cats`, and its mask hides this rule: the network is trained on a choice it is kept from. -/
theorem C144_rare_refuted : Built Demo.mice ∧ ∃ step mask labels r,
    trainingFeed id Demo.float 0 (Demo.ptok 0) keepAll (fun _ => [Demo.mice]) (Demo.ruleProviders 1) 8 [Demo.mice] =
      .ok [step] ∧
    step.1.get? "applicable_rules".toList = some mask ∧ step.2.get? "lemma_rule_labels".toList = some labels ∧
    labels.at [0, 2, 0] = some (.int (r : Nat)) ∧ mask.at [0, 2, r] = some (.bool false) :=
  ⟨Demo.mice_built, _, _, _, 0, rfl, rfl, rfl, rfl, rfl⟩

/-- C144, refuted without the cache: if the mask and the labels were built from two iterations of a data set that
shuffles, the gold rule could be hidden although nothing is rare. -/
theorem C144_uncached_refuted : Demo.uncachedSeen.Orders (Demo.ruleProviders 0) [Demo.od1, Demo.od2] ∧
    ∃ step mask labels r,
    trainingFeed id Demo.float 0 (Demo.ptok 0) keepAll Demo.uncachedSeen (Demo.ruleProviders 0) 8 [Demo.od1, Demo.od2] =
      .ok [step] ∧
    step.1.get? "applicable_rules".toList = some mask ∧ step.2.get? "lemma_rule_labels".toList = some labels ∧
    labels.at [1, 0, 0] = some (.int (r : Nat)) ∧ mask.at [1, 0, r] = some (.bool false) := by
  refine ⟨?_, _, _, _, 0, rfl, rfl, rfl, rfl, rfl⟩
  intro s _
  cases s with
  | applicable _ _ => exact .refl _
  | _ => exact .swap _ _ _

/-- Without a threshold, the rule of `mice` is a class of its own, and open. -/
example : ∃ step mask labels x r,
    (trainingFeed id Demo.float 0 (Demo.ptok 0) keepAll (fun _ => [Demo.mice]) (Demo.ruleProviders 0) 8 [Demo.mice]).map
      (fun steps => steps[0]?) = .ok (some step) ∧
    step.1.get? "applicable_rules".toList = some mask ∧ step.2.get? "lemma_rule_labels".toList = some labels ∧
    Demo.mice.tokens[2]? = some x ∧ labels.at [0, 2, 0] = some (.int (r : Nat)) ∧ r ≠ 0 ∧
    mask.at [0, 2, r] = some (.bool true) := by
  obtain ⟨step, mask, labels, x, r, h1, h2, h3, h4, h5, h6, _⟩ := C144_partial id Demo.float 0 (Demo.ptok 0) keepAll
    (fun _ => [Demo.mice]) (Demo.ruleProviders 0) 8 [Demo.mice] _ [Demo.mice] (.all _ _) (by decide) rfl
    "applicable_rules".toList "lemma_rule_labels".toList 0 (List.mem_singleton.2 rfl) rfl 0 0 Demo.mice
    ⟨0, 3, by decide⟩ ⟨by decide, rfl⟩ Demo.mice_built 2 (by decide)
  have hx : x = { start := 10, stop := 14, lemma' := some "mouse".toList } := by
    injection h4 with h4
    exact h4.symm
  subst hx
  refine ⟨step, mask, labels, _, r, ?_, h2, h3, h4, h5, ?_, h6 ?_⟩
  · exact congrArg Except.ok h1
  · injection h1 with h1
    subst h1
    injection h3 with h3
    subst h3
    injection h5 with h5
    injection h5 with h5
    intro hr
    subst hr
    exact absurd h5 (by decide)
  · exact ⟨_, rfl, (tokText Demo.mice.text _, _), List.mem_of_getElem? (i := 2) rfl, _, rfl, rfl, .inl (by decide)⟩

end Verif
