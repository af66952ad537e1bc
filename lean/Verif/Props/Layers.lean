import Verif.Proofs.Layers
import Verif.Props.Pipeline
import Verif.Props.Embeddings
import Verif.Proofs.Average
import Verif.Props.Network

/-!
# Layers: C96–C99
-/

namespace Verif

/-! ### C96 -/

/-- The lemma is made from the word by a rule that can be applied to it, and no rule that fits the word has a
greater score. -/
def BestLemma (lower : Str → Str) (rules : List LemmaRule) (scores : List Rat) (word lem : Str) : Prop :=
  ∃ (i : Nat) (r : LemmaRule) (p : Str) (y : Rat), rules[i]? = some r ∧ scores[i]? = some y ∧
    lower word = p ++ r.wordSuffix ∧ lem = p ++ r.lemmaSuffix ∧
    ∀ (k : Nat) rk z, rules[k]? = some rk → rk.Fits (lower word) → scores[k]? = some z → z ≤ y

/-- The least finite number of single precision, `-(2 - 2⁻²³) · 2¹²⁷`. -/
def leastFloat : Rat := -((2 ^ 24 - 1 : Int) * 2 ^ 104 : Int)

theorem floatMin_eq : floatMin = leastFloat := by unfold floatMin leastFloat; norm_num

/-- Some rule that fits the word has a score above the least number there is. -/
def Scored (lower : Str → Str) (rules : List LemmaRule) (scores : List Rat) (word : Str) : Prop :=
  ∃ (j : Nat) (r : LemmaRule) (x : Rat), rules[j]? = some r ∧ r.Fits (lower word) ∧ scores[j]? = some x ∧ leastFloat < x

/-- What the network predicts for a word: a rule with greatest score among those offered. -/
theorem predictRule_spec {lower : Str → Str} {threshold : Int} {train : List Document}
    {rules : List LemmaRule} (hb : buildRules lower threshold train = .ok rules)
    {argmax : List Rat → Nat} (ha : TakesMax argmax) {logits : List Rat}
    (hlen : logits.length = rules.length) {text : Str} (hs : Scored lower rules logits text) :
    ∃ (i : Nat) (r : LemmaRule) (y : Rat), predictRule lower rules argmax logits text = .ok i ∧
      rules[i]? = some r ∧ r.wordSuffix <:+ lower text ∧ logits[i]? = some y ∧
      ∀ (k : Nat) rk z, rules[k]? = some rk → rk.Fits (lower text) → logits[k]? = some z → z ≤ y := by
  obtain ⟨j, r, x, hj, hf, hx, hmin⟩ := hs
  rw [← floatMin_eq] at hmin
  obtain ⟨v, h1, h2, h3, h4⟩ := applicable_spec hb text
  have hl : logits.length = v.length := hlen.trans h2.symm
  have hget : ∀ (k : Nat) rk z, rules[k]? = some rk → rk.Fits (lower text) → logits[k]? = some z →
      (maskLogits v logits)[k]? = some z := by
    intro k rk z g1 g2 g3
    rw [maskLogits_getElem? hl, h4 k rk g1 g2, g3]
    rfl
  have hne : maskLogits v logits ≠ [] := by
    intro hc
    have := hget j r x hj hf hx
    rw [hc] at this
    simp at this
  obtain ⟨y, hy, hmax⟩ := ha _ hne
  have hge : ∀ (k : Nat) rk z, rules[k]? = some rk → rk.Fits (lower text) → logits[k]? = some z → z ≤ y :=
    fun k rk z g1 g2 g3 => hmax z (List.mem_of_getElem? (hget k rk z g1 g2 g3))
  have hxy := hge j r x hj hf hx
  rw [maskLogits_getElem? hl] at hy
  cases hv : v[argmax (maskLogits v logits)]? with
  | none => simp [hv] at hy
  | some a =>
    cases hlg : logits[argmax (maskLogits v logits)]? with
    | none => simp [hv, hlg] at hy
    | some z =>
      simp only [hv, hlg, Option.some.injEq] at hy
      cases a with
      | false =>
        simp only [Bool.false_eq_true, if_false] at hy
        rw [← hy] at hxy
        exact absurd (lt_of_lt_of_le hmin hxy) (lt_irrefl _)
      | true =>
        simp only [if_true] at hy
        subst hy
        obtain ⟨r', g1, g2⟩ := h3 _ hv
        exact ⟨_, r', z, by simp [predictRule, h1], g1, g2, hlg, hge⟩

/-- C96: whatever scores the network gives, the lemma of a word is made by a rule that can be applied to it and
has the greatest score of all rules that fit the word; nothing else of the token changes.  (At least one rule
that fits has a score.) -/
theorem C96_applicable (lower : Str → Str) (threshold : Int) (train : List Document)
    (rules : List LemmaRule) (hb : buildRules lower threshold train = .ok rules)
    (argmax : List Rat → Nat) (ha : TakesMax argmax) (logits : List Rat)
    (hlen : logits.length = rules.length) (t : TextToken) (hs : Scored lower rules logits t.1) :
    ∃ lem, lemmatize lower rules argmax logits t = .ok { t.2 with lemma' := some lem } ∧
      BestLemma lower rules logits t.1 lem := by
  obtain ⟨i, r, y, h1, h2, h3, h4, h5⟩ := predictRule_spec hb ha hlen hs
  obtain ⟨hi, hr⟩ := List.getElem?_eq_some_iff.1 h2
  obtain ⟨lem, h6, h7⟩ := C47_any_label lower rules t i hi
  rw [hr] at h7
  refine ⟨lem, by simp [lemmatize, h1, h6], ?_⟩
  rcases h7 with ⟨p, g1, g2⟩ | ⟨g1, _⟩
  · exact ⟨i, r, p, y, h2, h4, g1, g2, h5⟩
  · exact absurd h3 g1

/-- C96: if the rule of the gold lemma has a greater score than all other rules that can be applied, the lemma
is the lower-cased gold lemma, whatever scores the other rules have. -/
theorem C96_gold (lower : Str → Str) (threshold : Int) (train : List Document)
    (rules : List LemmaRule) (hb : buildRules lower threshold train = .ok rules)
    (argmax : List Rat → Nat) (ha : TakesMax argmax) (logits : List Rat)
    (hlen : logits.length = rules.length) (t : TextToken) (gold : Str) (j : Nat) (x : Rat)
    (hj : rules[j]? = some (LemmaRule.getRule (lower t.1) (lower gold))) (hx : logits[j]? = some x)
    (hmin : leastFloat < x)
    (hbest : ∀ (k : Nat) rk z, k ≠ j → rules[k]? = some rk → rk.wordSuffix <:+ lower t.1 →
      logits[k]? = some z → z < x) :
    lemmatize lower rules argmax logits t = .ok { t.2 with lemma' := some (lower gold) } := by
  have hfit : (LemmaRule.getRule (lower t.1) (lower gold)).Fits (lower t.1) := by
    by_cases h0 : commonStart (lower t.1) (lower gold) = 0
    · exact Or.inl ⟨by simp [LemmaRule.getRule, h0], by simp [LemmaRule.getRule, h0]⟩
    · refine Or.inr ⟨by simp [LemmaRule.getRule, h0], List.drop_suffix _ _, ?_⟩
      intro hc
      have hl := congrArg List.length hc
      simp only [LemmaRule.getRule, List.length_drop] at hl
      have hw : lower t.1 ≠ [] := by
        intro hc
        rw [hc] at h0
        simp [commonStart] at h0
      have := List.length_pos_iff.2 hw
      omega
  obtain ⟨i, r, y, h1, h2, h3, h4, h5⟩ := predictRule_spec hb ha hlen ⟨j, _, x, hj, hfit, hx, hmin⟩
  have hij : i = j := by
    by_contra hne
    exact absurd (hbest i r y hne h2 h3 h4) (not_lt.2 (h5 j _ x hj hfit hx))
  subst hij
  obtain ⟨g1, g2, _⟩ := C34_round_trip (lower t.1) (lower gold)
  simp only [lemmatize, h1, interpretRule, pyGet_zero_singleton, pyGet_nat_ok.2 hj, g1, if_true, g2,
    Token.withMorphology_ok]

/-- C96: if no rule can be applied to the word, its lemma is the lower-cased word. -/
theorem C96_none (lower : Str → Str) (threshold : Int) (train : List Document)
    (rules : List LemmaRule) (hb : buildRules lower threshold train = .ok rules)
    (argmax : List Rat → Nat) (ha : TakesMax argmax) (logits : List Rat)
    (hlen : logits.length = rules.length) (t : TextToken)
    (hnone : ∀ r ∈ rules, ¬ r.wordSuffix <:+ lower t.1) :
    lemmatize lower rules argmax logits t = .ok { t.2 with lemma' := some (lower t.1) } := by
  obtain ⟨v, h1, h2, _, _⟩ := applicable_spec hb t.1
  have hl : logits.length = v.length := hlen.trans h2.symm
  obtain ⟨all, _, h3⟩ := buildRules_ok hb
  obtain ⟨b, rest, _, _, h4, _⟩ := (id2obj_spec ruleEq_rel h3).best
  have hne : maskLogits v logits ≠ [] := by
    rw [← List.length_pos_iff, maskLogits_length hl, h2, h4]
    simp
  obtain ⟨y, hy, _⟩ := ha _ hne
  have hi : argmax (maskLogits v logits) < rules.length := by
    rw [← h2, ← maskLogits_length hl]
    exact (List.getElem?_eq_some_iff.1 hy).1
  obtain ⟨lem, h5, h6⟩ := C47_any_label lower rules t _ hi
  rcases h6 with ⟨p, g1, _⟩ | ⟨_, g⟩
  · exact absurd ⟨p, g1.symm⟩ (hnone _ (List.getElem_mem hi))
  · simp [lemmatize, predictRule, h1, h5, g]

/-- C96 for whole documents: a tagger whose network predicts rules by score leaves the structure of all
documents as it is and gives every word the lemma of a best rule. -/
theorem C96_documents (lower : Str → Str) (name : Str) (threshold : Int) (train : List Document)
    (rules : List LemmaRule) (hb : buildRules lower threshold train = .ok rules)
    (argmax : List Rat → Nat) (ha : TakesMax argmax)
    (docs : List Document) (hd : ∀ d ∈ docs, Built d)
    (logits : Document → Nat → List Rat)
    (hlen : ∀ d ∈ docs, ∀ j : Nat, (logits d j).length = rules.length)
    (hsc : ∀ d ∈ docs, ∀ (j : Nat) t, d.tokens[j]? = some t →
      Scored lower rules (logits d j) (tokText d.text t))
    (labels : Document → Sentence → Dict Str (List (List Int)))
    (predict : Document → Sentence → Res (Dict Str (List Feat)))
    (hp : ∀ d ∈ docs, ∀ s ∈ d.sentences, ∃ pred, predict d s = .ok pred ∧
      PredictionFor (s.stop - s.start) (labels d s) pred)
    (hl : ∀ d ∈ docs, ∀ s ∈ d.sentences, ∃ rows, (labels d s).get? name = some rows ∧
      rows.length = s.stop - s.start ∧
      ∀ (j : Nat) t, s.start ≤ j → j < s.stop → d.tokens[j]? = some t →
        ∃ i, predictRule lower rules argmax (logits d j) (tokText d.text t) = .ok i ∧
          rows[j - s.start]? = some [(i : Int)]) :
    ∃ outs, neuralTagAll lower [.lemmaRule name rules] predict docs = .ok outs ∧
      List.Forall₂ (fun d d' => Retagged d d' ∧
        ∀ (j : Nat) t u, d.tokens[j]? = some t → d'.tokens[j]? = some u →
          u.pos = t.pos ∧ ∃ lem, u.lemma' = some lem ∧
            BestLemma lower rules (logits d j) (tokText d.text t) lem) docs outs := by
  have hrange : ∀ d ∈ docs, ∀ s ∈ d.sentences, ∀ i ∈ [WordInterp.lemmaRule name rules], i.Trained ∧
      ∃ rows, (labels d s).get? i.name = some rows ∧ ∀ ids ∈ rows, i.InRange ids := by
    intro d hdm s hs i hi
    simp only [List.mem_cons, List.not_mem_nil, or_false] at hi
    subst hi
    obtain ⟨rows, g1, g2, g3⟩ := hl d hdm s hs
    refine ⟨trivial, rows, g1, ?_⟩
    intro ids hids
    obtain ⟨q, hq⟩ := List.mem_iff_getElem?.1 hids
    have hqlt := (List.getElem?_eq_some_iff.1 hq).1
    have hbound := ((hd d hdm).docOk.tiles.mem hs).2
    have hjl : s.start + q < d.tokens.length := by omega
    obtain ⟨i, g4, g5⟩ := g3 (s.start + q) d.tokens[s.start + q] (by omega) (by omega)
      (List.getElem?_eq_getElem hjl)
    rw [show s.start + q - s.start = q by omega, hq] at g5
    injection g5 with g5
    subst g5
    obtain ⟨i', r, y, g6, g7, _⟩ := predictRule_spec hb ha (hlen d hdm (s.start + q))
      (hsc d hdm _ _ (List.getElem?_eq_getElem hjl))
    rw [g6] at g4
    injection g4 with g4
    subst g4
    exact ⟨i', [], rfl, by omega, by exact_mod_cast (List.getElem?_eq_some_iff.1 g7).1⟩
  obtain ⟨outs, h1, h2⟩ := C59_tagged lower _ predict labels docs hd hp hrange
  refine ⟨outs, h1, forall₂_imp_mem h2 ?_⟩
  intro d d' hdm ⟨h3, h4⟩
  refine ⟨h3, ?_⟩
  intro j t u ht hu
  have hj := (List.getElem?_eq_some_iff.mp ht).1
  obtain ⟨s, hs, h5, h6⟩ := (hd d hdm).docOk.tiles.cover (Nat.zero_le j) hj
  obtain ⟨h7, h8, _⟩ := h4 s hs j t u h5 h6 ht hu
  refine ⟨h8 (by simp [WordInterp.tagsPos]), ?_⟩
  obtain ⟨rows, ids, w, g1, g2, g3, _, g4⟩ := h7 (.lemmaRule name rules) ⟨[], [], rfl, by simp⟩
  obtain ⟨rows', g5, _, g6⟩ := hl d hdm s hs
  rw [show (WordInterp.lemmaRule name rules).name = name from rfl, g5] at g1
  injection g1 with g1
  subst g1
  obtain ⟨i, g7, g8⟩ := g6 j t h5 h6 ht
  rw [g8] at g2
  injection g2 with g2
  subst g2
  obtain ⟨lem, g9, g10⟩ := C96_applicable lower threshold train rules hb argmax ha (logits d j)
    (hlen d hdm j) (tokText d.text t, t) (hsc d hdm j t ht)
  refine ⟨lem, ?_, g10⟩
  rw [g4 rfl]
  simp only [lemmatize, g7] at g9
  simp only [WordInterp.apply, g9] at g3
  injection g3 with g3
  rw [← g3]

namespace Demo

/-- The first position of a greatest element. -/
def argmax (l : List Rat) : Nat := l.findIdx (fun x => l.all (fun y => decide (y ≤ x)))

theorem argmax_takesMax : TakesMax argmax := by
  intro l hl
  have hex : ∃ x ∈ l, ∀ y ∈ l, y ≤ x := by
    induction l with
    | nil => exact absurd rfl hl
    | cons a l ih =>
      cases l with
      | nil => exact ⟨a, by simp, by simp⟩
      | cons b l =>
        obtain ⟨x, hx, hm⟩ := ih (by simp)
        rcases le_total a x with h | h
        · refine ⟨x, List.mem_cons_of_mem _ hx, fun y hy => ?_⟩
          rcases List.mem_cons.1 hy with rfl | hy
          · exact h
          · exact hm y hy
        · refine ⟨a, by simp, fun y hy => ?_⟩
          rcases List.mem_cons.1 hy with rfl | hy
          · exact le_refl _
          · exact (hm y hy).trans h
  obtain ⟨x, hx, hm⟩ := hex
  have hlt : argmax l < l.length := List.findIdx_lt_length.2 ⟨x, hx, by simpa using hm⟩
  refine ⟨l[argmax l], List.getElem?_eq_getElem hlt, ?_⟩
  have := List.findIdx_getElem (xs := l) (p := fun x => l.all (fun y => decide (y ≤ x))) (w := hlt)
  intro y hy
  exact of_decide_eq_true (List.all_eq_true.1 this y hy)

end Demo

/-- The rule `~s -> ~` has the greater score, but cannot be applied to "be". -/
example : (buildRules id 0 [Demo.xdoc]).toOption.isSome = true ∧
    predictRule id (Demo.someRules.map Prod.fst) Demo.argmax [5, 1, 2] "cats".toList = .ok 0 ∧
    predictRule id (Demo.someRules.map Prod.fst) Demo.argmax [5, 3, 2] "be".toList = .ok 1 ∧
    predictRule id (Demo.someRules.map Prod.fst) Demo.argmax [5, 1, 2] "be".toList = .ok 2 := by
  decide +kernel
example : (lemmatize id (Demo.someRules.map Prod.fst) Demo.argmax [5, 3, 2] ("be".toList, Demo.t0)).map
    Token.lemma' = .ok (some "am".toList) := by decide +kernel

/-! ### C97 -/

/-- C97: the loss of a batch is the mean of the losses of its words, whatever values the padding has and however
wide it is; a batch without words has no loss (not a number). -/
theorem C97_mean (ragged padded : List (List Rat)) (h : PadsTo ragged padded) :
    (ragged.flatten ≠ [] → denseLoss (ragged.map List.length) padded = some (mean ragged.flatten)) ∧
    (ragged.flatten = [] → denseLoss (ragged.map List.length) padded = none) := by
  rw [denseLoss_eq h]
  constructor
  · intro hne
    have : (ragged.flatten.length : Rat) ≠ 0 := by
      exact_mod_cast (List.length_pos_iff.2 hne).ne'
    rw [divide, if_neg this, mean]
  · intro he
    simp [he, divide]

/-- C97: the loss depends on the losses of the words only: two paddings of the same batch have the same loss. -/
theorem C97_padding (ragged padded padded' : List (List Rat)) (h : PadsTo ragged padded)
    (h' : PadsTo ragged padded') :
    denseLoss (ragged.map List.length) padded = denseLoss (ragged.map List.length) padded' := by
  rw [denseLoss_eq h, denseLoss_eq h']

/-- C97: with weights, the loss of a word label is the sum of the losses of its parts, each times its own weight,
or the default weight if it has none; it fails with `KeyError` exactly if a part has no weight and there is no
default. -/
theorem C97_weighted (weights : Dict Str Rat) (losses : List (Str × Rat)) :
    ((∀ p ∈ losses, weights.get? p.1 = none → weights.get? "default".toList ≠ none) →
      sumWeighted weights losses = .ok ((losses.map (fun p => p.2 *
        ((weights.get? p.1).getD ((weights.get? "default".toList).getD 0)))).sum)) ∧
    ((∃ p ∈ losses, weights.get? p.1 = none ∧ weights.get? "default".toList = none) →
      sumWeighted weights losses = .error .key) := by
  constructor
  · intro h
    rw [sumWeighted, mapM'_ok_of_forall (g := fun p : Str × Rat => p.2 *
        ((weights.get? p.1).getD ((weights.get? "default".toList).getD 0)))]
    intro p hp
    cases hw : weights.get? p.1 with
    | some w => simp [lossWeight, hw]
    | none =>
      cases hd : weights.get? "default".toList with
      | none => exact absurd hd (h p hp hw)
      | some d => simp only [lossWeight, hw, Dict.getItem, hd, Option.getD_none, Option.getD_some]
  · rintro ⟨p, hp, h1, h2⟩
    rw [sumWeighted, mapM'_err (e := .key)]
    · intro q _ e' he
      cases hw : weights.get? q.1 with
      | some w => simp only [lossWeight, hw] at he; cases he
      | none =>
        simp only [lossWeight, hw, Dict.getItem, h2] at he
        cases he
        rfl
    · exact ⟨p, hp, by simp only [lossWeight, h1, Dict.getItem, h2]⟩

/-- C97: the loss of the character task is the mean over the words and the positions of a word, times its weight. -/
theorem C97_characters (maxLen : Nat) (hm : maxLen ≠ 0) (weight : Rat)
    (ragged raw : List (List (List Rat))) (h : PadsTo ragged raw)
    (hw : ∀ s ∈ ragged, ∀ w ∈ s, w.length = maxLen) (hne : ragged.flatten ≠ []) :
    comboLoss (ragged.map List.length) maxLen weight raw =
      some (weight * mean ragged.flatten.flatten) := by
  have hp : PadsTo (ragged.map (List.map List.sum)) (raw.map (List.map List.sum)) := by
    refine ⟨?_, ?_⟩
    · rw [List.forall₂_map_left_iff, List.forall₂_map_right_iff]
      refine h.rows.imp ?_
      rintro r p ⟨rest, rfl⟩
      exact ⟨rest.map List.sum, by simp⟩
    · intro p hp
      obtain ⟨q, hq, rfl⟩ := List.mem_map.1 hp
      rw [List.length_map, h.width q hq, List.map_map]
      congr 1
      exact List.map_congr_left (fun r _ => by simp)
  have hl : (ragged.map (List.map List.sum)).map List.length = ragged.map List.length := by
    rw [List.map_map]
    exact List.map_congr_left (fun r _ => by simp)
  have hsum : ((ragged.map (List.map List.sum)).flatten).sum = ragged.flatten.flatten.sum := by
    rw [← List.map_flatten]
    generalize ragged.flatten = l
    induction l with
    | nil => rfl
    | cons a l ih => rw [List.map_cons, List.sum_cons, List.flatten_cons, List.sum_append, ih]
  have hlen : ragged.flatten.flatten.length = ragged.flatten.length * maxLen := by
    have : ∀ w ∈ ragged.flatten, w.length = maxLen := by
      intro w hwm
      obtain ⟨s, hs, hws⟩ := List.mem_flatten.1 hwm
      exact hw s hs w hws
    revert this
    generalize ragged.flatten = l
    induction l with
    | nil => simp
    | cons a l ih =>
      intro hall
      rw [List.flatten_cons, List.length_append, ih (fun w hw => hall w (List.mem_cons_of_mem _ hw)),
        hall a (by simp), List.length_cons]
      ring
  have h1 := productSum_mask (maxLength ((ragged.map (List.map List.sum)).map List.length)) rfl
    (fun k hk => le_maxLength hk) hp.rows hp.width
  rw [hl] at h1
  have hpos : (ragged.flatten.length : Rat) * maxLen ≠ 0 := by
    have := (List.length_pos_iff.2 hne).ne'
    exact mul_ne_zero (by exact_mod_cast this) (by exact_mod_cast hm)
  rw [comboLoss, sequenceMask, h1, hsum, sentenceNorm_eq, divide, if_neg hpos, Option.map_some, mean, hlen,
    Nat.cast_mul]
  congr 1
  ring

example : PadsTo [[1, 2], [6]] [[1, 2], [6, 7]] ∧
    denseLoss [2, 1] [[1, 2], [6, 7]] = some 3 := by
  refine ⟨⟨?_, by decide⟩, by decide +kernel⟩
  exact .cons ⟨[], rfl⟩ (.cons ⟨[7], rfl⟩ .nil)
example : sumWeighted (Dict.ofList [("default".toList, 2), ("UPOS".toList, 3)])
    [("UPOS".toList, 1), ("XPOS".toList, 5)] = .ok 13 := by decide +kernel
example : comboLoss [2, 1] 2 3 [[[1, 2], [3, 4]], [[5, 6], [100, 100]]] = some (3 * (21 / 6)) := by
  decide +kernel

/-! ### C98 -/

/-- Does the vector of a word depend on the word only? -/
def WordOnly {V : Type} (vectors : List (List Int) → List V) : Prop :=
  ∀ (s s' : List (List Int)) (i j : Nat) (w : List Int), (∀ v ∈ s ++ s', PADDING ∉ v) →
    s[i]? = some w → s'[j]? = some w → (vectors s)[i]? = (vectors s')[j]?

/-- C98: no: the average of the subwords is taken over the length of the longest word of the batch. -/
theorem C98_average_refuted : ¬ WordOnly (averageVectors 1 (fun _ _ => 1)) := by
  intro h
  have := h [[5]] [[5], [6, 7]] 0 0 [5] (by decide) rfl rfl
  revert this
  decide +kernel

/-- C98: no: the characters of the decoder are padded with the vector of the padding up to the longest word of the
batch, and with zeros from there on. -/
theorem C98_characters_refuted : ¬ WordOnly (comboInputs 1 (fun _ _ => 1) 3) := by
  intro h
  have := h [[5]] [[5], [6, 7]] 0 0 [5] (by decide) rfl rfl
  revert this
  decide +kernel

/-- C98 (part): the averaged vector of a word is the sum of the vectors of its subwords divided by the length of
the longest word of the batch.  So it is the same in two batches with longest words of the same length, and the
mean for the longest words.  Missing: independence of the longest word, which does not hold
(`C98_average_refuted`). -/
theorem C98_average_partial (e : Nat) (emb : Int → Nat → Rat) (s : List (List Int)) (i : Nat) (w : List Int)
    (hp : PADDING ∉ w) (hi : s[i]? = some w) :
    (averageVectors e emb s)[i]? = some ((List.range e).map (fun k =>
      (w.map (fun c => emb c k)).sum / (maxLength (s.map List.length) : Rat))) ∧
    (w.length = maxLength (s.map List.length) →
      (averageVectors e emb s)[i]? = some (meanVector e emb w)) := by
  have hle : w.length ≤ maxLength (s.map List.length) :=
    le_maxLength (List.mem_map.2 ⟨w, List.mem_of_getElem? hi, rfl⟩)
  have key : (averageVectors e emb s)[i]? = some ((List.range e).map (fun k =>
      (w.map (fun c => emb c k)).sum / (maxLength (s.map List.length) : Rat))) := by
    simp only [averageVectors, padWords, List.getElem?_map, hi, Option.map_some, subwordAverage,
      Option.some.injEq]
    apply List.map_congr_left
    intro k _
    have e1 : (w.map (fun c => if c ≠ PADDING then emb c k else 0)) = w.map (fun c => emb c k) := by
      apply List.map_congr_left
      intro c hc
      have hne : c ≠ PADDING := by
        rintro rfl
        exact hp hc
      rw [if_pos hne]
    rw [List.map_append, List.sum_append, e1, List.map_replicate, List.length_append, List.length_replicate,
      Nat.add_sub_cancel' hle]
    simp
  refine ⟨key, fun hw => ?_⟩
  rw [key, meanVector]
  simp [mean, ← hw]

/-- C98 (part): if the batch has a word of at least `max_word_length` characters, or the vector of the padding is
zero, the characters of the decoder depend on the word only: cut or padded to `max_word_length`.  Missing:
batches of short words (`C98_characters_refuted`). -/
theorem C98_characters_partial (e : Nat) (emb : Int → Nat → Rat) (maxLen : Nat) (s : List (List Int)) (i : Nat)
    (w : List Int) (hi : s[i]? = some w)
    (h : maxLen ≤ maxLength (s.map List.length) ∨ ∀ k, k < e → emb PADDING k = 0) :
    (comboInputs e emb maxLen s)[i]? = some (((w ++ List.replicate (maxLen - w.length) PADDING).take maxLen).map
      (fun c => (List.range e).map (emb c))) := by
  have hle : w.length ≤ maxLength (s.map List.length) :=
    le_maxLength (List.mem_map.2 ⟨w, List.mem_of_getElem? hi, rfl⟩)
  generalize hn : maxLength (s.map List.length) = n at *
  simp only [comboInputs, padWords, List.getElem?_map, hi, Option.map_some, hn, Option.some.injEq, comboInput,
    List.length_append, List.length_replicate, Nat.add_sub_cancel' hle]
  by_cases hgt : n > maxLen
  · rw [if_pos hgt, ← List.map_take]
    congr 1
    rw [List.take_append, List.take_append, List.take_replicate, List.take_replicate]
    congr 2
    omega
  · rw [if_neg hgt]
    have hz : n < maxLen → (List.range e).map (emb PADDING) = List.replicate e 0 := by
      intro hlt
      rcases h with h | h
      · omega
      · rw [List.eq_replicate_iff]
        refine ⟨by simp, ?_⟩
        intro b hb
        obtain ⟨k, hk, rfl⟩ := List.mem_map.1 hb
        exact h k (List.mem_range.1 hk)
    rw [List.take_of_length_le (by simp; omega), List.map_append, List.map_append, List.append_assoc,
      List.map_replicate, List.map_replicate]
    congr 1
    by_cases hlt : n < maxLen
    · rw [hz hlt, ← List.replicate_add]
      congr 1
      omega
    · rw [show maxLen - n = 0 by omega, List.replicate_zero, List.append_nil]
      congr 1
      omega

example : averageVectors 1 (fun i _ => if i = 1 then 1 else if i = 3 then 3 else 2) [[1, 3], [2]] = [[2], [1]] := by
  decide +kernel
example : comboInputs 1 (fun i _ => i + 1) 2 [[5, 6, 7], [8]] = [[[6], [7]], [[9], [1]]] := by
  decide +kernel

/-! ### C99 -/

section
variable {F : Type}

theorem scatter_all (rows : List (Option Int × List F)) (m : Mat F)
    (hr : ∀ r ∈ rows, ∃ i : Nat, r.1 = some (i : Int) ∧ i < m.rows.length ∧ r.2.length = m.width)
    (hn : (rows.map Prod.fst).Nodup) :
    ∃ m', forM' scatterRow m rows = .ok m' ∧ m'.width = m.width ∧ m'.rows.length = m.rows.length ∧
      (∀ (i : Nat) vec, (some (i : Int), vec) ∈ rows → m'.rows[i]? = some vec) ∧
      ∀ i : Nat, some (i : Int) ∉ rows.map Prod.fst → m'.rows[i]? = m.rows[i]? := by
  induction rows generalizing m with
  | nil => exact ⟨m, rfl, rfl, rfl, by simp, by simp⟩
  | cons r rows ih =>
    obtain ⟨i, h1, h2, h3⟩ := hr r (by simp)
    obtain ⟨r1, vec⟩ := r
    subst h1
    rw [List.map_cons, List.nodup_cons] at hn
    have hs : scatterRow m (some (i : Int), vec) = .ok { m with rows := m.rows.set i vec } := by
      have : vec.length = m.width ∧ (0 : Int) ≤ (i : Int) ∧ (i : Int) < m.rows.length :=
        ⟨h3, by omega, by exact_mod_cast h2⟩
      simp only [scatterRow]
      rw [if_pos this, Int.toNat_natCast]
    obtain ⟨m', g1, g2, g3, g4, g5⟩ := ih { m with rows := m.rows.set i vec } (by
      intro r hrm
      simpa using hr r (List.mem_cons_of_mem _ hrm)) hn.2
    refine ⟨m', by rw [forM', hs]; exact g1, g2, by simpa using g3, ?_, ?_⟩
    · intro j v hj
      rcases List.mem_cons.1 hj with heq | hj
      · simp only [Prod.mk.injEq, Option.some.injEq] at heq
        obtain ⟨rfl, rfl⟩ : j = i ∧ v = vec := ⟨by omega, heq.2⟩
        rw [g5 j hn.1, List.getElem?_set_self h2]
      · exact g4 j v hj
    · intro j hj
      simp only [List.map_cons, List.mem_cons, not_or, Option.some.injEq] at hj
      rw [g5 j hj.2, List.getElem?_set_ne (by omega)]

/-- A pretrained matrix: the parameter and the variable, the first id of a word, the file, what was read from it, the
initial values and the matrix before initialisation. -/
structure Pre (F : Type) where
  param : Str
  var : Str
  base : Nat
  lines : List Str
  st : EmbState F
  vals : List (Option Int × List F)
  before : Mat F

/-- The initial values come from the file and the matrix has the shape that was announced for it: a row per word and
per reserved id. -/
structure Pre.Ok (float : Str → Res F) (zero : F) (random : Dict Str (Mat F))
    (values : Dict Str (List (Option Int × List F))) (p : Pre F) : Prop where
  base : 0 < p.base
  read : readEmbeddings float p.lines = .ok p.st
  init : initialValues zero (embeddingIds p.base p.st.vecs) p.st = .ok p.vals
  value : values.get? p.param = some p.vals
  var : random.get? p.var = some p.before
  width : p.st.size = some (p.before.width : Int)
  rows : p.before.rows.length = p.st.vecs.entries.length + p.base

/-- What the matrix of a file holds: row 0 is zero, every word of the file has an id whose row is the vector of the
last line about the word, and the other reserved ids have a row with whatever value they had. -/
structure HoldsFile (float : Str → Res F) (zero : F) (p : Pre F) (m : Mat F) : Prop where
  padding : m.lookup PADDING = some (List.replicate p.before.width zero)
  words : ∀ w vec, LastGives float (dataLines p.lines) w vec →
    ∃ i, (embeddingIds p.base p.st.vecs).get? w = some i ∧ m.lookup i = some vec
  reserved : ∀ i : Nat, 0 < i → i < p.base → m.lookup i = p.before.lookup i ∧ m.lookup i ≠ none
  unknown : ∀ w, (∀ vec, ¬ LastGives float (dataLines p.lines) w vec) →
    (embeddingIds p.base p.st.vecs).get? w = none

theorem scatter_pre {float : Str → Res F} {zero : F} {random : Dict Str (Mat F)}
    {values : Dict Str (List (Option Int × List F))} {p : Pre F} (h : p.Ok float zero random values) :
    ∃ r rows m, p.vals = r :: rows ∧ forM' scatterRow p.before p.vals = .ok m ∧ HoldsFile float zero p m := by
  have hne : p.lines ≠ [] := by
    intro hc
    have h1 := (C70_initial_values zero p.base p.lines p.st h.read).1 hc
    rw [h.init] at h1
    cases h1
  obtain ⟨n, rows, h1, h2, h3, h4, h5⟩ := (C70_initial_values zero p.base p.lines p.st h.read).2 hne
  have h6 := (C70_read p.lines p.st h.read).1
  rw [h.init] at h2
  injection h2 with h2
  subst h2
  rw [h.width] at h1
  injection h1 with h1
  subst h1
  have hinit := h.init
  rw [initialValues, h.width] at hinit
  injection hinit with hinit
  have hnod : (p.vals.map Prod.fst).Nodup := by
    rw [h3, List.nodup_cons]
    refine ⟨?_, ?_⟩
    · simp only [List.mem_map, List.mem_range, Option.some.injEq, not_exists, not_and]
      intro i _ hi
      have := h.base
      omega
    · refine List.Nodup.map ?_ List.nodup_range
      intro a b hab
      simp only [Option.some.injEq] at hab
      omega
  have hfst : ∀ i : Nat, some (i : Int) ∈ p.vals.map Prod.fst ↔
      i = 0 ∨ (p.base ≤ i ∧ i < p.base + p.st.vecs.entries.length) := by
    intro i
    rw [h3]
    simp only [List.mem_cons, List.mem_map, List.mem_range, Option.some.injEq]
    constructor
    · rintro (h0 | ⟨a, ha, he⟩)
      · left; omega
      · right; omega
    · rintro (h0 | ⟨ha, he⟩)
      · left; omega
      · right; exact ⟨i - p.base, by omega, by omega⟩
  have hrow : ∀ r ∈ p.vals, ∃ i : Nat, r.1 = some (i : Int) ∧ i < p.before.rows.length ∧
      r.2.length = p.before.width := by
    intro r hr
    have hm : r.1 ∈ p.vals.map Prod.fst := List.mem_map.2 ⟨r, hr, rfl⟩
    have hex : ∃ i : Nat, r.1 = some (i : Int) := by
      rw [h3] at hm
      rcases List.mem_cons.1 hm with hm | hm
      · exact ⟨0, hm⟩
      · obtain ⟨a, _, ha⟩ := List.mem_map.1 hm
        exact ⟨p.base + a, by rw [← ha]; simp⟩
    obtain ⟨i, hi⟩ := hex
    rw [hi] at hm
    have hb := h.base
    have hrw := h.rows
    refine ⟨i, hi, ?_, by simpa using h4 r hr⟩
    rcases (hfst i).1 hm with h0 | h0 <;> omega
  obtain ⟨m, g1, g2, g3, g4, g5⟩ := scatter_all p.vals p.before hrow hnod
  refine ⟨_, _, m, hinit.symm, g1, ?_, ?_, ?_, ?_⟩
  · have := g4 0 (List.replicate p.before.width zero) (by rw [← hinit]; simp [PADDING])
    simpa [Mat.lookup, PADDING] using this
  · intro w vec hw
    obtain ⟨i, e1, e2, e3, _⟩ := h5 w vec ((h6 w vec).2 hw)
    refine ⟨i, e1, ?_⟩
    obtain ⟨k, rfl⟩ : ∃ k : Nat, i = k := ⟨i.toNat, by omega⟩
    have := g4 k vec e2
    simpa [Mat.lookup] using this
  · intro i hi hb
    have h7 := g5 i (by rw [hfst]; omega)
    have h8 : i < p.before.rows.length := by have := h.rows; omega
    have e : ∀ M : Mat F, M.lookup (i : Int) = M.rows[i]? := by intro M; simp [Mat.lookup]
    rw [e, e]
    refine ⟨h7, ?_⟩
    rw [h7, List.getElem?_eq_getElem h8]
    simp
  · intro w hw
    rw [embeddingIds]
    cases hg : (Dict.ofList (p.st.vecs.keys.zipIdx.map (fun q => (q.1, (p.base : Int) + (q.2 : Int))))).get? w with
    | none => rfl
    | some i =>
      exfalso
      obtain ⟨j, hj, _⟩ := (enumerate_get? p.st.vecs.nodup (p.base : Int) w i).1 hg
      have hk : w ∈ p.st.vecs.keys := List.mem_of_getElem? hj
      obtain ⟨vec, hvec⟩ := Option.isSome_iff_exists.1 (Dict.get?_isSome.2 hk)
      exact hw vec ((h6 w vec).1 hvec)

/-- C99: initialising a network with pretrained matrices of different variables succeeds; each of them then holds the
vectors of its file, and all other variables keep their random values. -/
theorem C99_initialized (float : Str → Res F) (zero : F) (random : Dict Str (Mat F))
    (values : Dict Str (List (Option Int × List F))) (pres : List (Pre F))
    (hv : (pres.map Pre.var).Nodup) (hp : ∀ p ∈ pres, p.Ok float zero random values) :
    ∃ vars, initializeAll random values (.global :: pres.map (fun p => .matrix p.param p.var)) = .ok vars ∧
      (∀ v, v ∉ pres.map Pre.var → vars.get? v = random.get? v) ∧
      ∀ p ∈ pres, ∃ m, vars.get? p.var = some m ∧ HoldsFile float zero p m := by
  have key : ∀ (pres : List (Pre F)) (vars : Dict Str (Mat F)), (pres.map Pre.var).Nodup →
      (∀ p ∈ pres, p.Ok float zero random values) →
      (∀ p ∈ pres, vars.get? p.var = random.get? p.var) →
      ∃ vars', forM' (InitOp.run random values) vars (pres.map (fun p => .matrix p.param p.var)) = .ok vars' ∧
        (∀ v, v ∉ pres.map Pre.var → vars'.get? v = vars.get? v) ∧
        ∀ p ∈ pres, ∃ m, vars'.get? p.var = some m ∧ HoldsFile float zero p m := by
    intro pres
    induction pres with
    | nil => intro vars _ _ _; exact ⟨vars, rfl, by simp, by simp⟩
    | cons p pres ih =>
      intro vars hn hok hsame
      rw [List.map_cons, List.nodup_cons] at hn
      have hpo := hok p (by simp)
      obtain ⟨r, rows, m, h1, h2, h3⟩ := scatter_pre hpo
      have hget : vars.get? p.var = some p.before := by rw [hsame p (by simp), hpo.var]
      have hrun : InitOp.run random values vars (.matrix p.param p.var) = .ok (vars.set p.var m) := by
        rw [h1] at h2
        have hval := hpo.value
        rw [h1] at hval
        simp only [InitOp.run, Dict.getItem, hval, hget, h2]
      obtain ⟨vars', g1, g2, g3⟩ := ih (vars.set p.var m) hn.2 (fun q hq => hok q (List.mem_cons_of_mem _ hq)) (by
        intro q hq
        have hne : q.var ≠ p.var := by
          intro hc
          exact hn.1 (hc ▸ List.mem_map.2 ⟨q, hq, rfl⟩)
        rw [Dict.get?_set, if_neg hne]
        exact hsame q (List.mem_cons_of_mem _ hq))
      refine ⟨vars', by rw [List.map_cons, forM', hrun]; exact g1, ?_, ?_⟩
      · intro v hvn
        simp only [List.map_cons, List.mem_cons, not_or] at hvn
        rw [g2 v hvn.2, Dict.get?_set, if_neg hvn.1]
      · intro q hq
        rcases List.mem_cons.1 hq with rfl | hq
        · exact ⟨m, by rw [g2 _ hn.1, Dict.get?_set, if_pos rfl], h3⟩
        · exact g3 q hq
  obtain ⟨vars, h1, h2, h3⟩ := key pres random hv hp (fun _ _ => rfl)
  exact ⟨vars, by rw [initializeAll, forM']; exact h1, h2, h3⟩

/-- C99 for words: after initialisation, the row that is looked up for a word of a text is the vector of the last line
of the file about the word (lower-cased, if configured), and for a word that is not in the file a row of its own
that is not set from the file. -/
theorem C99_words (float : Str → Res F) (zero : F) (p : Pre F) (hb : p.base = 2) (m : Mat F)
    (h : HoldsFile float zero p m) (lower : Str → Str) (lowercase : Bool) (text : Str) :
    (∀ vec, LastGives float (dataLines p.lines) (if lowercase then lower text else text) vec →
      m.lookup (wordId lower (embeddingIds p.base p.st.vecs) lowercase text) = some vec) ∧
    ((∀ vec, ¬ LastGives float (dataLines p.lines) (if lowercase then lower text else text) vec) →
      m.lookup (wordId lower (embeddingIds p.base p.st.vecs) lowercase text) = p.before.lookup OOV ∧
      p.before.lookup OOV ≠ none) := by
  constructor
  · intro vec hv
    obtain ⟨i, h1, h2⟩ := h.words _ vec hv
    rw [wordId, h1]
    exact h2
  · intro hv
    have hoov := h.reserved 1 (by omega) (by omega)
    have h1 := h.unknown _ hv
    rw [wordId, h1]
    refine ⟨hoov.1, ?_⟩
    have := hoov.2
    rw [hoov.1] at this
    exact this

/-- C99: initialisation without values for a pretrained matrix fails with `KeyError`, with no rows at all with
`ValueError`, and a vector of another size is never written. -/
theorem C99_errors (random : Dict Str (Mat F)) (values : Dict Str (List (Option Int × List F)))
    (vars : Dict Str (Mat F)) (p v : Str) :
    (values.get? p = none → InitOp.run random values vars (.matrix p v) = .error .key) ∧
    (values.get? p = some [] → InitOp.run random values vars (.matrix p v) = .error .value) ∧
    ∀ rows m, values.get? p = some rows → rows ≠ [] → vars.get? v = some m →
      (∃ i vec, (some i, vec) ∈ rows ∧ vec.length ≠ m.width) →
      ∃ e, InitOp.run random values vars (.matrix p v) = .error e := by
  refine ⟨fun h => by simp [InitOp.run, Dict.getItem, h], fun h => by simp [InitOp.run, Dict.getItem, h], ?_⟩
  intro rows m h1 h2 h3 ⟨i, vec, h4, h5⟩
  cases rows with
  | nil => exact absurd rfl h2
  | cons r rows =>
    have key : ∀ (rs : List (Option Int × List F)) (m : Mat F), (some i, vec) ∈ rs → vec.length ≠ m.width →
        ∃ e, forM' scatterRow m rs = .error e := by
      intro rs
      induction rs with
      | nil => intro m hm; simp at hm
      | cons a rs ih =>
        intro m hm hw
        rw [forM']
        cases hs : scatterRow m a with
        | error e => exact ⟨e, rfl⟩
        | ok m' =>
          rcases List.mem_cons.1 hm with rfl | hm
          · exfalso
            simp only [scatterRow] at hs
            rw [if_neg (fun hc => hw hc.1)] at hs
            cases hs
          · have : m'.width = m.width := by
              simp only [scatterRow] at hs
              split at hs
              · cases hs
              · split at hs
                · injection hs with hs
                  rw [← hs]
                · cases hs
            exact ih m' hm (by rw [this]; exact hw)
    obtain ⟨e, he⟩ := key (r :: rows) m h4 h5
    exact ⟨e, by simp only [InitOp.run, Dict.getItem, h1, h3, he]⟩

end

namespace Demo

def pre : Pre Int :=
  { param := ['p'], var := ['v'], base := 2, lines := embFile
    st := (readEmbeddings float embFile).toOption.getD ⟨0, none, Dict.empty⟩
    vals := [(some 0, [0, 0]), (some 2, [7, 7]), (some 3, [0, 5])]
    before := ⟨2, [[9, 9], [8, 8], [6, 6], [5, 5]]⟩ }

def random : Dict Str (Mat Int) := Dict.ofList [(['u'], ⟨1, [[4]]⟩), (['v'], pre.before)]

def initial : Dict Str (List (Option Int × List Int)) := Dict.ofList [(['p'], pre.vals)]

end Demo

example : Demo.pre.Ok Demo.float 0 Demo.random Demo.initial := by
  refine ⟨by decide, by rfl, by decide +kernel, by decide +kernel, by decide +kernel, by decide +kernel,
    by decide +kernel⟩
example : ((initializeAll Demo.random Demo.initial [.global, .matrix ['p'] ['v']]).map Dict.entries).toOption =
    some [(['u'], ⟨1, [[4]]⟩), (['v'], ⟨2, [[0, 0], [8, 8], [7, 7], [0, 5]]⟩)] := by decide +kernel

/-- The parameters and variables of the pretrained matrices of a network. -/
def NetCfg.matrices (c : NetCfg) : List (Str × Str) :=
  c.features.inits.map (fun n => (n, n)) ++
    c.tasks.flatMap (fun t => t.inits.map (fun n => (n, n ++ "_e".toList)))

theorem sharedInits_nodup (c : SharedCfg) : c.inits.Nodup ∧ ∀ n ∈ c.inits, n ≠ "input_subwords_e".toList := by
  have h : ∀ o : Option SubwordCfg, ∀ f : Str, SubwordCfg.inits f o = [] ∨ SubwordCfg.inits f o = [f] := by
    intro o f
    cases o with
    | none => left; rfl
    | some c =>
      simp only [SubwordCfg.inits]
      split
      · right; rfl
      · left; rfl
  unfold SharedCfg.inits
  rcases h c.chars "characters".toList with h1 | h1 <;> rcases h c.bpe "bpe_subwords".toList with h2 | h2 <;>
    rcases h c.morfessor "morfessor_subwords".toList with h3 | h3 <;> rw [h1, h2, h3] <;> split <;> decide

theorem taskInits_le (ts : List TaskCfg) (h : (ts.map TaskCfg.label).Nodup) :
    ts.flatMap (fun t => t.inits.map (fun n => (n, n ++ "_e".toList))) = [] ∨
    ts.flatMap (fun t => t.inits.map (fun n => (n, n ++ "_e".toList))) =
      [("input_subwords".toList, "input_subwords_e".toList)] := by
  induction ts with
  | nil => left; rfl
  | cons t ts ih =>
    rw [List.map_cons, List.nodup_cons] at h
    by_cases hc : t.task = .lemmaCombo ∧ t.pretrained = true
    · right
      have hrest : ts.flatMap (fun t => t.inits.map (fun n => (n, n ++ "_e".toList))) = [] := by
        rw [List.flatMap_eq_nil_iff]
        intro u hu
        have : ¬ (u.task = .lemmaCombo ∧ u.pretrained = true) := by
          intro hcu
          apply h.1
          refine List.mem_map.2 ⟨u, hu, ?_⟩
          rw [TaskCfg.label, TaskCfg.label, hc.1, hcu.1]
        rw [TaskCfg.inits, if_neg this]
        rfl
      rw [List.flatMap_cons, hrest, TaskCfg.inits, if_pos hc]
      decide
    · rw [List.flatMap_cons, TaskCfg.inits, if_neg hc]
      exact ih h.2

/-- C99: in every network that can be built, the pretrained matrices are different variables, as
`C99_initialized` demands. -/
theorem C99_distinct (gid : Nat) (c : NetCfg) (r : NN × TfGraph × List Tensor) (h : buildNetwork gid c = .ok r) :
    c.initOps = .global :: c.matrices.map (fun q => .matrix q.1 q.2) ∧ (c.matrices.map Prod.snd).Nodup ∧
    (c.matrices.map Prod.fst).Nodup := by
  obtain ⟨h1, h2⟩ := sharedInits_nodup c.features
  have h3 : ∀ n ∈ c.features.inits, n ≠ "input_subwords".toList := by
    intro n hn
    unfold SharedCfg.inits SubwordCfg.inits at hn
    simp only [List.mem_append] at hn
    rcases hn with ((hn | hn) | hn) | hn
    · split at hn
      · rw [List.mem_singleton.1 hn]; decide
      · simp at hn
    all_goals
      split at hn
      · simp at hn
      · split at hn
        · rw [List.mem_singleton.1 hn]; decide
        · simp at hn
  refine ⟨?_, ?_, ?_⟩
  · simp only [NetCfg.initOps, NetCfg.matrices, List.map_append, List.map_map, List.map_flatMap]
    rfl
  all_goals
    rw [NetCfg.matrices, List.map_append, List.map_map]
    rcases taskInits_le c.tasks (built_labels h) with h4 | h4 <;> rw [h4]
  · simpa [Function.comp_def] using h1
  · rw [List.nodup_append]
    refine ⟨by simpa [Function.comp_def] using h1, by decide, ?_⟩
    intro a ha b hb
    rw [List.map_cons, List.map_nil, List.mem_singleton] at hb
    subst hb
    obtain ⟨n, hn, rfl⟩ := List.mem_map.1 ha
    exact h2 n hn
  · simpa [Function.comp_def] using h1
  · rw [List.nodup_append]
    refine ⟨by simpa [Function.comp_def] using h1, by decide, ?_⟩
    intro a ha b hb
    rw [List.map_cons, List.map_nil, List.mem_singleton] at hb
    subst hb
    obtain ⟨n, hn, rfl⟩ := List.mem_map.1 ha
    exact h3 n hn

end Verif
