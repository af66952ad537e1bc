import Verif.Props.Vocabulary
import Verif.Props.Layers

/-! # C157: what the training data says about scores -/

namespace Verif

/-- `lemma'` is made of `word` as `lemma₀` of `word₀`: behind a beginning that is kept the same ending is exchanged, or both words and both
lemmas are the same. -/
def InflectedAlike (word lemma' word₀ lemma₀ : Str) : Prop :=
  (∃ stem stem₀ a b, stem ≠ [] ∧ stem₀ ≠ [] ∧ word = stem ++ a ∧ lemma' = stem ++ b ∧ word₀ = stem₀ ++ a ∧ lemma₀ = stem₀ ++ b ∧
    ∀ c, a.head? = some c → b.head? ≠ some c) ∨ (word = word₀ ∧ lemma' = lemma₀)

/-- The texts of the words of documents. -/
def allForms (docs : List Document) : List Str := docs.flatMap fun d => d.tokens.map (tokText d.text)

theorem sameCount_le_known {α : Type} [DecidableEq α] {a b S : List α} [DecidablePred (· ∈ S)] (h : ∀ y ∈ b, y ∈ S) :
    sameCount a b ≤ (a.filter (· ∈ S)).length := by
  unfold sameCount
  induction a generalizing b with
  | nil => simp
  | cons x a ih =>
    cases b with
    | nil => simp
    | cons y b =>
      have := ih (b := b) (fun z hz => h z (List.mem_cons_of_mem _ hz))
      rw [List.zip_cons_cons, List.filter_cons, List.filter_cons]
      by_cases hxy : x = y
      · subst hxy
        have hx := h x List.mem_cons_self
        simp only [decide_true, if_true, hx, List.length_cons]
        omega
      · simp only [hxy, decide_false, Bool.false_eq_true, if_false]
        split
        · rw [List.length_cons]; omega
        · omega

theorem sameCount_le_possible {α β : Type} [DecidableEq β] {P : α → β → Prop} [DecidablePred fun x : α × β => P x.1 x.2]
    {forms : List α} {a b : List β} (h : List.Forall₂ P forms b) :
    sameCount a b ≤ ((forms.zip a).filter fun x => decide (P x.1 x.2)).length := by
  unfold sameCount
  induction h generalizing a with
  | nil => simp
  | cons hp hrest ih =>
    rename_i f y forms b
    cases a with
    | nil => simp
    | cons x a =>
      have := ih (a := a)
      rw [List.zip_cons_cons, List.zip_cons_cons, List.filter_cons, List.filter_cons]
      by_cases hxy : x = y
      · subst hxy
        simp only [decide_true, if_true, hp, List.length_cons]
        omega
      · simp only [hxy, decide_false, Bool.false_eq_true, if_false]
        split
        · rw [List.length_cons]; omega
        · omega

section
variable {F : Type} (lower : Str → Str) (float : Str → Res F) (zero : F) (other : TextToken) (seen : Seen)
  (ps : List Provider) (net : Features → Res Features)

/-- What is common to the two theorems about scores. -/
theorem unseen_setting (dataset : List Document)
    (hin : ∀ s ∈ leafSpecs ps, ∀ g ∈ seen s, g ∈ dataset) {depth : Nat} {text : Str} {docs blind pred : List Document} {ud : UD}
    (hr : '\r' ∉ text) (hc : CommentsPlain text) (h1 : readFromStr 1 defaultCols text = .ok (docs, none))
    (h2 : loadConllu depth text = .ok ud) (hd : 2 ≤ depth) (hblind : prepareTestData docs = .ok blind)
    (ht : mapM' (trainedTag lower float zero other seen ps net) blind = .ok pred) (hne : ∀ e ∈ pred, e.tokens ≠ []) :
    List.Forall₂ (fun d e : Document => ∃ o, Built o ∧ o.text = d.text ∧
      trainedTag lower float zero other seen ps net o = .ok e ∧
      List.Forall₂ (fun t u : Token => tokText o.text u = tokText d.text t) d.tokens o.tokens ∧
      o.tokens.length = e.tokens.length) docs pred := by
  obtain ⟨v1, v2, _⟩ := read_again hr hc h1 h2
  obtain ⟨out, hout, hb⟩ := C53_blind (fun d hd => (v1 d hd).built)
  rw [hblind] at hout
  injection hout with hout
  subst hout
  have hm := (mapM'_ok_iff).1 ht
  rw [forall₂_getElem?] at hm hb ⊢
  refine ⟨hb.1.trans hm.1, fun k d e hk he => ?_⟩
  have hlt := (List.getElem?_eq_some_iff.1 he).1
  rw [← hm.1] at hlt
  have ho := List.getElem?_eq_getElem hlt
  obtain ⟨b0, b1, _, b3⟩ := hb.2 k d _ hk ho
  have htag := hm.2 k _ e ho he
  obtain ⟨_, hret, _⟩ := trained_said hin b0 htag (hne e (List.mem_of_getElem? he))
  refine ⟨blind[k], b0, b1, htag, b3.imp fun t u h => ?_, hret.tokens.length_eq⟩
  rw [tokText, tokText, docText, docText, b1, h.1, h.2.1, h.2.2.2.1]

/-- C157: whatever the network does, a value of a tag that no word of the training data has is never right.  So the number of right
UPOS is at most the number of words whose UPOS occurs in the training data, and likewise XPOS; Feats unless features are predicted one by one;
whole tags if they are predicted as a whole. -/
theorem C157_tags (dataset : List Document)
    (hin : ∀ s ∈ leafSpecs ps, ∀ g ∈ seen s, g ∈ dataset) {depth : Nat} {text : Str} {docs blind pred : List Document} {ud : UD}
    (hr : '\r' ∉ text) (hc : CommentsPlain text) (h1 : readFromStr 1 defaultCols text = .ok (docs, none))
    (h2 : loadConllu depth text = .ok ud) (hd : 2 ≤ depth)
    (hdata : ∀ g ∈ dataset, ∀ t ∈ g.tokens, TokenPlain g.text t) (hlower : ∀ s, Plain s → Plain (lower s))
    (hclear : ∀ p ∈ ps, p.clear dataset) (hcut : ∀ p ∈ ps, p.cuts) (hblind : prepareTestData docs = .ok blind)
    (ht : mapM' (trainedTag lower float zero other seen ps net) blind = .ok pred) (hne : ∀ e ∈ pred, e.tokens ≠ [])
    (htag : ∃ p ∈ ps, p.tags) :
    ∃ table, testFile lower depth text (mapM' (trainedTag lower float zero other seen ps net)) = .ok table ∧
      ∀ name cols (f : Token → List Str), (name, cols, f) ∈ fileMetrics → name ≠ "Lemmas".toList →
        (name = "Feats".toList → ∀ n, Provider.posDict n .gran ∉ ps) →
        (name = "AllTags".toList → ∀ n s, Provider.posDict n s ∈ ps → s = .joint) →
        ∃ s c, table.get? name = some s ∧
          IsScore s (allTokens docs).length (allTokens docs).length (c : Nat) (some (allTokens docs).length) ∧
          c ≤ ((columnValues cols ud).filter (· ∈ (allTokens dataset).map f)).length := by
  obtain ⟨table, g1, g2⟩ := C135_scores lower float zero other seen ps net dataset hin hr hc h1 h2 hd hdata hlower hclear hcut hblind ht hne
  refine ⟨table, g1, ?_⟩
  intro name cols f hf hlem hfeats hall
  obtain ⟨s, s1, s2⟩ := g2 name cols f hf
  refine ⟨s, _, s1, s2, sameCount_le_known ?_⟩
  intro y hy
  obtain ⟨u, hu, rfl⟩ := List.mem_map.1 hy
  obtain ⟨e, he, hue⟩ := List.mem_flatMap.1 hu
  obtain ⟨d, _, o, ho, _, hto, _⟩ := forall₂_mem_right
    (unseen_setting lower float zero other seen ps net dataset hin hr hc h1 h2 hd hblind ht hne) he
  obtain ⟨p, hp, hfrom⟩ := C135_tag lower float zero other seen ps net dataset hin o e ho hto htag hclear u hue
  have hlab : ∀ q, q ∈ posLabels dataset → ∃ t ∈ allTokens dataset, t.pos = q := by
    intro q hq
    obtain ⟨t, ht, rfl⟩ := List.mem_map.1 hq
    obtain ⟨g, hg, ht⟩ := List.mem_flatMap.1 ht
    obtain ⟨x, hx, rfl⟩ := List.mem_map.1 ht
    exact ⟨x, List.mem_flatMap.2 ⟨g, hg, hx⟩, rfl⟩
  rw [List.mem_map]
  cases p with
  | posDict n sp =>
    replace hfrom : TagOf (posLabels dataset) sp u.pos := hfrom
    simp only [fileMetrics, List.mem_cons, Prod.mk.injEq, List.not_mem_nil, or_false] at hf
    cases sp with
    | joint =>
      obtain ⟨t, t1, t2⟩ := hlab _ hfrom
      refine ⟨t, t1, ?_⟩
      rcases hf with ⟨_, _, rfl⟩ | ⟨_, _, rfl⟩ | ⟨_, _, rfl⟩ | ⟨_, _, rfl⟩ | ⟨rfl, _⟩
      · simp only [t2]
      · simp only [t2]
      · simp only [writtenFeats, t2]
      · simp only [writtenFeats, t2]
      · exact absurd rfl hlem
    | xf =>
      cases hq : u.pos with
      | none => rw [hq] at hfrom; exact hfrom.elim
      | some q =>
        rw [hq] at hfrom
        obtain ⟨⟨p1, a1, a2⟩, p2, a3, a4, a5⟩ := hfrom
        rcases hf with ⟨_, _, rfl⟩ | ⟨_, _, rfl⟩ | ⟨_, _, rfl⟩ | ⟨rfl, _, rfl⟩ | ⟨rfl, _⟩
        · obtain ⟨t, t1, t2⟩ := hlab _ a1
          exact ⟨t, t1, by simp only [t2, hq, Option.bind_some, a2]⟩
        · obtain ⟨t, t1, t2⟩ := hlab _ a3
          exact ⟨t, t1, by simp only [t2, hq, Option.bind_some, a4]⟩
        · obtain ⟨t, t1, t2⟩ := hlab _ a3
          exact ⟨t, t1, by simp only [writtenFeats, t2, hq, featsText_same a5]⟩
        · exact absurd (hall rfl n _ hp) (by simp)
        · exact absurd rfl hlem
    | uxf =>
      cases hq : u.pos with
      | none => rw [hq] at hfrom; exact hfrom.elim
      | some q =>
        rw [hq] at hfrom
        obtain ⟨⟨p1, a1, a2⟩, ⟨p2, a3, a4⟩, p3, a5, a6⟩ := hfrom
        rcases hf with ⟨_, _, rfl⟩ | ⟨_, _, rfl⟩ | ⟨_, _, rfl⟩ | ⟨rfl, _, rfl⟩ | ⟨rfl, _⟩
        · obtain ⟨t, t1, t2⟩ := hlab _ a1
          exact ⟨t, t1, by simp only [t2, hq, Option.bind_some, a2]⟩
        · obtain ⟨t, t1, t2⟩ := hlab _ a3
          exact ⟨t, t1, by simp only [t2, hq, Option.bind_some, a4]⟩
        · obtain ⟨t, t1, t2⟩ := hlab _ a5
          exact ⟨t, t1, by simp only [writtenFeats, t2, hq, featsText_same a6]⟩
        · exact absurd (hall rfl n _ hp) (by simp)
        · exact absurd rfl hlem
    | gran =>
      cases hq : u.pos with
      | none => rw [hq] at hfrom; exact hfrom.elim
      | some q =>
        rw [hq] at hfrom
        obtain ⟨⟨p1, a1, a2⟩, ⟨p2, a3, a4⟩, _⟩ := hfrom
        rcases hf with ⟨_, _, rfl⟩ | ⟨_, _, rfl⟩ | ⟨rfl, _, rfl⟩ | ⟨rfl, _, rfl⟩ | ⟨rfl, _⟩
        · obtain ⟨t, t1, t2⟩ := hlab _ a1
          exact ⟨t, t1, by simp only [t2, hq, Option.bind_some, a2]⟩
        · obtain ⟨t, t1, t2⟩ := hlab _ a3
          exact ⟨t, t1, by simp only [t2, hq, Option.bind_some, a4]⟩
        · exact absurd hp (hfeats rfl n)
        · exact absurd (hall rfl n _ hp) (by simp)
        · exact absurd rfl hlem
  | _ => exact hfrom.elim

open Classical in
/-- C157: whatever the network does, the number of right lemmas is at most the number of words for which the gold lemma can be had from the
training data: it is a lemma of the training data, or differs from the lower-cased word in an ending that is exchanged in the training data (or
in nothing), or is made of segments of lemmas of the training data; which of these is up to the label provider. -/
theorem C157_lemmas (dataset : List Document)
    (hin : ∀ s ∈ leafSpecs ps, ∀ g ∈ seen s, g ∈ dataset) {depth : Nat} {text : Str} {docs blind pred : List Document} {ud : UD}
    (hr : '\r' ∉ text) (hc : CommentsPlain text) (h1 : readFromStr 1 defaultCols text = .ok (docs, none))
    (h2 : loadConllu depth text = .ok ud) (hd : 2 ≤ depth)
    (hdata : ∀ g ∈ dataset, ∀ t ∈ g.tokens, TokenPlain g.text t) (hlower : ∀ s, Plain s → Plain (lower s))
    (hclear : ∀ p ∈ ps, p.clear dataset) (hcut : ∀ p ∈ ps, p.cuts) (hblind : prepareTestData docs = .ok blind)
    (ht : mapM' (trainedTag lower float zero other seen ps net) blind = .ok pred) (hne : ∀ e ∈ pred, e.tokens ≠ [])
    (hlem : ∃ p ∈ ps, p.lemmas) :
    ∃ table s c, testFile lower depth text (mapM' (trainedTag lower float zero other seen ps net)) = .ok table ∧
      table.get? "Lemmas".toList = some s ∧
      IsScore s (allTokens docs).length (allTokens docs).length (c : Nat) (some (allTokens docs).length) ∧
      c ≤ (((allForms docs).zip (columnValues [colLEMMA] ud)).filter fun x =>
        decide (∃ p ∈ ps, ∃ l, p.lemmaFrom lower dataset x.1 l ∧ x.2 = [l.getD "_".toList])).length := by
  obtain ⟨table, g1, g2⟩ := C135_scores lower float zero other seen ps net dataset hin hr hc h1 h2 hd hdata hlower hclear hcut hblind ht hne
  obtain ⟨s, s1, s2⟩ := g2 "Lemmas".toList [colLEMMA] (fun t => [t.lemma'.getD underscore])
    (by simp only [fileMetrics, List.mem_cons, Prod.mk.injEq, List.not_mem_nil, or_false]; tauto)
  refine ⟨table, s, _, g1, s1, s2, ?_⟩
  have hset := unseen_setting lower float zero other seen ps net dataset hin hr hc h1 h2 hd hblind ht hne
  have hpair : List.Forall₂ (fun form (y : List Str) => ∃ p ∈ ps, ∃ l, p.lemmaFrom lower dataset form l ∧ y = [l.getD "_".toList])
      (allForms docs) ((allTokens pred).map fun t => [t.lemma'.getD underscore]) := by
    unfold allForms allTokens
    clear g1 g2 s1 s2 s table ht hblind hc h1 h2 hne
    induction hset with
    | nil => exact .nil
    | cons h _ ih =>
      rename_i d e _ _ _
      obtain ⟨o, ho, _, hto, hw, hlen⟩ := h
      rw [List.flatMap_cons, List.flatMap_cons, List.map_append]
      refine List.rel_append ?_ ih
      rw [List.forall₂_map_left_iff, List.forall₂_map_right_iff, forall₂_getElem?]
      refine ⟨hw.length_eq.trans hlen, ?_⟩
      intro j t u hj hu
      have hjl : j < o.tokens.length := by
        rw [hlen]; exact (List.getElem?_eq_some_iff.1 hu).1
      have hoj := List.getElem?_eq_getElem hjl
      have hform := ((forall₂_getElem?).1 hw).2 j _ _ hj hoj
      obtain ⟨p, hp, hfrom⟩ := C135_lemma lower float zero other seen ps net dataset hin o e ho hto hlem j _ u hoj hu
      rw [hform] at hfrom
      exact ⟨p, hp, u.lemma', hfrom, rfl⟩
  exact sameCount_le_possible hpair

end

theorem commonStart_stem (stem a b : Str) (h : ∀ c, a.head? = some c → b.head? ≠ some c) :
    commonStart (stem ++ a) (stem ++ b) = stem.length := by
  induction stem with
  | nil =>
    cases a with
    | nil => simp [commonStart]
    | cons x a =>
      cases b with
      | nil => simp [commonStart]
      | cons y b =>
        have := h x rfl
        simp only [List.head?_cons, ne_eq, Option.some.injEq] at this
        simp [commonStart, Ne.symm this]
  | cons x stem ih => simp [commonStart, ih]

/-- Words that are inflected alike have the same rule. -/
theorem rule_alike {w l w₀ l₀ : Str} (h : InflectedAlike w l w₀ l₀) : LemmaRule.getRule w l = LemmaRule.getRule w₀ l₀ := by
  rcases h with ⟨p, q, a, b, hp, hq, rfl, rfl, rfl, rfl, hab⟩ | ⟨rfl, rfl⟩
  · unfold LemmaRule.getRule
    rw [commonStart_stem p a b hab, commonStart_stem q a b hab]
    have e1 : decide (p.length = 0) = decide (q.length = 0) := by
      have := List.length_pos_of_ne_nil hp
      have := List.length_pos_of_ne_nil hq
      rw [decide_eq_false (by omega), decide_eq_false (by omega)]
    simp_all [List.length_eq_zero_iff]
  · rfl

/-- C157, the converse for suffix rules: if more than `threshold` words of the training data (at least one) are inflected as a word and its lemma,
there are scores of the network with which the tagger gives the word this lemma, lower-cased, whether it has seen the word or not. -/
theorem C157_reachable (lower : Str → Str) (threshold : Int) (train : List Document)
    (rules : List LemmaRule) (hb : buildRules lower threshold train = .ok rules)
    (argmax : List Rat → Nat) (ha : TakesMax argmax) (t : TextToken) (gold : Str)
    (same : List TextToken) (hsub : same.Sublist (datasetTokens train)) (hne : same ≠ []) (hcount : threshold < same.length)
    (halike : ∀ t₀ ∈ same, ∃ l₀, t₀.2.lemma' = some l₀ ∧ InflectedAlike (lower t.1) (lower gold) (lower t₀.1) (lower l₀)) :
    ∃ logits, logits.length = rules.length ∧
      lemmatize lower rules argmax logits t = .ok { t.2 with lemma' := some (lower gold) } := by
  obtain ⟨all, hall, hid⟩ := buildRules_ok hb
  have hspec := id2obj_spec ruleEq_rel hid
  have hm := mapM'_ok_iff.1 hall
  have hcnt : (same.length : Int) ≤ occurrences LemmaRule.pyEq (LemmaRule.getRule (lower t.1) (lower gold)) all := by
    have key : ∀ {same ts : List TextToken} {all : List LemmaRule}, same.Sublist ts →
        List.Forall₂ (fun t r => suffixRule lower t = .ok r) ts all →
        (∀ t₀ ∈ same, ∃ l₀, t₀.2.lemma' = some l₀ ∧ InflectedAlike (lower t.1) (lower gold) (lower t₀.1) (lower l₀)) →
        same.length ≤ occurrences LemmaRule.pyEq (LemmaRule.getRule (lower t.1) (lower gold)) all := by
      intro same ts all hs
      induction hs generalizing all with
      | slnil => intro _ _; simp
      | cons x _ ih =>
        intro hf hk
        cases hf with
        | cons _ h' =>
          have := ih h' hk
          unfold occurrences at this ⊢
          rw [List.countP_cons]
          omega
      | cons_cons x _ ih =>
        intro hf hk
        cases hf with
        | cons h h' =>
          have := ih h' (fun t₀ h₀ => hk t₀ (List.mem_cons_of_mem _ h₀))
          obtain ⟨l₀, k1, k2⟩ := hk x List.mem_cons_self
          unfold suffixRule at h
          rw [k1] at h
          injection h with h
          unfold occurrences at this ⊢
          rw [List.countP_cons, ← h, ← rule_alike k2, (ruleEq_iff _ _).2 rfl, if_pos rfl, List.length_cons]
          omega
    exact_mod_cast key hsub hm halike
  obtain ⟨t₀, ht₀⟩ := List.exists_mem_of_ne_nil same hne
  have hpos : 0 < occurrences LemmaRule.pyEq (LemmaRule.getRule (lower t.1) (lower gold)) all := by
    have := List.length_pos_of_ne_nil hne
    omega
  have hin : LemmaRule.getRule (lower t.1) (lower gold) ∈ all := by
    unfold occurrences at hpos
    obtain ⟨r, hr, he⟩ := List.countP_pos_iff.1 hpos
    rw [(ruleEq_iff _ _).1 he]
    exact hr
  obtain ⟨y, hy, hye⟩ := (hspec.covers _ hin).2 (.inr (.inr (by omega)))
  rw [(ruleEq_iff _ _).1 hye] at hy
  obtain ⟨j, hj⟩ := List.mem_iff_getElem?.1 hy
  have hjl := (List.getElem?_eq_some_iff.1 hj).1
  refine ⟨(List.replicate rules.length (0 : Rat)).set j 1, by simp, ?_⟩
  refine C96_gold lower threshold train rules hb argmax ha _ (by simp) t gold j 1 hj ?_ ?_ ?_
  · simp [List.getElem?_set, hjl]
  · unfold leastFloat; norm_num
  · intro k rk z hkj _ _ hz
    rw [List.getElem?_set_ne (Ne.symm hkj)] at hz
    rw [List.getElem?_replicate] at hz
    split at hz
    · injection hz with hz; subst hz; norm_num
    · cases hz

namespace Demo

/-- A tagger is trained on the second document of the file of letters only. -/
def shortSeen : Seen := fun _ => [letterDoc2]

/-- Every word gets the first lemma and the first values. -/
def firstNet (f : Features) : Res Features :=
  match f.get? "w".toList with
  | some v => .ok (Dict.ofList [("l".toList, eachWord (fun _ => .list [.int 0]) v),
      ("p".toList, eachWord (fun _ => .list [.int 0, .int 0, .int 0]) v)])
  | _ => .error .key

/-- The tagger that is trained on the second document tags the words of the file, and gives an answer. -/
theorem short_answers : ∃ ud blind pred, loadConllu 10 letterFile = .ok ud ∧ prepareTestData letterDocs = .ok blind ∧
    mapM' (trainedTag id float 0 (ptok 0) shortSeen letterProviders firstNet) blind = .ok pred ∧ (∀ e ∈ pred, e.tokens ≠ []) ∧
    (∀ g ∈ [letterDoc2], ∀ t ∈ g.tokens, TokenPlain g.text t) ∧ (∀ p ∈ letterProviders, p.clear [letterDoc2]) ∧
    ∀ p ∈ letterProviders, p.cuts := by
  obtain ⟨ud, hu⟩ := letterLoad
  obtain ⟨v1, v2, _⟩ := read_again (by decide +kernel) (by decide +kernel) letterRead hu
  obtain ⟨blind, hblind, _⟩ := C53_blind (fun d hd => (v1 d hd).built)
  have h : ((prepareTestData letterDocs).bind fun b => (mapM' (trainedTag id float 0 (ptok 0)
      shortSeen letterProviders firstNet) b).map fun l => l.map fun d => decide (d.tokens = [])) =
      .ok [false, false] := by decide +kernel
  rw [hblind] at h
  simp only [Except.bind] at h
  cases ht : mapM' (trainedTag id float 0 (ptok 0) shortSeen letterProviders firstNet) blind with
  | error x => rw [ht] at h; cases h
  | ok pred =>
    rw [ht] at h
    injection h with h
    refine ⟨ud, blind, pred, hu, hblind, ht, ?_, ?_, ?_, ?_⟩
    · intro e he h0
      have hm := List.mem_map_of_mem (f := fun d : Document => decide (d.tokens = [])) he
      replace h : pred.map (fun d : Document => decide (d.tokens = [])) = _ := h
      rw [h] at hm
      simp [h0] at hm
    · intro g hg
      exact (v2 g (List.mem_cons_of_mem _ hg)).plain
    · intro p hp
      simp only [letterProviders, List.mem_cons, List.not_mem_nil, or_false] at hp
      rcases hp with rfl | rfl | rfl
      · trivial
      · trivial
      · intro h
        cases h
    · intro p hp
      simp only [letterProviders, List.mem_cons, List.not_mem_nil, or_false] at hp
      rcases hp with rfl | rfl | rfl <;> trivial

/-- Training data for the rules: two words exchange `ies` for `y`. -/
def iesDoc : Document :=
  { text := "cities babies".toList,
    tokens := [{ start := 0, stop := 6, lemma' := some "city".toList }, { start := 7, stop := 13, lemma' := some "baby".toList }],
    sentences := [{ start := 0, stop := 2 }] }

/-- A word that is not among them. -/
def ponies : TextToken := ("ponies".toList, { start := 0, stop := 6 })

end Demo

/-- The tag of `b` does not occur in the training data, so at most two of the three words get the right one. -/
example : ∃ table s c, testFile id 10 Demo.letterFile (mapM' (trainedTag id Demo.float 0 (Demo.ptok 0) Demo.shortSeen
      Demo.letterProviders Demo.firstNet)) = .ok table ∧ table.get? "UPOS".toList = some s ∧
    IsScore s 3 3 (c : Nat) (some 3) ∧ c ≤ 2 := by
  obtain ⟨ud, blind, pred, hu, hb, ht, h1, h2, h3, h4⟩ := Demo.short_answers
  obtain ⟨table, g1, g2⟩ := C157_tags id Demo.float 0 (Demo.ptok 0) Demo.shortSeen Demo.letterProviders Demo.firstNet [Demo.letterDoc2]
    (fun _ _ _ h => h) (by decide +kernel) (by decide +kernel) Demo.letterRead hu (by decide) h2 (fun s h => h) h3 h4 hb ht h1
    ⟨_, List.mem_cons_of_mem _ (List.mem_cons_of_mem _ List.mem_cons_self), trivial⟩
  obtain ⟨s, c, s1, s2, s3⟩ := g2 _ _ _ List.mem_cons_self (by decide) (fun h => absurd h (by decide)) (fun h => absurd h (by decide))
  have hw : (loadConllu 10 Demo.letterFile).map (columnValues [colUPOS]) =
      .ok [["DET".toList], ["NOUN".toList], ["DET".toList]] := by decide +kernel
  rw [hu] at hw
  injection hw with hw
  rw [hw] at s3
  exact ⟨table, s, c, g1, s1, s2, s3.trans (by decide +kernel)⟩

/-- The lemma of `b` does not occur in the training data, so at most two of the three words get the right one. -/
example : ∃ table s c, testFile id 10 Demo.letterFile (mapM' (trainedTag id Demo.float 0 (Demo.ptok 0) Demo.shortSeen
      Demo.letterProviders Demo.firstNet)) = .ok table ∧ table.get? "Lemmas".toList = some s ∧
    IsScore s 3 3 (c : Nat) (some 3) ∧ c ≤ 2 := by
  obtain ⟨ud, blind, pred, hu, hb, ht, h1, h2, h3, h4⟩ := Demo.short_answers
  obtain ⟨table, s, c, g1, s1, s2, s3⟩ := C157_lemmas id Demo.float 0 (Demo.ptok 0) Demo.shortSeen Demo.letterProviders Demo.firstNet
    [Demo.letterDoc2] (fun _ _ _ h => h) (by decide +kernel) (by decide +kernel) Demo.letterRead hu (by decide) h2 (fun s h => h) h3 h4 hb ht
    h1 ⟨_, List.mem_cons_of_mem _ List.mem_cons_self, trivial⟩
  refine ⟨table, s, c, g1, s1, s2, s3.trans ?_⟩
  have hw : (loadConllu 10 Demo.letterFile).map (columnValues [colLEMMA]) =
      .ok [["x".toList], ["y".toList], ["x".toList]] := by decide +kernel
  rw [hu] at hw
  injection hw with hw
  have hf : allForms Demo.letterDocs = ["a".toList, "b".toList, "a".toList] := by decide +kernel
  have hy : ¬ ∃ p ∈ Demo.letterProviders, ∃ l, p.lemmaFrom id [Demo.letterDoc2] "b".toList l ∧ ["y".toList] = [l.getD "_".toList] := by
    rintro ⟨p, hp, l, hl, he⟩
    simp only [Demo.letterProviders, List.mem_cons, List.not_mem_nil, or_false] at hp
    rcases hp with rfl | rfl | rfl
    · exact hl
    · obtain ⟨t, h1, rfl⟩ := hl
      have e : (datasetTokens [Demo.letterDoc2]).map (fun t => t.2.lemma') = [some "x".toList] := by decide +kernel
      have hm := List.mem_map_of_mem (f := fun t : TextToken => t.2.lemma') h1
      rw [e, List.mem_singleton] at hm
      rw [hm] at he
      exact absurd he (by decide)
    · exact hl
  rw [hw, hf]
  exact Nat.lt_succ_iff.1 (List.length_filter_lt_length_iff_exists.2
    ⟨("b".toList, ["y".toList]), List.mem_cons_of_mem _ List.mem_cons_self, fun h => by
      simp only [decide_eq_true_eq] at h
      exact hy h⟩)

/-- `ponies` can be given the lemma `pony`, although only `cities` and `babies` are in the training data. -/
example (argmax : List Rat → Nat) (ha : TakesMax argmax) : ∃ rules logits, buildRules id 1 [Demo.iesDoc] = .ok rules ∧
    lemmatize id rules argmax logits Demo.ponies = .ok { Demo.ponies.2 with lemma' := some "pony".toList } := by
  have h : (buildRules id 1 [Demo.iesDoc]).isOk = true := by decide +kernel
  cases hb : buildRules id 1 [Demo.iesDoc] with
  | error e => rw [hb] at h; cases h
  | ok rules =>
    obtain ⟨logits, _, hl⟩ := C157_reachable id 1 [Demo.iesDoc] rules hb argmax ha Demo.ponies "pony".toList
      (datasetTokens [Demo.iesDoc]) (.refl _) (by decide +kernel) (by decide +kernel) (by
        intro t₀ ht₀
        have e : datasetTokens [Demo.iesDoc] = [("cities".toList, { start := 0, stop := 6, lemma' := some "city".toList }),
          ("babies".toList, { start := 7, stop := 13, lemma' := some "baby".toList })] := by decide +kernel
        rw [e] at ht₀
        simp only [List.mem_cons, List.not_mem_nil, or_false] at ht₀
        rcases ht₀ with rfl | rfl
        · exact ⟨_, rfl, .inl ⟨"pon".toList, "cit".toList, "ies".toList, "y".toList, by decide, by decide, by decide, by decide,
            by decide, by decide, by decide⟩⟩
        · exact ⟨_, rfl, .inl ⟨"pon".toList, "bab".toList, "ies".toList, "y".toList, by decide, by decide, by decide, by decide,
            by decide, by decide, by decide⟩⟩)
    exact ⟨rules, logits, rfl, hl⟩

end Verif
