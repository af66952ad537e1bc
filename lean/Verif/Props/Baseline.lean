import Verif.Spec.Baseline
import Verif.Props.Pipeline
import Verif.Props.Evaluation

/-! # The baseline: one tag for all words -/

namespace Verif

theorem posLabels_allTokens (docs : List Document) : posLabels docs = (allTokens docs).map Token.pos := by
  simp [posLabels, datasetTokens, List.map_flatMap, Document.textTokens, Function.comp_def, allTokens]

theorem AllTaggedAs.tokens {q : Option Pos} {gold out : List Document} (h : AllTaggedAs q gold out) :
    (allTokens out).length = (allTokens gold).length ∧ ∀ t ∈ allTokens out, t.pos = q := by
  unfold allTokens
  induction h with
  | nil => simp
  | cons a _ ih =>
    simp only [List.flatMap_cons, List.length_append, List.mem_append]
    refine ⟨by rw [a.1, ih.1], ?_⟩
    rintro t (ht | ht)
    · exact a.2 t ht
    · exact ih.2 t ht

/-- How often one tag for all words is right. -/
theorem rightTags_uniform {q : Option Pos} {gold out : List Document} (h : AllTaggedAs q gold out) :
    rightTags gold out = occurrences Token.optPosEq q (posLabels gold) := by
  obtain ⟨h1, h2⟩ := h.tokens
  rw [rightTags, posLabels_allTokens, occurrences]
  generalize allTokens gold = a at *
  generalize allTokens out = b at *
  clear h
  induction a generalizing b with
  | nil => simp
  | cons x a ih =>
    cases b with
    | nil => simp at h1
    | cons y b =>
      have hy : y.pos = q := h2 y (by simp)
      simp only [List.zip_cons_cons, List.countP_cons, List.map_cons]
      rw [ih b (fun t ht => h2 t (List.mem_cons_of_mem _ ht)) (by simpa using h1), hy]
      have : Token.optPosEq x.pos q = Token.optPosEq q x.pos := by
        rw [Bool.eq_iff_iff]
        exact ⟨optPosEq_rel.symm _ _, optPosEq_rel.symm _ _⟩
      rw [this]

/-- Documents without annotation have as many words. -/
theorem blind_lengths {docs blind : List Document} (hb : ∀ d ∈ docs, Built d) (h : prepareTestData docs = .ok blind) :
    List.Forall₂ (fun d b : Document => Built b ∧ b.text = d.text ∧
      List.Forall₂ (fun t u : Token => u.start = t.start ∧ u.stop = t.stop ∧ u.sub = t.sub ∧ u.repl = t.repl)
        d.tokens b.tokens) docs blind := by
  obtain ⟨out, h1, h2⟩ := C53_blind hb
  rw [h] at h1
  injection h1 with h1
  subst h1
  exact h2.imp fun d o g => ⟨g.1, g.2.1, g.2.2.2.imp fun t u k => ⟨k.1, k.2.1, k.2.2.1, k.2.2.2.1⟩⟩

theorem lemma_texts (text : Str) {pos : Option Pos} {ts bs us : List Token}
    (ht : List.Forall₂ (fun t u : Token => u.start = t.start ∧ u.stop = t.stop ∧ u.sub = t.sub ∧ u.repl = t.repl) ts bs)
    (hu : List.Forall₂ (fun a b : Token => b.pos = pos ∧ b.lemma' = some (tokText text a)) bs us) :
    List.Forall₂ (fun t u : Token => u.lemma' = some (tokText text t)) ts us := by
  induction ht generalizing us with
  | nil => cases hu; exact .nil
  | cons k _ ih =>
    cases hu with
    | cons g hu =>
      refine .cons ?_ (ih hu)
      rw [g.2]
      simp only [tokText, docText, k.1, k.2.1, k.2.2.2]

theorem lemma_count (text : Str) {ts us : List Token}
    (h : List.Forall₂ (fun t u : Token => u.lemma' = some (tokText text t)) ts us) :
    (ts.zip us).countP (fun p => p.1.lemma' = p.2.lemma') = ts.countP fun t => t.lemma' = some (tokText text t) := by
  induction h with
  | nil => rfl
  | cons k _ ih => simp only [List.zip_cons_cons, List.countP_cons, ih, k]

/-- What the tagger gives for the documents without annotation. -/
theorem stub_answers {docs blind : List Document} (hb : ∀ d ∈ docs, Built d) (h : prepareTestData docs = .ok blind)
    (pos : Option Pos) : ∃ outs, stubTagAll pos blind = .ok outs ∧ AllTaggedAs pos docs outs ∧
      List.Forall₂ (fun d e : Document => List.Forall₂ (fun t u : Token => u.lemma' = some (tokText d.text t))
        d.tokens e.tokens) docs outs := by
  have h1 := blind_lengths hb h
  have hbb : ∀ b ∈ blind, Built b := by
    intro b hm
    obtain ⟨i, hi, e⟩ := List.getElem_of_mem hm
    have := (List.forall₂_iff_get.mp h1).2 i (h1.length_eq ▸ hi) hi
    simp only [List.get_eq_getElem, e] at this
    exact this.1
  obtain ⟨outs, h2, h3⟩ := C61_tagger pos blind hbb
  refine ⟨outs, h2, ?_, ?_⟩
  · clear h h2 hb hbb
    unfold AllTaggedAs
    induction h1 generalizing outs with
    | nil => cases h3; exact .nil
    | cons a _ ih =>
      cases h3 with
      | cons b h3 =>
        refine .cons ⟨?_, ?_⟩ (ih _ h3)
        · rw [← b.2.length_eq, ← a.2.2.length_eq]
        · intro t ht
          obtain ⟨i, hi, e⟩ := List.getElem_of_mem ht
          have := (List.forall₂_iff_get.mp b.2).2 i (b.2.length_eq ▸ hi) hi
          simp only [List.get_eq_getElem, e] at this
          exact this.1
  · clear h h2 hb hbb
    induction h1 generalizing outs with
    | nil => cases h3; exact .nil
    | cons a _ ih =>
      cases h3 with
      | cons b h3 =>
        refine .cons ?_ (ih _ h3)
        obtain ⟨_, hx, ht⟩ := a
        have hb2 := b.2
        rw [hx] at hb2
        exact lemma_texts _ ht hb2

/-- C169: on the documents it was trained on, given without annotation, the stub tagger answers, and no tagger that gives
all words one tag is right about more tags. -/
theorem C169_best_partial (docs : List Document) (hb : ∀ d ∈ docs, Built d) {blind : List Document}
    (hblind : prepareTestData docs = .ok blind) {taggers : List (Option Pos)} (h : stubTrain docs = .ok taggers) :
    ∃ pos outs, taggers = [pos] ∧ stubTagAll pos blind = .ok outs ∧
      ∀ q others, AllTaggedAs q docs others → rightTags docs others ≤ rightTags docs outs := by
  rcases C61_trainer docs with ⟨_, he⟩ | ⟨pos, pre, post, h1, h2, h3, h4⟩
  · rw [h] at he; cases he
  rw [h1] at h
  injection h with h
  obtain ⟨outs, g1, g2, _⟩ := stub_answers hb hblind pos
  refine ⟨pos, outs, h.symm, g1, ?_⟩
  intro q others hq
  rw [rightTags_uniform hq, rightTags_uniform g2]
  by_cases hz : occurrences Token.optPosEq q (posLabels docs) = 0
  · omega
  · obtain ⟨r, hr1, hr2⟩ := List.countP_pos_iff.1 (Nat.pos_of_ne_zero hz)
    rw [occurrences_congr optPosEq_rel hr2]
    exact h3 r hr1

/-- C169: the tags that are right are at least one share of as many equal shares as there are different tags. -/
theorem C169_share (docs : List Document) (hb : ∀ d ∈ docs, Built d) {blind : List Document}
    (hblind : prepareTestData docs = .ok blind) {pos : Option Pos} (h : stubTrain docs = .ok [pos]) {outs : List Document}
    (ho : stubTagAll pos blind = .ok outs) (tags : List (Option Pos)) (ht : TagsAmong tags docs) :
    (allTokens docs).length ≤ tags.length * rightTags docs outs := by
  rcases C61_trainer docs with ⟨_, he⟩ | ⟨pos', pre, post, h1, h2, h3, h4⟩
  · rw [h] at he; cases he
  rw [h1] at h
  injection h with h
  injection h with h _
  subst h
  obtain ⟨outs', g1, g2, _⟩ := stub_answers hb hblind pos'
  rw [ho] at g1
  injection g1 with g1
  subst g1
  rw [rightTags_uniform g2]
  have hle : ∀ q, occurrences Token.optPosEq q (posLabels docs) ≤ occurrences Token.optPosEq pos' (posLabels docs) := by
    intro q
    by_cases hz : occurrences Token.optPosEq q (posLabels docs) = 0
    · omega
    · obtain ⟨r, hr1, hr2⟩ := List.countP_pos_iff.1 (Nat.pos_of_ne_zero hz)
      rw [occurrences_congr optPosEq_rel hr2]
      exact h3 r hr1
  have key : ∀ (tags : List (Option Pos)) (l : List (Option Pos)),
      (∀ x ∈ l, ∃ q ∈ tags, Token.optPosEq q x = true) →
      l.length ≤ (tags.map fun q => occurrences Token.optPosEq q l).sum := by
    intro tags l
    induction l with
    | nil => intro _; simp
    | cons x l ih =>
      intro hx
      have i1 := ih (fun y hy => hx y (List.mem_cons_of_mem _ hy))
      obtain ⟨q, hq, hqx⟩ := hx x (by simp)
      have : (tags.map fun q => occurrences Token.optPosEq q (x :: l)).sum =
          (tags.map fun q => occurrences Token.optPosEq q l).sum + tags.countP (fun q => Token.optPosEq q x) := by
        clear i1 ih hx hq
        induction tags with
        | nil => simp
        | cons a tags ih =>
          rw [List.map_cons, List.sum_cons, ih, List.map_cons, List.sum_cons, List.countP_cons, occurrences,
            List.countP_cons, occurrences]
          omega
      rw [this, List.length_cons]
      have : 0 < tags.countP (fun q => Token.optPosEq q x) := List.countP_pos_iff.2 ⟨q, hq, hqx⟩
      omega
  have hk := key tags (posLabels docs) (by
    intro x hx
    rw [posLabels_allTokens] at hx
    obtain ⟨t, hm, rfl⟩ := List.mem_map.1 hx
    exact ht t hm)
  rw [posLabels_allTokens, List.length_map, ← posLabels_allTokens] at hk
  refine hk.trans ?_
  clear hk ht
  induction tags with
  | nil => simp
  | cons a tags ih =>
    simp only [List.map_cons, List.sum_cons, List.length_cons, Nat.add_mul, Nat.one_mul]
    have := hle a
    omega

/-- C169: if all words of the training data have equal tags, the stub tagger makes no mistake on it. -/
theorem C169_single (docs : List Document) (hb : ∀ d ∈ docs, Built d) {blind : List Document}
    (hblind : prepareTestData docs = .ok blind) {pos : Option Pos} (h : stubTrain docs = .ok [pos]) {outs : List Document}
    (ho : stubTagAll pos blind = .ok outs) (q : Option Pos) (ht : TagsAmong [q] docs) :
    rightTags docs outs = (allTokens docs).length := by
  have h1 := C169_share docs hb hblind h ho [q] ht
  have h2 : rightTags docs outs ≤ (allTokens docs).length := by
    unfold rightTags
    refine List.countP_le_length.trans ?_
    rw [List.length_zip]
    omega
  simp only [List.length_singleton, Nat.one_mul] at h1
  omega

/-- C169: on any documents given without annotation the stub tagger is right about the lemmas of exactly those words whose
lemma is their text. -/
theorem C169_lemmas (docs : List Document) (hb : ∀ d ∈ docs, Built d) {blind : List Document}
    (hblind : prepareTestData docs = .ok blind) (pos : Option Pos) {outs : List Document}
    (ho : stubTagAll pos blind = .ok outs) :
    rightLemmas docs outs = (docs.map fun d => d.tokens.countP fun t => t.lemma' = some (tokText d.text t)).sum := by
  obtain ⟨outs', g1, g2, g3⟩ := stub_answers hb hblind pos
  rw [ho] at g1
  injection g1 with g1
  subst g1
  clear g2 ho hblind hb
  unfold rightLemmas allTokens
  induction g3 with
  | nil => rfl
  | cons a _ ih =>
    rw [List.flatMap_cons, List.flatMap_cons, List.zip_append a.length_eq, List.countP_append, ih,
      List.map_cons, List.sum_cons]
    congr 1
    exact lemma_count _ a

namespace Demo

/-- A tag with one feature. -/
def featTag (u f v : Str) : Option Pos := some ⟨some u, none, Dict.ofList [(f, v)]⟩

/-- Three nouns in different cases, of which one has its text as lemma, and two verbs. -/
def nounsAndVerbs : Document :=
  ⟨"abcde".toList,
   [{ start := 0, stop := 1, pos := featTag ['N'] ['c'] ['1'], lemma' := some ['a'] },
    { start := 1, stop := 2, pos := featTag ['V'] ['t'] ['1'] },
    { start := 2, stop := 3, pos := featTag ['N'] ['c'] ['2'], lemma' := some ['a'] },
    { start := 3, stop := 4, pos := featTag ['V'] ['t'] ['1'] },
    { start := 4, stop := 5, pos := featTag ['N'] ['c'] ['3'] }], [⟨0, 5, by decide⟩]⟩

/-- The same words, all of them tagged as nouns. -/
def onlyNouns : Document :=
  ⟨"abcde".toList,
   [{ start := 0, stop := 1, pos := featTag ['N'] ['c'] ['1'] }, { start := 1, stop := 2, pos := featTag ['N'] ['c'] ['1'] },
    { start := 2, stop := 3, pos := featTag ['N'] ['c'] ['1'] }, { start := 3, stop := 4, pos := featTag ['N'] ['c'] ['1'] },
    { start := 4, stop := 5, pos := featTag ['N'] ['c'] ['1'] }], [⟨0, 5, by decide⟩]⟩

end Demo

example : Built Demo.nounsAndVerbs := ⟨Demo.nounsAndVerbs.text, Demo.nounsAndVerbs.tokens, some Demo.nounsAndVerbs.sentences, false, by rfl⟩

/-- C169 is false for the universal tags: the tag that is most frequent as a whole need not have the most frequent
universal tag.  Of three nouns in different cases and two verbs the stub tagger takes the verb, and is right about two
universal tags where three would be possible. -/
theorem C169_upos_refuted : ∃ docs blind pos outs q others, (∀ d ∈ docs, Built d) ∧ prepareTestData docs = .ok blind ∧
    stubTrain docs = .ok [pos] ∧ stubTagAll pos blind = .ok outs ∧ AllTaggedAs q docs others ∧
    rightUpos docs outs = 2 ∧ rightUpos docs others = 3 := by
  refine ⟨[Demo.nounsAndVerbs], _, _, _, Demo.featTag ['N'] ['c'] ['1'], [Demo.onlyNouns], ?_, rfl, rfl, rfl, ?_, ?_, ?_⟩
  · intro d hd
    rw [List.mem_singleton.1 hd]
    exact ⟨Demo.nounsAndVerbs.text, Demo.nounsAndVerbs.tokens, some Demo.nounsAndVerbs.sentences, false, by rfl⟩
  · exact .cons ⟨rfl, by decide +kernel⟩ .nil
  · decide +kernel
  · decide +kernel

example : ∃ blind pos outs, prepareTestData [Demo.nounsAndVerbs] = .ok blind ∧
    stubTrain [Demo.nounsAndVerbs] = .ok [pos] ∧ stubTagAll pos blind = .ok outs ∧
    rightTags [Demo.nounsAndVerbs] outs = 2 ∧ rightTags [Demo.nounsAndVerbs] [Demo.onlyNouns] = 1 ∧
    rightLemmas [Demo.nounsAndVerbs] outs = 1 :=
  ⟨_, _, _, rfl, rfl, rfl, by decide +kernel, by decide +kernel, by decide +kernel⟩

end Verif
