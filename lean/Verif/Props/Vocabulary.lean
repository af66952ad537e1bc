import Verif.Proofs.Vocabulary
import Verif.Props.Tagger
import Verif.Props.Feeding
import Verif.Props.FileScore

/-! # C135: what a trained tagger can say, and that it can be evaluated -/

namespace Verif

section
variable {F : Type} (lower : Str → Str) (float : Str → Res F) (zero : F) (other : TextToken) (seen : Seen)
  (ps : List Provider) (net : Features → Res Features)

/-- C135: whatever the network answers, the tags a tagger gives are made of tags of the training data; how much of a tag
comes from one training tag is up to the splitting. -/
theorem C135_tag (dataset : List Document)
    (hin : ∀ s ∈ leafSpecs ps, ∀ g ∈ seen s, g ∈ dataset) (d e : Document) (hd : Built d)
    (h : trainedTag lower float zero other seen ps net d = .ok e)
    (htag : ∃ p ∈ ps, p.tags) (hclear : ∀ p ∈ ps, p.clear dataset) (u : Token) (hu : u ∈ e.tokens) :
    ∃ p ∈ ps, p.tagFrom dataset u.pos := by
  obtain ⟨_, _, h2⟩ := trained_said hin hd h (List.ne_nil_of_mem hu)
  obtain ⟨t, _, ht⟩ := forall₂_mem_right h2 hu
  exact ht.pos htag hclear

/-- C135: whatever the network answers, the lemma of a word is one of the training data, or made of the word in a way seen
in the training data, or made of parts of lemmas of the training data; which of these is up to the provider. -/
theorem C135_lemma (dataset : List Document)
    (hin : ∀ s ∈ leafSpecs ps, ∀ g ∈ seen s, g ∈ dataset) (d e : Document) (hd : Built d)
    (h : trainedTag lower float zero other seen ps net d = .ok e)
    (hlem : ∃ p ∈ ps, p.lemmas) (j : Nat) (t u : Token) (ht : d.tokens[j]? = some t) (hu : e.tokens[j]? = some u) :
    ∃ p ∈ ps, p.lemmaFrom lower dataset (tokText d.text t) u.lemma' := by
  obtain ⟨_, _, h2⟩ := trained_said hin hd h (List.ne_nil_of_mem (List.mem_of_getElem? hu))
  exact (((forall₂_getElem?).1 h2).2 j t u ht hu).lemma' hlem

/-- C135: nothing else about the words changes. -/
theorem C135_kept (d e : Document) (hd : Built d) (h : trainedTag lower float zero other seen ps net d = .ok e)
    (hne : e.tokens ≠ []) : Retagged d e ∧
      ((∀ p ∈ ps, ¬ p.tags) → e.tokens.map Token.pos = d.tokens.map Token.pos) ∧
      ((∀ p ∈ ps, ¬ p.lemmas) → e.tokens.map Token.lemma' = d.tokens.map Token.lemma') := by
  obtain ⟨_, h1, h2⟩ := trained_said (dataset := (leafSpecs ps).flatMap seen)
    (fun s hs g hg => List.mem_flatMap.2 ⟨s, hs, hg⟩) hd h hne
  refine ⟨h1, fun hn => ?_, fun hn => ?_⟩
  · generalize d.tokens = a at *
    generalize e.tokens = b at *
    clear hne h1
    induction h2 with
    | nil => rfl
    | cons x _ ih => rw [List.map_cons, List.map_cons, x.posKept hn, ih]
  · generalize d.tokens = a at *
    generalize e.tokens = b at *
    clear hne h1
    induction h2 with
    | nil => rfl
    | cons x _ ih => rw [List.map_cons, List.map_cons, x.lemmaKept hn, ih]

/-! ### Plain values -/

theorem plain_of_chars {s : Str} {t : Str} (h : ∀ c ∈ s, c ∈ t) (ht : Plain t) : Plain s :=
  ⟨fun hc => ht.1 (h _ hc), fun hc => ht.2 (h _ hc)⟩

/-- A tag of which all strings are plain. -/
def PosPlain (p : Pos) : Prop :=
  (∀ s, p.upos = some s → Plain s) ∧ (∀ s, p.xpos = some s → Plain s) ∧
    ∀ k v, p.feats.get? k = some v → Plain k ∧ Plain v

theorem TokenPlain.posPlain {text : Str} {t : Token} (h : TokenPlain text t) {p : Pos} (hp : t.pos = some p) :
    PosPlain p :=
  ⟨fun s => h.upos p s hp, fun s => h.xpos p s hp, fun k v hkv => h.feats p hp (k, v) (Dict.get?_mem.1 hkv)⟩

theorem tagOf_plain {labels : List (Option Pos)} {s : Splitting} {q : Option Pos} (h : TagOf labels s q)
    (hp : ∀ p, some p ∈ labels → PosPlain p) (q' : Pos) (hq : q = some q') : PosPlain q' := by
  subst hq
  cases s with
  | joint => exact hp q' h
  | xf =>
    obtain ⟨⟨p, h1, h2⟩, p', h3, h4, h5⟩ := h
    exact ⟨fun s hs => (hp p h1).1 s (h2.trans hs), fun s hs => (hp p' h3).2.1 s (h4.trans hs),
      fun k v hkv => (hp p' h3).2.2 k v ((h5 k).trans hkv)⟩
  | uxf =>
    obtain ⟨⟨p, h1, h2⟩, ⟨p', h3, h4⟩, p'', h5, h6⟩ := h
    exact ⟨fun s hs => (hp p h1).1 s (h2.trans hs), fun s hs => (hp p' h3).2.1 s (h4.trans hs),
      fun k v hkv => (hp p'' h5).2.2 k v ((h6 k).trans hkv)⟩
  | gran =>
    obtain ⟨⟨p, h1, h2⟩, ⟨p', h3, h4⟩, h5⟩ := h
    refine ⟨fun s hs => (hp p h1).1 s (h2.trans hs), fun s hs => (hp p' h3).2.1 s (h4.trans hs), fun k v hkv => ?_⟩
    obtain ⟨p'', h6, h7⟩ := h5 k v hkv
    exact (hp p'' h6).2.2 k v h7

/-- The same word with other annotation of plain strings. -/
theorem plain_retagged {text text' : Str} {t u : Token} (hs : SameButMorph t u) (htext : text' = text)
    (ht : TokenPlain text t) (hp : ∀ p, u.pos = some p → PosPlain p) (hl : ∀ s, u.lemma' = some s → Plain s) :
    TokenPlain text' u := by
  subst htext
  have hd : docText text' u = docText text' t := by rw [docText, docText, hs.start, hs.stop]
  refine ⟨?_, by rw [hd]; exact ht.surface, hl, by rw [hs.deprel]; exact ht.deprel, fun p s h => (hp p h).1 s,
    fun p s h => (hp p h).2.1 s, fun p h e he => (hp p h).2.2 e.1 e.2 (Dict.get?_mem.2 he)⟩
  rw [tokText, hs.repl, hd]
  exact ht.form

theorem lemmaFrom_plain (dataset : List Document) (hdata : ∀ t ∈ datasetTokens dataset, ∀ l, t.2.lemma' = some l → Plain l)
    (hlower : ∀ s, Plain s → Plain (lower s)) {p : Provider} (hcut : p.cuts) {word : Str} (hw : Plain word)
    {l : Option Str} (h : p.lemmaFrom lower dataset word l) (m : Str) (hm : l = some m) : Plain m := by
  subst hm
  cases p with
  | lemmaDict n =>
    obtain ⟨t, ht, e⟩ := h
    exact hdata t ht m e
  | lemmaRules f n th =>
    obtain ⟨m', e, h⟩ := h
    injection e with e
    subst e
    rcases h with rfl | ⟨t, ht, l₀, hl₀, stem, stem₀, a, b, h1, h2, h3, h4, _⟩
    · exact hlower _ hw
    · rw [h2]
      refine plain_append (plain_of_chars (fun c hc => ?_) (hlower _ hw))
        (plain_of_chars (fun c hc => ?_) (hlower _ (hdata t ht l₀ hl₀)))
      · rw [h1]; exact List.mem_append_left _ hc
      · rw [h4]; exact List.mem_append_right _ hc
  | lemmaChars n th mx sg =>
    obtain ⟨parts, e, h⟩ := h
    injection e with e
    subst e
    have hall : ∀ c ∈ parts, Plain c := by
      intro c hc
      obtain ⟨t, ht, l₀, hl₀, hseg⟩ := h c hc
      exact plain_of_chars (hcut l₀ c hseg) (hdata t ht l₀ hl₀)
    refine ⟨fun hc => ?_, fun hc => ?_⟩
    · obtain ⟨c, h1, h2⟩ := List.mem_flatten.1 hc
      exact (hall c h1).1 h2
    · obtain ⟨c, h1, h2⟩ := List.mem_flatten.1 hc
      exact (hall c h1).2 h2
  | _ => exact h.elim

/-- C135: if neither the training data nor the document contain tabs or newlines, neither does the tagged document. -/
theorem C135_plain (dataset : List Document)
    (hin : ∀ s ∈ leafSpecs ps, ∀ g ∈ seen s, g ∈ dataset) (hdata : ∀ g ∈ dataset, ∀ t ∈ g.tokens, TokenPlain g.text t)
    (hlower : ∀ s, Plain s → Plain (lower s)) (hclear : ∀ p ∈ ps, p.clear dataset) (hcut : ∀ p ∈ ps, p.cuts)
    (d e : Document) (hd : Built d) (h : trainedTag lower float zero other seen ps net d = .ok e)
    (hdoc : ∀ t ∈ d.tokens, TokenPlain d.text t) : ∀ u ∈ e.tokens, TokenPlain e.text u := by
  intro u hu
  obtain ⟨_, h1, h2⟩ := trained_said hin hd h (List.ne_nil_of_mem hu)
  obtain ⟨j, hj⟩ := List.mem_iff_getElem?.1 hu
  have hlt := (List.getElem?_eq_some_iff.1 hj).1
  rw [← h2.length_eq] at hlt
  have ht := List.getElem?_eq_getElem hlt
  have hsaid := ((forall₂_getElem?).1 h2).2 j _ _ ht hj
  have hsame := ((forall₂_getElem?).1 h1.tokens).2 j _ _ ht hj
  have hplain := hdoc _ (List.mem_of_getElem? ht)
  have hdata' : ∀ t ∈ datasetTokens dataset, ∃ g ∈ dataset, TokenPlain g.text t.2 := by
    intro t ht
    obtain ⟨g, hg, ht⟩ := List.mem_flatMap.1 ht
    obtain ⟨x, hx, rfl⟩ := List.mem_map.1 ht
    exact ⟨g, hg, hdata g hg x hx⟩
  refine plain_retagged hsame h1.text hplain ?_ ?_
  · intro p hp
    by_cases htag : ∃ p ∈ ps, p.tags
    · obtain ⟨q, hq, hfrom⟩ := hsaid.pos htag hclear
      cases q with
      | posDict n s =>
        refine tagOf_plain hfrom ?_ p hp
        intro p' hp'
        obtain ⟨t, ht, e⟩ := List.mem_map.1 hp'
        obtain ⟨g, _, hpl⟩ := hdata' t ht
        exact hpl.posPlain e
      | _ => exact hfrom.elim
    · rw [hsaid.posKept (fun p hp ht => htag ⟨p, hp, ht⟩)] at hp
      exact hplain.posPlain hp
  · intro l hl
    by_cases hlem : ∃ p ∈ ps, p.lemmas
    · obtain ⟨q, hq, hfrom⟩ := hsaid.lemma' hlem
      refine lemmaFrom_plain lower dataset ?_ hlower (hcut q hq) hplain.form hfrom l hl
      intro t ht l hl
      obtain ⟨g, _, hpl⟩ := hdata' t ht
      exact hpl.lemma' l hl
    · rw [hsaid.lemmaKept (fun p hp ht => hlem ⟨p, hp, ht⟩)] at hl
      exact hplain.lemma' l hl

end

/-! ### Scores -/

/-- Evaluating documents that differ from the test documents in tags and lemmas without tabs and newlines. -/
theorem blind_scores {lower : Str → Str} {depth : Nat} {text : Str} {docs pred blind : List Document} {ud : UD}
    {tag : List Document → Res (List Document)} (hr : '\r' ∉ text) (hc : CommentsPlain text)
    (h1 : readFromStr 1 defaultCols text = .ok (docs, none)) (h2 : loadConllu depth text = .ok ud) (hd : 2 ≤ depth)
    (hblind : prepareTestData docs = .ok blind) (ht : tag blind = .ok pred)
    (hre : List.Forall₂ (fun b e : Document => Built e ∧ Retagged b e) blind pred)
    (hpl : ∀ e ∈ pred, ∀ u ∈ e.tokens, TokenPlain e.text u) :
    ∃ table, testFile lower depth text tag = .ok table ∧ ud.words.length = (allTokens docs).length ∧
      (allTokens pred).length = (allTokens docs).length ∧
      ∀ name cols f, (name, cols, f) ∈ fileMetrics → ∃ s, table.get? name = some s ∧
        IsScore s (allTokens docs).length (allTokens docs).length
          (sameCount (columnValues cols ud) ((allTokens pred).map f)) (some (allTokens docs).length) := by
  obtain ⟨v1, v2, v3, v4⟩ := read_again hr hc h1 h2
  obtain ⟨out, hout, hb⟩ := C53_blind (fun d hd => (v1 d hd).built)
  rw [hblind] at hout
  injection hout with hout
  subst hout
  -- documents of the file and predicted documents
  have hpair : List.Forall₂ (fun d e : Document => Built e ∧ SameSkeleton d e ∧ ∀ u ∈ e.tokens, u.headSent = none)
      docs pred := by
    rw [forall₂_getElem?] at hb hre ⊢
    refine ⟨hb.1.trans hre.1, fun k d e hk he => ?_⟩
    have hlt := (List.getElem?_eq_some_iff.1 he).1
    rw [← hre.1] at hlt
    have ho := List.getElem?_eq_getElem hlt
    obtain ⟨_, b1, b2, b3⟩ := hb.2 k d _ hk ho
    obtain ⟨e1, e2⟩ := hre.2 k _ e ho he
    refine ⟨e1, ⟨(e2.text.trans b1).symm, (e2.sentences.trans b2).symm, ?_⟩, ?_⟩
    · have e3 := e2.tokens
      rw [forall₂_getElem?] at b3 e3 ⊢
      refine ⟨b3.1.trans e3.1, fun j t u hj hu => ?_⟩
      have hlt := (List.getElem?_eq_some_iff.1 hu).1
      rw [← e3.1] at hlt
      have hm := List.getElem?_eq_getElem hlt
      obtain ⟨c1, c2, c3, c4, _⟩ := b3.2 j t _ hj hm
      have c := e3.2 j _ u hm hu
      exact ⟨(c.start.trans c1).symm, (c.stop.trans c2).symm, (c.sub.trans c3).symm, (c.repl.trans c4).symm⟩
    · intro u hu
      obtain ⟨m, hm, hmu⟩ := forall₂_mem_right e2.tokens hu
      obtain ⟨t, _, htm⟩ := forall₂_mem_right b3 hm
      obtain ⟨_, _, _, _, _, _, _, _, hd1, hd2⟩ := htm
      have := hmu.head
      unfold KeepsHead at this
      rw [if_neg (by simp [Token.isRoot, hd1, hd2])] at this
      rw [this.2, hd2]
  have hbuilt : ∀ e ∈ pred, Built e := fun e he => by
    obtain ⟨d, _, h⟩ := forall₂_mem_right hpair he
    exact h.1
  have hhead : ∀ e ∈ pred, ∀ u ∈ e.tokens, u.headSent = none := fun e he => by
    obtain ⟨d, _, h⟩ := forall₂_mem_right hpair he
    exact h.2.2
  have hload : ∀ e ∈ pred, Loadable e := by
    intro e he
    obtain ⟨d, hdm, _, ⟨s1, s2, s3⟩, _⟩ := forall₂_mem_right hpair he
    have hl := v2 d hdm
    refine ⟨hpl e he, ?_, ?_⟩
    · intro u hu
      obtain ⟨t, ht, a, b, _⟩ := forall₂_mem_right s3 hu
      have := hl.form t ht
      rwa [docText, s1, a, b] at this
    · intro s hs
      rw [← s2] at hs
      have := hl.ends s hs
      unfold EndsRegular at this ⊢
      intro u hu
      have hsl : List.Forall₂ (fun t u : Token => t.start = u.start ∧ t.stop = u.stop ∧ t.sub = u.sub ∧ t.repl = u.repl)
          (d.sentenceTokens s) (e.sentenceTokens s) := by
        unfold Document.sentenceTokens
        exact List.forall₂_take _ (List.forall₂_drop _ s3)
      rw [List.getLast?_eq_getElem?] at hu
      have hlt := (List.getElem?_eq_some_iff.1 hu).1
      rw [← hsl.length_eq] at hlt hu
      have hx := List.getElem?_eq_getElem hlt
      obtain ⟨c1, c2, _, _⟩ := ((forall₂_getElem?).1 hsl).2 _ _ _ hx hu
      have := this _ (by rw [List.getLast?_eq_getElem?]; exact hx)
      intro v hv hm
      obtain ⟨t, ht, a1, a2, _, a4⟩ := forall₂_mem_right hsl hv
      have := this t ht (by rw [Token.isMultiword, a4]; exact hm)
      rw [Token.coincides, ← a1, ← a2, ← c1, ← c2]
      exact this
  obtain ⟨o, ho⟩ := writeToStr_total (columns := defaultCols) hbuilt (fun d hd t ht => .inr (by decide))
  obtain ⟨ud', sents', l, q, r⟩ := write_load (depth := depth) hbuilt hload (fun p hp => by
    obtain ⟨e, he, hp⟩ := List.mem_flatMap.mp hp
    obtain ⟨s, hs, rfl⟩ := List.mem_map.mp hp
    rw [writtenHeads_chain (.inr fun t ht => hhead e he t (sentence_token_mem ht))]
    exact ⟨leftChain_tree (sentence_pos (hbuilt e he) hs), (leftChain_shallow _).mono hd⟩) ho
  obtain ⟨table, g1, g2, g3, g4⟩ := file_scores (lower := lower) (tag := tag) hr hc h1 h2 (hpair.imp fun _ _ h => h.2.1)
    (fun b hb => by rw [hblind] at hb; injection hb with hb; rw [← hb, ht]) ho l q r hbuilt
    (fun e he u hu v hv => by rw [hhead e he u hu] at hv; cases hv)
  refine ⟨table, g1, g2, ?_, g3⟩
  clear hhead hload hbuilt ho l q r g1 g2 g3 g4 hpl hre ht hblind hb v1 v2 v3 v4 h1 h2
  unfold allTokens
  induction hpair with
  | nil => rfl
  | cons h _ ih =>
    rw [List.flatMap_cons, List.flatMap_cons, List.length_append, List.length_append, ih, h.2.1.2.2.length_eq]

section
variable {F : Type} (lower : Str → Str) (float : Str → Res F) (zero : F) (other : TextToken) (seen : Seen)
  (ps : List Provider) (net : Features → Res Features)

theorem plain_blind {docs blind : List Document}
    (hb : List.Forall₂ (fun d o : Document => Built o ∧ o.text = d.text ∧ o.sentences = d.sentences ∧
        List.Forall₂ (fun t u : Token => u.start = t.start ∧ u.stop = t.stop ∧ u.sub = t.sub ∧
          u.repl = t.repl ∧ u.extras = t.extras ∧ u.pos = none ∧ u.lemma' = none ∧ u.deprel = none ∧
          u.headDoc = none ∧ u.headSent = none) d.tokens o.tokens) docs blind)
    (hp : ∀ d ∈ docs, ∀ t ∈ d.tokens, TokenPlain d.text t) : ∀ o ∈ blind, ∀ u ∈ o.tokens, TokenPlain o.text u := by
  intro o ho u hu
  obtain ⟨d, hd, _, h1, _, h2⟩ := forall₂_mem_right hb ho
  obtain ⟨t, ht, a1, a2, a3, a4, a5, a6, a7, a8, _⟩ := forall₂_mem_right h2 hu
  have := hp d hd t ht
  have hd' : docText o.text u = docText d.text t := by rw [docText, docText, h1, a1, a2]
  refine ⟨?_, by rw [hd']; exact this.surface, by simp [a7], by simp [a8], by simp [a6], by simp [a6], by simp [a6]⟩
  rw [tokText, a4, hd']
  exact this.form

/-- C135: whatever a network answers to the sentences of a gold file, as long as the tagger can make something of the
answers and no document comes back empty, the output can be written and evaluated: UPOS, XPOS, Feats, AllTags and Lemmas
are the shares of words for which the columns of the gold file are what the tagger said. -/
theorem C135_scores (dataset : List Document)
    (hin : ∀ s ∈ leafSpecs ps, ∀ g ∈ seen s, g ∈ dataset) {depth : Nat} {text : Str} {docs blind pred : List Document} {ud : UD} (hr : '\r' ∉ text)
    (hc : CommentsPlain text) (h1 : readFromStr 1 defaultCols text = .ok (docs, none))
    (h2 : loadConllu depth text = .ok ud) (hd : 2 ≤ depth)
    (hdata : ∀ g ∈ dataset, ∀ t ∈ g.tokens, TokenPlain g.text t) (hlower : ∀ s, Plain s → Plain (lower s))
    (hclear : ∀ p ∈ ps, p.clear dataset) (hcut : ∀ p ∈ ps, p.cuts) (hblind : prepareTestData docs = .ok blind)
    (ht : mapM' (trainedTag lower float zero other seen ps net) blind = .ok pred) (hne : ∀ e ∈ pred, e.tokens ≠ []) :
    ∃ table, testFile lower depth text (mapM' (trainedTag lower float zero other seen ps net)) = .ok table ∧
      ∀ name cols f, (name, cols, f) ∈ fileMetrics → ∃ s, table.get? name = some s ∧
        IsScore s (allTokens docs).length (allTokens docs).length
          (sameCount (columnValues cols ud) ((allTokens pred).map f)) (some (allTokens docs).length) := by
  obtain ⟨v1, v2, _⟩ := read_again hr hc h1 h2
  obtain ⟨out, hout, hb⟩ := C53_blind (fun d hd => (v1 d hd).built)
  rw [hblind] at hout
  injection hout with hout
  subst hout
  have hbp := plain_blind hb (fun d hd => (v2 d hd).plain)
  have hbb : ∀ o ∈ blind, Built o := fun o ho => by
    obtain ⟨d, _, h⟩ := forall₂_mem_right hb ho
    exact h.1
  have hm := (mapM'_ok_iff).1 ht
  obtain ⟨table, g1, _, _, g3⟩ := blind_scores (lower := lower)
    (tag := mapM' (trainedTag lower float zero other seen ps net)) hr hc h1 h2 hd hblind ht
    (by
      rw [forall₂_getElem?] at hm ⊢
      refine ⟨hm.1, fun k b e hb he => ?_⟩
      obtain ⟨a, b, _⟩ := trained_said hin (hbb b (List.mem_of_getElem? hb)) (hm.2 k b e hb he) (hne e (List.mem_of_getElem? he))
      exact ⟨a, b⟩)
    (by
      intro e he
      obtain ⟨b, hb, hbe⟩ := forall₂_mem_right hm he
      exact C135_plain lower float zero other seen ps net dataset hin hdata hlower hclear hcut b e (hbb b hb) hbe (hbp b hb))
  exact ⟨table, g1, g3⟩

theorem featsText_same {a b : Dict Str Str} (h : SameMap a b) : featsText a = featsText b := by
  have hp : a.entries.Perm b.entries := Dict.pyEq_perm.1 (Dict.pyEq_iff.2 h)
  unfold featsText
  have he : a.entries.isEmpty = b.entries.isEmpty := by
    rw [Bool.eq_iff_iff, List.isEmpty_iff, List.isEmpty_iff]
    exact ⟨fun h => by rw [h] at hp; exact hp.nil_eq.symm, fun h => by rw [h] at hp; exact hp.eq_nil⟩
  rw [he, pySorted_eq_of_perm _ (fun a b => le_total a b) (fun a b c => le_trans) (fun a b _ _ => le_antisymm)
    (hp.map fun e => e.1 ++ '=' :: e.2)]

theorem writtenFeats_same {t u : Token} (h : Option.Rel SamePos u.pos t.pos) : writtenFeats u = writtenFeats t := by
  unfold writtenFeats
  generalize u.pos = a at h
  generalize t.pos = b at h
  cases h with
  | none => rfl
  | some h => exact featsText_same h.2.2

theorem read_tokens {limit : Int} {columns : Cols} {text : Str} {docs : List Document}
    (h : readFromStr limit columns text = .ok (docs, none)) : ∀ d ∈ docs, d.tokens ≠ [] := by
  obtain ⟨_, items, chunks, x1, x2, x3⟩ := C16_accepts_iff.mp h
  intro d hd
  obtain ⟨c, hc, a⟩ := forall₂_mem_right x3 hd
  have hcne := (x2.size c hc).1
  have hdd := a.docOf hcne
  have := hdd.bounds.wordCount_pos hcne
  rw [← hdd.tokens.length] at this
  exact List.ne_nil_of_length_pos this

theorem same_words_blind_of {d o : Document} (ht : o.text = d.text) (hs : o.sentences = d.sentences)
    (h : List.Forall₂ (fun t u : Token => u.start = t.start ∧ u.stop = t.stop ∧ u.repl = t.repl) d.tokens o.tokens) :
    List.Forall₂ (fun s s' => SameWords d s o s') d.sentences o.sentences := by
  rw [hs]
  refine List.forall₂_same.2 fun s _ => ⟨rfl, fun k _ => ?_⟩
  have := get_of_forall₂ h (s.start + k)
  generalize d.tokens[s.start + k]? = a at this
  generalize o.tokens[s.start + k]? = b at this
  cases this with
  | none => rfl
  | some h => rw [Option.map_some, Option.map_some, tokText, tokText, docText, docText, ht, h.1, h.2.1, h.2.2]

/-- C135: a network that has learned its training data by heart and does not mind padding has perfect UPOS and XPOS on a
file of training data, perfect Feats exactly if the FEATS of the file are spelled the way features are written, and
perfect Lemmas, if lemmas are lower-case wherever they are encoded as rules. -/
theorem C135_fitted (dataset : List Document) (hord : seen.Orders ps dataset) {n : Nat} {epoch : List Document} {steps : List (Features × Features)} (hn : 0 < n)
    (h : trainingFeed lower float zero other keepAll seen ps n epoch = .ok steps)
    (hfit : LearnedByHeart lower float zero other seen ps n epoch steps net) {depth : Nat} {text : Str} {docs : List Document}
    {ud : UD} (hr : '\r' ∉ text) (hc : CommentsPlain text) (h1 : readFromStr 1 defaultCols text = .ok (docs, none))
    (h2 : loadConllu depth text = .ok ud) (hd : 2 ≤ depth) (hne : docs ≠ [])
    (hdocs : ∀ d ∈ docs, d ∈ epoch ∧ d ∈ dataset) (hlower : ∀ s, Plain s → Plain (lower s))
    (htrain : ∀ d ∈ docs, ∀ x ∈ d.tokens, ∀ p ∈ ps, TrainsOn dataset x p) :
    ∃ table, testFile lower depth text (mapM' (trainedTag lower float zero other seen ps net)) = .ok table ∧
      ((∃ p ∈ ps, p.tags) →
        (∀ name ∈ ["UPOS", "XPOS"].map String.toList, ∃ s, table.get? name = some s ∧ Perfect true s) ∧
        ∃ s, table.get? "Feats".toList = some s ∧ (Perfect true s ↔ FeatsAsWritten docs ud)) ∧
      ((∃ p ∈ ps, p.lemmas) →
        ((∃ f l t, Provider.lemmaRules f l t ∈ ps) → ∀ x ∈ allTokens docs, x.lemma'.map lower = x.lemma') →
        ∃ s, table.get? "Lemmas".toList = some s ∧ Perfect true s) := by
  obtain ⟨v1, v2, v3⟩ := read_again hr hc h1 h2
  obtain ⟨blind, hblind, hb⟩ := C53_blind (fun d hd => (v1 d hd).built)
  have hbp := plain_blind hb (fun d hd => (v2 d hd).plain)
  -- what the tagger says about the words of one document
  have hone : ∀ d ∈ docs, ∀ o, (Built o ∧ o.text = d.text ∧ o.sentences = d.sentences ∧
        List.Forall₂ (fun t u : Token => u.start = t.start ∧ u.stop = t.stop ∧ u.sub = t.sub ∧
          u.repl = t.repl ∧ u.extras = t.extras ∧ u.pos = none ∧ u.lemma' = none ∧ u.deprel = none ∧
          u.headDoc = none ∧ u.headSent = none) d.tokens o.tokens) →
      ∃ e, trainedTag lower float zero other seen ps net o = .ok e ∧ Built e ∧ Retagged o e ∧
        List.Forall₂ (fun t u : Token => ((∃ p ∈ ps, p.tags) → Option.Rel SamePos u.pos t.pos) ∧
          ((∀ p ∈ ps, ¬ p.tags) → u.pos = none) ∧
          ((∃ p ∈ ps, p.lemmas) → ∃ p ∈ ps, p.lemmaOf lower (tokText d.text t, t) = some u.lemma') ∧
          ((∀ p ∈ ps, ¬ p.lemmas) → u.lemma' = none)) d.tokens e.tokens := by
    rintro d hdm o ⟨ho, ht, hs, hto⟩
    obtain ⟨d', t1, t2, t3⟩ := C134_fit lower float zero other seen ps n epoch steps dataset hord hn h net hfit.learned
      hfit.padding d (v1 d hdm).built (hdocs d hdm).1 (hdocs d hdm).2 (htrain d hdm)
    rcases C133_document lower float zero other seen ps net d o (v1 d hdm).built ho
      (same_words_blind_of ht hs (hto.imp fun _ _ h => ⟨h.1, h.2.1, h.2.2.2.1⟩)) with ⟨a, e, e1, e2, e3⟩ | ⟨e, e1, _⟩
    · rw [t1] at e1
      injection e1 with e1
      subst e1
      have hene : e.tokens ≠ [] := by
        have := read_tokens h1 d hdm
        have l1 := t2.tokens.length_eq
        have l2 := e3.length_eq
        intro h0
        rw [h0] at l2
        rw [l2] at l1
        exact this (List.length_eq_zero_iff.1 l1)
      obtain ⟨s1, s2, s3⟩ := trained_said (fun s hs g hg => (hord s hs).mem_iff.1 hg) ho e2 hene
      refine ⟨e, e2, s1, s2, ?_⟩
      rw [forall₂_getElem?]
      refine ⟨t2.tokens.length_eq.trans e3.length_eq, fun j t u hj hu => ?_⟩
      have hlt := (List.getElem?_eq_some_iff.1 hu).1
      have hu' := List.getElem?_eq_getElem (show j < d'.tokens.length by rw [e3.length_eq]; exact hlt)
      have hm := List.getElem?_eq_getElem (show j < o.tokens.length by rw [s2.tokens.length_eq]; exact hlt)
      have hlab := t3 j t _ hj hu'
      have hsame := ((forall₂_getElem?).1 e3).2 j _ _ hu' hu
      have hsaid := ((forall₂_getElem?).1 s3).2 j _ _ hm hu
      obtain ⟨_, _, _, _, _, hpos, hlem, _⟩ := ((forall₂_getElem?).1 hto).2 j _ _ hj hm
      refine ⟨fun hp => by rw [← hsame.pos hp]; exact hlab.pos hp, fun hp => by rw [hsaid.posKept hp, hpos], fun hp => ?_,
        fun hp => by rw [hsaid.lemmaKept hp, hlem]⟩
      rw [← hsame.lemma' hp]
      obtain ⟨p, hpm, hpl⟩ := hp
      exact hlab.lemma' ⟨p, hpm, by cases p <;> first | exact hpl.elim | rfl⟩
    · rw [t1] at e1
      cases e1
  -- the predicted documents
  obtain ⟨pred, hm, hpred⟩ : ∃ pred, mapM' (trainedTag lower float zero other seen ps net) blind = .ok pred ∧
      List.Forall₂ (fun (d e : Document) => List.Forall₂ (fun t u : Token =>
          ((∃ p ∈ ps, p.tags) → Option.Rel SamePos u.pos t.pos) ∧
          ((∀ p ∈ ps, ¬ p.tags) → u.pos = none) ∧
          ((∃ p ∈ ps, p.lemmas) → ∃ p ∈ ps, p.lemmaOf lower (tokText d.text t, t) = some u.lemma') ∧
          ((∀ p ∈ ps, ¬ p.lemmas) → u.lemma' = none)) d.tokens e.tokens) docs pred := by
    have hone' := hone
    clear hone hbp hblind h1 v1 v2 v3 htrain hne hdocs
    induction hb with
    | nil => exact ⟨[], rfl, .nil⟩
    | @cons d o docs blind hdo _ ih =>
      obtain ⟨e, e1, _, _, e2⟩ := hone' d (by simp) o hdo
      obtain ⟨pred, p1, p2⟩ := ih (fun d hd => hone' d (by simp [hd]))
      exact ⟨e :: pred, by simp only [mapM', e1, p1], .cons e2 p2⟩
  have hm2 := (mapM'_ok_iff).1 hm
  have hre : List.Forall₂ (fun b e : Document => Built e ∧ Retagged b e) blind pred := by
    rw [forall₂_getElem?] at hm2 hb ⊢
    refine ⟨hm2.1, fun k o e ho he => ?_⟩
    have hlt := (List.getElem?_eq_some_iff.1 ho).1
    rw [← hb.1] at hlt
    have hd := List.getElem?_eq_getElem hlt
    obtain ⟨e', e1, e2, e3, _⟩ := hone _ (List.getElem_mem hlt) o (hb.2 k _ o hd ho)
    have := hm2.2 k o e ho he
    rw [e1] at this
    injection this with this
    subst this
    exact ⟨e2, e3⟩
  have hpl : ∀ e ∈ pred, ∀ u ∈ e.tokens, TokenPlain e.text u := by
    intro e he u hu
    obtain ⟨k, hk⟩ := List.mem_iff_getElem?.1 he
    have hlt := (List.getElem?_eq_some_iff.1 hk).1
    obtain ⟨o, hbk⟩ : ∃ o, blind[k]? = some o :=
      ⟨_, List.getElem?_eq_getElem (show k < blind.length by rw [hre.length_eq]; exact hlt)⟩
    obtain ⟨d, hdk⟩ : ∃ d, docs[k]? = some d :=
      ⟨_, List.getElem?_eq_getElem (show k < docs.length by rw [hpred.length_eq]; exact hlt)⟩
    obtain ⟨_, hret⟩ := ((forall₂_getElem?).1 hre).2 k _ _ hbk hk
    have hlab := ((forall₂_getElem?).1 hpred).2 k _ _ hdk hk
    obtain ⟨j, hj⟩ := List.mem_iff_getElem?.1 hu
    have hlt' := (List.getElem?_eq_some_iff.1 hj).1
    obtain ⟨x, hb'⟩ : ∃ x, o.tokens[j]? = some x :=
      ⟨_, List.getElem?_eq_getElem (show j < o.tokens.length by rw [hret.tokens.length_eq]; exact hlt')⟩
    obtain ⟨t, hd'⟩ : ∃ t, d.tokens[j]? = some t :=
      ⟨_, List.getElem?_eq_getElem (show j < d.tokens.length by rw [hlab.length_eq]; exact hlt')⟩
    have hs := ((forall₂_getElem?).1 hret.tokens).2 j _ _ hb' hj
    obtain ⟨l1, l2, l3, l4⟩ := ((forall₂_getElem?).1 hlab).2 j _ _ hd' hj
    have hgold := (v2 _ (List.mem_of_getElem? hdk)).plain _ (List.mem_of_getElem? hd')
    refine plain_retagged hs hret.text (hbp _ (List.mem_of_getElem? hbk) _ (List.mem_of_getElem? hb')) ?_ ?_
    · intro p hp
      by_cases htag : ∃ p ∈ ps, p.tags
      · have hrel := l1 htag
        rw [hp] at hrel
        generalize hg : t.pos = g at hrel
        cases hrel with
        | @some _ q hq =>
          have hpp := hgold.posPlain hg
          exact ⟨fun s hs => hpp.1 s (hq.1.symm.trans hs), fun s hs => hpp.2.1 s (hq.2.1.symm.trans hs),
            fun k v hkv => hpp.2.2 k v ((hq.2.2 k).symm.trans hkv)⟩
      · rw [l2 (fun p hp ht => htag ⟨p, hp, ht⟩)] at hp
        cases hp
    · intro l hl
      by_cases hlem : ∃ p ∈ ps, p.lemmas
      · obtain ⟨p, hp, hpl⟩ := l3 hlem
        rw [hl] at hpl
        cases p <;> simp only [Provider.lemmaOf, Option.some.injEq, reduceCtorEq] at hpl
        · exact hgold.lemma' l hpl
        · obtain ⟨l', h1, rfl⟩ := Option.map_eq_some_iff.1 hpl
          exact hlower _ (hgold.lemma' l' h1)
        · exact hgold.lemma' l hpl
      · rw [l4 (fun p hp ht => hlem ⟨p, hp, ht⟩)] at hl
        cases hl
  obtain ⟨table, g1, g2, g3, g4⟩ := blind_scores (lower := lower)
    (tag := mapM' (trainedTag lower float zero other seen ps net)) hr hc h1 h2 hd hblind hm hre hpl
  have hpos : 0 < (allTokens docs).length := by
    obtain ⟨d, ds, rfl⟩ := List.exists_cons_of_ne_nil hne
    have := List.length_pos_iff.2 (read_tokens h1 d (by simp))
    simp only [allTokens, List.flatMap_cons, List.length_append]
    omega
  -- all words
  have hall : List.Forall₂ (fun t u : Token => ((∃ p ∈ ps, p.tags) → Option.Rel SamePos u.pos t.pos) ∧
      ((∃ p ∈ ps, p.lemmas) → ((∃ f l t, Provider.lemmaRules f l t ∈ ps) → t.lemma'.map lower = t.lemma') →
        u.lemma' = t.lemma')) (allTokens docs) (allTokens pred) := by
    unfold allTokens
    clear hre hm2 hm hpl g1 g2 g3 g4 hb hone hbp hblind h1 v1 v2 v3 htrain hne hdocs hpos
    induction hpred with
    | nil => exact .nil
    | cons a _ ih =>
      rw [List.flatMap_cons, List.flatMap_cons]
      refine List.rel_append (a.imp ?_) ih
      rintro t u ⟨l1, _, l3, _⟩
      refine ⟨l1, fun hlem hlow => ?_⟩
      obtain ⟨p, hp, hpl⟩ := l3 hlem
      cases p <;> simp only [Provider.lemmaOf, Option.some.injEq, reduceCtorEq] at hpl
      · exact hpl.symm
      · rw [← hpl]; exact hlow ⟨_, _, _, hp⟩
      · exact hpl.symm
  have key : ∀ name cols f, (name, cols, f) ∈ fileMetrics → colFEATS ∉ cols →
      List.Forall₂ (fun t u => f t = f u) (allTokens docs) (allTokens pred) →
      ∃ s, table.get? name = some s ∧ Perfect true s := by
    intro name cols f hf hx hsame
    obtain ⟨s, s1, s2⟩ := g4 name cols f hf
    rw [C110_gold_values hr hc h1 h2 hf (fun h => absurd h hx), sameCount_comm_samePlaces, samePlaces_all hsame] at s2
    exact ⟨s, s1, (isScore_perfect hpos s2).mpr rfl⟩
  refine ⟨table, g1, fun htag => ⟨?_, ?_⟩, fun hlem hlow => ?_⟩
  · intro name hname
    simp only [List.map_cons, List.map_nil, List.mem_cons, List.not_mem_nil, or_false] at hname
    have hrel := hall.imp (fun t u h => h.1 htag)
    rcases hname with rfl | rfl
    · refine key _ [colUPOS] _ (by unfold fileMetrics; exact .head _) (by decide) (hrel.imp fun t u h => ?_)
      generalize u.pos = a at h
      generalize t.pos = b at h
      cases h with
      | none => rfl
      | some h => simp [h.1]
    · refine key _ [colXPOS] _ (by unfold fileMetrics; exact .tail _ (.head _)) (by decide) (hrel.imp fun t u h => ?_)
      generalize u.pos = a at h
      generalize t.pos = b at h
      cases h with
      | none => rfl
      | some h => simp [h.2.1]
  · obtain ⟨s, s1, s2⟩ := g4 "Feats".toList [colFEATS] (fun t => [writtenFeats t])
      (by unfold fileMetrics; exact .tail _ (.tail _ (.head _)))
    refine ⟨s, s1, ?_⟩
    have he : (allTokens pred).map (fun t => [writtenFeats t]) = (allTokens docs).map (fun t => [writtenFeats t]) := by
      have hrel := hall.imp (fun t u h => h.1 htag)
      clear hall key g4 g3 g2 hpos s2
      generalize allTokens docs = a at *
      generalize allTokens pred = b at *
      induction hrel with
      | nil => rfl
      | cons h _ ih => rw [List.map_cons, List.map_cons, writtenFeats_same h, ih]
    rw [isScore_perfect hpos s2, ← columnValues_full g2, he]
    have hl : (columnValues [colFEATS] ud).length = (allTokens docs).length := by
      unfold columnValues; rw [List.length_map, g2]
    rw [← hl]
    exact sameCount_full (by rw [hl, List.length_map])
  · refine key _ [colLEMMA] _ (by unfold fileMetrics; exact .tail _ (.tail _ (.tail _ (.tail _ (.head _))))) (by decide) ?_
    rw [forall₂_getElem?] at hall ⊢
    refine ⟨hall.1, fun j t u ht hu => ?_⟩
    rw [(hall.2 j t u ht hu).2 hlem (fun hx => hlow hx t (List.mem_of_getElem? ht))]

end

namespace Demo

/-- A file of two sentences, with words of one letter. -/
def letterFile : Str := "1\ta\tx\tDET\tD\tA=b\t2\tdet\t_\t_\n2\tb\ty\tNOUN\tN\t_\t0\troot\t_\t_\n\n".toList ++
  "1\ta\tx\tDET\tD\tA=b\t0\troot\t_\t_\n\n".toList

def letterTag : Pos := ⟨some "DET".toList, some "D".toList, Dict.ofList [("A".toList, "b".toList)]⟩

def letterDoc1 : Document :=
  { text := "a b ".toList,
    tokens := [
      { start := 0, stop := 1, lemma' := some "x".toList, deprel := some "det".toList, headDoc := some 1, headSent := some 1,
        pos := some letterTag },
      { start := 2, stop := 3, lemma' := some "y".toList, deprel := some "root".toList, headDoc := some (-1),
        headSent := some (-1), pos := some ⟨some "NOUN".toList, some "N".toList, Dict.empty⟩ }],
    sentences := [{ start := 0, stop := 2 }] }

def letterDoc2 : Document :=
  { text := "a ".toList,
    tokens := [
      { start := 0, stop := 1, lemma' := some "x".toList, deprel := some "root".toList, headDoc := some (-1),
        headSent := some (-1), pos := some letterTag }],
    sentences := [{ start := 0, stop := 1 }] }

/-- The documents of the file. -/
def letterDocs : List Document := [letterDoc1, letterDoc2]

/-- The table of words is built from the documents in another order. -/
def letterSeen : Seen
  | .trainable _ _ _ => [letterDoc2, letterDoc1]
  | _ => letterDocs

theorem letter_orders (ps : List Provider) : letterSeen.Orders ps letterDocs := by
  intro s _
  cases s <;> first | exact .refl _ | exact .swap _ _ _

theorem letterRead : readFromStr 1 defaultCols letterFile = .ok (letterDocs, none) := by decide +kernel

def letterProviders : List Provider :=
  [.trainable "w".toList 0 false, .lemmaDict "l".toList, .posDict "p".toList .uxf]

/-- Every value of a feature of words is replaced. -/
def eachWord (g : Int → Feat) : Feat → Feat
  | .list rows => .list (rows.map (fun r => match r with
      | .list ws => .list (ws.map (fun w => match w with
        | .int n => g n
        | x => x))
      | x => x))
  | x => x

/-- A network that gives every word the classes of its id. -/
def letterNet (f : Features) : Res Features :=
  match f.get? "w".toList with
  | some v => .ok (Dict.ofList [("l".toList, eachWord (fun n => .list [.int (n % 2)]) v),
      ("p".toList, eachWord (fun n => .list [.int (n % 2), .int (n % 2), .int (n % 2)]) v)])
  | _ => .error .key

/-- The only step of an epoch. -/
def letterStep : Features × Features :=
  (Dict.ofList [("w".toList, .list [.list [.int 2, .int 3], .list [.int 2, .int 0]])],
    Dict.ofList [("l".toList, .list [.list [.list [.int 0], .list [.int 1]], .list [.list [.int 0], .list [.int 0]]]),
      ("p".toList, .list [.list [.list [.int 0, .int 0, .int 0], .list [.int 1, .int 1, .int 1]],
        .list [.list [.int 0, .int 0, .int 0], .list [.int 0, .int 0, .int 0]]])])

theorem letterStep_eq : trainingFeed id float 0 (ptok 0) Verif.keepAll letterSeen letterProviders 2 letterDocs =
    .ok [letterStep] := rfl

theorem rowLabels_pair {v v' w w' : Feat} {i n : Nat} {k l : Str} (hne : k ≠ l) (h : rowWords i n v = some v')
    (h' : rowWords i n w = some w') :
    RowLabels (Dict.ofList [(k, v), (l, w)]) i n (Dict.ofList [(k, v'), (l, w')]) := by
  intro x
  have hg : ∀ a b : Feat, (Dict.ofList [(k, a), (l, b)]).get? x =
      if k = x then some a else if l = x then some b else none := by
    intro a b
    simp [Dict.get?, Dict.ofList, Dict.updateList, Dict.set, Dict.empty, assocGet, assocSet, hne]
  rw [hg, hg]
  split
  · exact .some h
  · split
    · exact .some h'
    · exact .none

theorem letterRows {b i : Nat} {d : Document} {s : Sentence} (h : TrainingRow 2 letterDocs b i d s) :
    b = 0 ∧ (i = 0 ∧ d = letterDoc1 ∧ s = ⟨0, 2, by decide⟩ ∨ i = 1 ∧ d = letterDoc2 ∧ s = ⟨0, 1, by decide⟩) := by
  obtain ⟨hi, h⟩ := h
  have hl : b * 2 + i < 2 := (List.getElem?_eq_some_iff.1 h).1
  obtain rfl : b = 0 := by omega
  refine ⟨rfl, ?_⟩
  obtain rfl | rfl : i = 0 ∨ i = 1 := by omega
  · left
    injection h with h
    injection h with h1 h2
    exact ⟨rfl, h1.symm, h2.symm⟩
  · right
    injection h with h
    injection h with h1 h2
    exact ⟨rfl, h1.symm, h2.symm⟩

theorem letterNet_fits : LearnedByHeart id float 0 (ptok 0) letterSeen letterProviders 2 letterDocs [letterStep] letterNet where
  learned := by
    intro b i d s step hrow hstep
    obtain ⟨rfl, h⟩ := letterRows hrow
    injection hstep with hstep
    subst hstep
    exact ⟨_, rfl, fun P hP => hP⟩
  padding := by
    intro b i d s step f A hrow hstep hf _ hA
    obtain ⟨rfl, h⟩ := letterRows hrow
    injection hstep with hstep
    subst hstep
    injection hA with hA
    subst hA
    rcases h with ⟨rfl, rfl, rfl⟩ | ⟨rfl, rfl, rfl⟩ <;>
    · injection hf with hf
      subst hf
      exact ⟨_, rfl, rowLabels_pair (by decide) rfl rfl⟩

theorem letterLoad : ∃ ud, loadConllu 10 letterFile = .ok ud := by
  have h : (loadConllu 10 letterFile).isOk = true := by decide +kernel
  cases hl : loadConllu 10 letterFile with
  | ok ud => exact ⟨ud, rfl⟩
  | error e => rw [hl] at h; cases h

end Demo

/-- A network that has learned the words of a file by heart is evaluated on this file. -/
example : ∃ table, testFile id 10 Demo.letterFile (mapM' (trainedTag id Demo.float 0 (Demo.ptok 0) Demo.letterSeen
      Demo.letterProviders Demo.letterNet)) = .ok table ∧
    (∀ name ∈ ["UPOS", "XPOS"].map String.toList, ∃ s, table.get? name = some s ∧ Perfect true s) ∧
    ∃ s, table.get? "Lemmas".toList = some s ∧ Perfect true s := by
  obtain ⟨ud, hu⟩ := Demo.letterLoad
  obtain ⟨table, h1, h2, h3⟩ := C135_fitted id Demo.float 0 (Demo.ptok 0) Demo.letterSeen Demo.letterProviders
    Demo.letterNet _ (Demo.letter_orders _) (by decide) Demo.letterStep_eq Demo.letterNet_fits (by decide +kernel) (by decide +kernel)
    Demo.letterRead hu (by decide) (by decide) (fun d hd => ⟨hd, hd⟩) (fun s h => h)
    (by
      intro d _ x _ p hp
      simp only [Demo.letterProviders, List.mem_cons, List.not_mem_nil, or_false] at hp
      rcases hp with rfl | rfl | rfl
      · trivial
      · trivial
      · intro h
        cases h)
  refine ⟨table, h1, (h2 ⟨_, List.mem_cons_of_mem _ (List.mem_cons_of_mem _ List.mem_cons_self), trivial⟩).1,
    h3 ⟨_, List.mem_cons_of_mem _ List.mem_cons_self, trivial⟩ ?_⟩
  rintro ⟨f, l, t, h⟩
  simp [Demo.letterProviders] at h

namespace Demo

/-- A network that gives every word the same lemma, the universal tag of `a` and the other values of `b`. -/
def mixedNet (f : Features) : Res Features :=
  match f.get? "w".toList with
  | some v => .ok (Dict.ofList [("l".toList, eachWord (fun _ => .list [.int 0]) v),
      ("p".toList, eachWord (fun _ => .list [.int 0, .int 1, .int 1]) v)])
  | _ => .error .key

theorem letter_built : ∀ d ∈ letterDocs, Built d := by
  obtain ⟨ud, hu⟩ := letterLoad
  intro d hd
  exact ((read_again (by decide +kernel) (by decide +kernel) letterRead hu).1 d hd).built

end Demo

/-- A tag that does not occur in the training data, made of parts of tags that do. -/
example : ∃ e, trainedTag id Demo.float 0 (Demo.ptok 0) Demo.letterSeen Demo.letterProviders Demo.mixedNet
      Demo.letterDoc1 = .ok e ∧
    e.tokens.map Token.pos = List.replicate 2 (some ⟨some "DET".toList, some "N".toList, Dict.empty⟩) ∧
    (∀ u ∈ e.tokens, ∃ p ∈ Demo.letterProviders, p.tagFrom Demo.letterDocs u.pos) ∧
    (∀ (j : Nat) (t u : Token), Demo.letterDoc1.tokens[j]? = some t → e.tokens[j]? = some u →
      ∃ p ∈ Demo.letterProviders, p.lemmaFrom id Demo.letterDocs (tokText Demo.letterDoc1.text t) u.lemma') ∧
    Retagged Demo.letterDoc1 e := by
  have h : (trainedTag id Demo.float 0 (Demo.ptok 0) Demo.letterSeen Demo.letterProviders Demo.mixedNet
      Demo.letterDoc1).map (fun e => e.tokens.map Token.pos) =
      .ok (List.replicate 2 (some ⟨some "DET".toList, some "N".toList, Dict.empty⟩)) := by decide +kernel
  have hb := Demo.letter_built Demo.letterDoc1 List.mem_cons_self
  cases he : trainedTag id Demo.float 0 (Demo.ptok 0) Demo.letterSeen Demo.letterProviders Demo.mixedNet
      Demo.letterDoc1 with
  | error x => rw [he] at h; cases h
  | ok e =>
    rw [he] at h
    injection h with h
    have hne : e.tokens ≠ [] := fun h0 => by
      replace h : e.tokens.map Token.pos = _ := h
      rw [h0] at h
      cases h
    refine ⟨e, rfl, h, fun u hu => C135_tag _ _ _ _ _ _ _ _ (Demo.letter_orders _).sub _ e hb he
      ⟨_, List.mem_cons_of_mem _ (List.mem_cons_of_mem _ List.mem_cons_self), trivial⟩ ?_ u hu,
      fun j t u ht hu => C135_lemma _ _ _ _ _ _ _ _ (Demo.letter_orders _).sub _ e hb he ⟨_, List.mem_cons_of_mem _ List.mem_cons_self, trivial⟩ j t u ht hu,
      (C135_kept _ _ _ _ _ _ _ _ e hb he hne).1⟩
    intro p hp
    simp only [Demo.letterProviders, List.mem_cons, List.not_mem_nil, or_false] at hp
    rcases hp with rfl | rfl | rfl
    · trivial
    · trivial
    · intro h
      cases h

/-- Such a network is evaluated, too; two of three words have the right tag. -/
example : ∃ table, testFile id 10 Demo.letterFile (mapM' (trainedTag id Demo.float 0 (Demo.ptok 0) Demo.letterSeen
      Demo.letterProviders Demo.mixedNet)) = .ok table ∧
    ∃ s, table.get? "UPOS".toList = some s ∧ IsScore s 3 3 2 (some 3) := by
  obtain ⟨ud, hu⟩ := Demo.letterLoad
  obtain ⟨v1, v2, _⟩ := read_again (by decide +kernel) (by decide +kernel) Demo.letterRead hu
  obtain ⟨blind, hblind, _⟩ := C53_blind (fun d hd => (v1 d hd).built)
  have h : ((prepareTestData Demo.letterDocs).bind fun b => (mapM' (trainedTag id Demo.float 0 (Demo.ptok 0)
      Demo.letterSeen Demo.letterProviders Demo.mixedNet) b).map fun l => (l.map fun d => decide (d.tokens = []),
        (allTokens l).map fun t => [(t.pos.bind Pos.upos).getD underscore])) =
      .ok ([false, false], List.replicate 3 ["DET".toList]) := by decide +kernel
  have hw : (loadConllu 10 Demo.letterFile).map (columnValues [colUPOS]) =
      .ok [["DET".toList], ["NOUN".toList], ["DET".toList]] := by decide +kernel
  rw [hu] at hw
  injection hw with hw
  rw [hblind] at h
  simp only [Except.bind] at h
  cases ht : mapM' (trainedTag id Demo.float 0 (Demo.ptok 0) Demo.letterSeen Demo.letterProviders Demo.mixedNet) blind with
  | error x => rw [ht] at h; cases h
  | ok pred =>
    rw [ht] at h
    injection h with h
    injection h with h h'
    obtain ⟨table, h1, h2⟩ := C135_scores id Demo.float 0 (Demo.ptok 0) Demo.letterSeen Demo.letterProviders Demo.mixedNet
      Demo.letterDocs (Demo.letter_orders _).sub (by decide +kernel) (by decide +kernel) Demo.letterRead hu (by decide) (fun g hg => (v2 g hg).plain) (fun s h => h)
      (by
        intro p hp
        simp only [Demo.letterProviders, List.mem_cons, List.not_mem_nil, or_false] at hp
        rcases hp with rfl | rfl | rfl
        · trivial
        · trivial
        · intro h
          cases h)
      (by
        intro p hp
        simp only [Demo.letterProviders, List.mem_cons, List.not_mem_nil, or_false] at hp
        rcases hp with rfl | rfl | rfl <;> trivial) hblind ht
      (by
        intro e he h0
        have hm := List.mem_map_of_mem (f := fun d => decide (d.tokens = [])) he
        rw [h] at hm
        simp [h0] at hm)
    obtain ⟨s, s1, s2⟩ := h2 _ _ _ List.mem_cons_self
    rw [hw, h'] at s2
    exact ⟨table, h1, s, s1, s2⟩

end Verif
