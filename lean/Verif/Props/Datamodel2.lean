import Verif.Props.Datamodel

/-!
# Properties of documents, continued (C08 - C15)
-/

namespace Verif

/-! ### helpers: item access -/

theorem pyGet_err {α : Type} {l : List α} {i : Int} (h : i < -(l.length : Int) ∨ (l.length : Int) ≤ i) :
    pyGet l i = .error .index := by
  unfold pyGet
  simp only
  by_cases hi : i < 0
  · rw [if_pos hi, if_pos (by omega)]
  · rw [if_neg hi, if_neg hi, List.getElem?_eq_none (by omega)]

theorem pyGet_mod {α : Type} {l : List α} {i : Int} (h1 : -(l.length : Int) ≤ i)
    (h2 : i < (l.length : Int)) : ∃ hlt : (i % (l.length : Int)).toNat < l.length,
      pyGet l i = .ok l[(i % (l.length : Int)).toNat] := by
  have hm : i % (l.length : Int) = if i < 0 then i + l.length else i := by
    split
    · rw [← Int.add_emod_right, Int.emod_eq_of_lt (by omega) (by omega)]
    · rw [Int.emod_eq_of_lt (by omega) (by omega)]
  have hlt : (i % (l.length : Int)).toNat < l.length := by
    rw [hm]; split <;> omega
  refine ⟨hlt, ?_⟩
  unfold pyGet
  simp only [← hm]
  rw [if_neg (by rw [hm]; split <;> omega), List.getElem?_eq_getElem hlt]

theorem Nav.new_ok {n : Nat} {i : Int} (h1 : -(n : Int) ≤ i) (h2 : i < (n : Int)) :
    Nav.new n i = .ok ⟨n, (i % (n : Int)).toNat⟩ := by
  unfold Nav.new
  rw [if_neg (by omega), if_neg (by omega)]

theorem getToken_ok {text : Str} {toks : List Token} {hv : Token → Option Int} {i : Int}
    (h1 : -(toks.length : Int) ≤ i) (h2 : i < (toks.length : Int)) :
    ∃ hlt : (i % (toks.length : Int)).toNat < toks.length,
      getToken text toks hv i =
        .ok ⟨text, toks, hv, toks[(i % (toks.length : Int)).toNat],
          ⟨toks.length, (i % (toks.length : Int)).toNat⟩⟩ := by
  obtain ⟨hlt, hg⟩ := pyGet_mod h1 h2
  refine ⟨hlt, ?_⟩
  unfold getToken
  rw [hg, Nav.new_ok h1 h2]

theorem getToken_nat {text : Str} {toks : List Token} {hv : Token → Option Int} {i : Nat}
    (h : i < toks.length) :
    getToken text toks hv (i : Int) = .ok ⟨text, toks, hv, toks[i], ⟨toks.length, i⟩⟩ := by
  obtain ⟨hlt, hg⟩ := getToken_ok (text := text) (hv := hv) (toks := toks) (i := (i : Int))
    (by omega) (by omega)
  rw [hg]
  have : ((i : Int) % (toks.length : Int)).toNat = i := by
    rw [Int.emod_eq_of_lt (by omega) (by omega)]; simp
  simp only [this]

/-! ### C09 -/

/-- The outcome of `get_token(i)` for any integer `i`: out-of-range indices raise `IndexError`, all
others give the item at the position Python's indexing denotes. -/
theorem C09_get_token (text : Str) (toks : List Token) (hv : Token → Option Int) (i : Int) :
    ((i < -(toks.length : Int) ∨ (toks.length : Int) ≤ i) ∧ getToken text toks hv i = .error .index) ∨
    ∃ (k : Nat) (hk : k < toks.length) (t : NavToken), getToken text toks hv i = .ok t ∧
      t.token = toks[k] ∧ t.nav.index = k ∧ ((i = k) ∨ (i = (k : Int) - toks.length)) := by
  by_cases h : i < -(toks.length : Int) ∨ (toks.length : Int) ≤ i
  · exact .inl ⟨h, by unfold getToken; rw [pyGet_err h]⟩
  · simp only [not_or, not_lt, not_le] at h
    obtain ⟨hlt, hg⟩ := getToken_ok (text := text) (hv := hv) h.1 h.2
    refine .inr ⟨_, hlt, _, hg, rfl, rfl, ?_⟩
    by_cases hi : i < 0
    · right
      rw [← Int.add_emod_right, Int.emod_eq_of_lt (by omega) (by omega)]
      omega
    · left
      rw [Int.emod_eq_of_lt (by omega) (by omega)]
      omega

/-- C09 for tokens: `next` is `None` exactly at the last token, `previous` exactly at the first;
otherwise they give the neighbour, and going there and back returns to the same token. -/
theorem C09_token_navigation {text : Str} {toks : List Token} {hv : Token → Option Int} {i : Int}
    {t : NavToken} (h : getToken text toks hv i = .ok t) :
    (t.next = .ok none ↔ t.nav.index + 1 = toks.length) ∧
    (t.previous = .ok none ↔ t.nav.index = 0) ∧
    (∀ hlt : t.nav.index + 1 < toks.length, ∃ n, t.next = .ok (some n) ∧ n.token = toks[t.nav.index + 1] ∧
      n.nav.index = t.nav.index + 1 ∧ n.previous = .ok (some t)) ∧
    (0 < t.nav.index → ∃ n, t.previous = .ok (some n) ∧ n.nav.index + 1 = t.nav.index ∧
      toks[n.nav.index]? = some n.token ∧ n.next = .ok (some t)) := by
  rcases C09_get_token text toks hv i with ⟨_, he⟩ | ⟨k, hk, t', ht, h1, h2, h3⟩
  · rw [he] at h; cases h
  · have hin : -(toks.length : Int) ≤ i ∧ i < (toks.length : Int) := by omega
    obtain ⟨hlt, hg⟩ := getToken_ok (text := text) (hv := hv) hin.1 hin.2
    rw [h] at ht; injection ht with ht; subst ht
    rw [h] at hg; injection hg with hg
    have hki : (i % (toks.length : Int)).toNat = k := by rw [hg] at h2; exact h2
    have hg' : t = ⟨text, toks, hv, toks[k], ⟨toks.length, k⟩⟩ := by
      rw [hg]; simp only [hki]
    clear h1 h2 h3 h hg hki hlt hin
    subst hg'
    unfold NavToken.next NavToken.previous Nav.isFirst Nav.isLast
    simp only [beq_iff_eq]
    have e1 : ∀ h1 : k + 1 < toks.length, getToken text toks hv ((k : Int) + 1) =
        .ok ⟨text, toks, hv, toks[k + 1], ⟨toks.length, k + 1⟩⟩ := fun h1 => by
      have := getToken_nat (text := text) (hv := hv) h1
      push_cast at this; exact this
    have e2 : 0 < k → getToken text toks hv ((k : Int) - 1) =
        .ok ⟨text, toks, hv, toks[k - 1], ⟨toks.length, k - 1⟩⟩ := fun h1 => by
      have := getToken_nat (text := text) (hv := hv) (i := k - 1) (toks := toks) (by omega)
      rw [show ((k - 1 : Nat) : Int) = (k : Int) - 1 by omega] at this
      exact this
    have e0 := getToken_nat (text := text) (hv := hv) hk
    refine ⟨?_, ?_, ?_, ?_⟩
    · constructor
      · intro h
        split at h
        · omega
        · rw [e1 (by omega)] at h; simp at h
      · intro h; rw [if_pos (by omega)]
    · constructor
      · intro h
        split at h
        · omega
        · rw [e2 (by omega)] at h; simp at h
      · intro h; rw [if_pos h]
    · intro h
      rw [if_neg (by omega), e1 h]
      refine ⟨_, rfl, rfl, rfl, ?_⟩
      simp only
      rw [if_neg (by omega)]
      have : ((k + 1 : Nat) : Int) - 1 = (k : Int) := by omega
      rw [this, e0]
    · intro h
      rw [if_neg (by omega), e2 h]
      refine ⟨_, rfl, by simp only; omega, by simp, ?_⟩
      simp only
      rw [if_neg (by omega)]
      have : ((k - 1 : Nat) : Int) + 1 = (k : Int) := by omega
      rw [this, e0]

theorem getSentence_nat {d : Document} (hd : DocOk d) {k : Nat} (hk : k < d.sentences.length) :
    d.getSentence k = .ok ⟨d, d.sentenceTokens d.sentences[k], ⟨d.sentences.length, k⟩⟩ := by
  unfold Document.getSentence
  rw [pyGet_nat_ok.mpr (List.getElem?_eq_getElem hk)]
  simp only [wordList_slice hd]
  rw [Nav.new_ok (by omega) (by omega), Int.emod_eq_of_lt (by omega) (by omega)]
  rfl

/-- C09 for sentences of a constructed document. -/
theorem C09_sentence_navigation {d : Document} (hb : Built d) (i : Int) :
    ((i < -(d.sentences.length : Int) ∨ (d.sentences.length : Int) ≤ i) ∧
        d.getSentence i = .error .index) ∨
    ∃ (k : Nat) (hk : k < d.sentences.length) (s : NavSentence), d.getSentence i = .ok s ∧
      s.nav.index = k ∧ s.tokens = d.sentenceTokens d.sentences[k] ∧
      ((i = k) ∨ (i = (k : Int) - d.sentences.length)) ∧
      (s.next = .ok none ↔ k + 1 = d.sentences.length) ∧
      (s.previous = .ok none ↔ k = 0) ∧
      (k + 1 < d.sentences.length → ∃ n, s.next = .ok (some n) ∧ n.nav.index = k + 1 ∧
        n.previous = .ok (some s)) ∧
      (0 < k → ∃ n, s.previous = .ok (some n) ∧ n.nav.index + 1 = k ∧ n.next = .ok (some s)) := by
  have hd := hb.docOk
  by_cases h : i < -(d.sentences.length : Int) ∨ (d.sentences.length : Int) ≤ i
  · exact .inl ⟨h, by unfold Document.getSentence; rw [pyGet_err h]⟩
  simp only [not_or, not_lt, not_le] at h
  obtain ⟨hlt, hg⟩ := pyGet_mod h.1 h.2
  have hs : d.getSentence i = d.getSentence ((i % (d.sentences.length : Int)).toNat : Nat) := by
    rw [getSentence_nat hd hlt]
    unfold Document.getSentence
    rw [hg]
    simp only [wordList_slice hd]
    rw [Nav.new_ok h.1 h.2]
    rfl
  generalize hk : (i % (d.sentences.length : Int)).toNat = k at *
  refine .inr ⟨k, hlt, _, hs.trans (getSentence_nat hd hlt), rfl, rfl, ?_, ?_⟩
  · by_cases hi : i < 0
    · right
      rw [← Int.add_emod_right, Int.emod_eq_of_lt (by omega) (by omega)] at hk
      omega
    · left
      rw [Int.emod_eq_of_lt (by omega) (by omega)] at hk
      omega
  clear hk hs hg h
  unfold NavSentence.next NavSentence.previous Nav.isFirst Nav.isLast
  simp only [beq_iff_eq]
  have e1 : ∀ h1 : k + 1 < d.sentences.length, d.getSentence ((k : Int) + 1) =
      .ok ⟨d, d.sentenceTokens d.sentences[k + 1], ⟨d.sentences.length, k + 1⟩⟩ := fun h1 => by
    have := getSentence_nat hd h1
    push_cast at this; exact this
  have e2 : 0 < k → d.getSentence ((k : Int) - 1) =
      .ok ⟨d, d.sentenceTokens d.sentences[k - 1], ⟨d.sentences.length, k - 1⟩⟩ := fun h1 => by
    have := getSentence_nat hd (k := k - 1) (by omega)
    rw [show ((k - 1 : Nat) : Int) = (k : Int) - 1 by omega] at this
    exact this
  have e0 := getSentence_nat hd hlt
  refine ⟨?_, ?_, ?_, ?_⟩
  · constructor
    · intro h
      split at h
      · omega
      · rw [e1 (by omega)] at h; simp at h
    · intro h; rw [if_pos (by omega)]
  · constructor
    · intro h
      split at h
      · omega
      · rw [e2 (by omega)] at h; simp at h
    · intro h; rw [if_pos h]
  · intro h
    rw [if_neg (by omega), e1 h]
    refine ⟨_, rfl, rfl, ?_⟩
    simp only
    rw [if_neg (by omega)]
    have : ((k + 1 : Nat) : Int) - 1 = (k : Int) := by omega
    rw [this, e0]
  · intro h
    rw [if_neg (by omega), e2 h]
    refine ⟨_, rfl, by simp only; omega, ?_⟩
    simp only
    rw [if_neg (by omega)]
    have : ((k - 1 : Nat) : Int) + 1 = (k : Int) := by omega
    rw [this, e0]

example : (∃ t, Demo.doc.getToken (-4) = .ok t ∧ t.nav.index = 0) ∧
    Demo.doc.getToken (-5) = .error .index ∧ Demo.doc.getToken 4 = .error .index :=
  ⟨⟨_, rfl, rfl⟩, rfl, rfl⟩

/-! ### C08 -/

/-- C08: in a document accepted with validation, the head of a non-root token seen from its sentence
is the token at the same document position as its head seen from the document. -/
theorem C08_heads_same_token {d : Document} (h : BuiltValid d) (k : Nat)
    (hk : k < d.sentences.length) (i : Nat) (hi : i < (d.sentences[k]).len)
    (t : Token) (ht : d.tokens[(d.sentences[k]).start + i]? = some t) (hh : t.hasHead = true) (hr : t.isRoot = false) :
    ∃ (ns : NavSentence) (a b ha hb : NavToken),
      d.getSentence k = .ok ns ∧ ns.getToken i = .ok a ∧
      d.getToken (((d.sentences[k]).start + i : Nat) : Int) = .ok b ∧ a.token = t ∧ b.token = t ∧
      a.head = .ok (some ha) ∧ b.head = .ok (some hb) ∧
      hb.nav.index = (d.sentences[k]).start + ha.nav.index ∧ ha.token = hb.token := by
  obtain ⟨text, tokens, sents, hnew⟩ := h
  have hd := new_docOk hnew
  have hs : d.sentences[k] ∈ d.sentences := List.getElem_mem hk
  generalize hsk : d.sentences[k] = s at *
  have hstop := hd.stop_le hs
  have hlen : (d.sentenceTokens s).length = s.len := slice_len hstop
  have hti : (d.sentenceTokens s)[i]? = some t := by
    show (slice d.tokens s.start s.stop)[i]? = some t
    rw [slice_getElem?, if_pos (show i < s.stop - s.start from hi)]; exact ht
  have hilt : i < (d.sentenceTokens s).length := by omega
  obtain ⟨hjlt, hjt⟩ := List.getElem?_eq_some_iff.mp ht
  -- the head
  have hcan := hd.canon_slice hs t (List.mem_of_getElem? hti)
  obtain ⟨a, ha1, ha2⟩ := canon_hasHead hcan hh hr
  have htree : IsTree (d.sentenceTokens s) := by
    rcases (C07_validation_iff_forest.mp hnew).2 s hs with hl | hl
    · have := hasHead_false.mpr (hl t (List.mem_of_getElem? hti))
      rw [hh] at this; cases this
    · exact hl
  obtain ⟨n, hn1, hn2⟩ := (C07_tree_heads htree).2 t (List.mem_of_getElem? hti) hr
  rw [ha1] at hn1
  injection hn1 with hn1
  subst hn1
  have hnlt : s.start + n < d.tokens.length := by
    have := hn2; rw [hlen] at this; unfold Sentence.len at this; have := s.lt; omega
  have hgs := getSentence_nat hd hk
  rw [hsk] at hgs
  refine ⟨_, ⟨d.text, d.sentenceTokens s, Token.headSent, t, ⟨(d.sentenceTokens s).length, i⟩⟩,
    ⟨d.text, d.tokens, Token.headDoc, t, ⟨d.tokens.length, s.start + i⟩⟩,
    ⟨d.text, d.sentenceTokens s, Token.headSent, (d.sentenceTokens s)[n], ⟨(d.sentenceTokens s).length, n⟩⟩,
    ⟨d.text, d.tokens, Token.headDoc, d.tokens[s.start + n], ⟨d.tokens.length, s.start + n⟩⟩,
    hgs, ?_, ?_, rfl, rfl, ?_, ?_, rfl, ?_⟩
  · unfold NavSentence.getToken
    rw [getToken_nat hilt]
    simp only [(List.getElem?_eq_some_iff.mp hti).2]
  · unfold Document.getToken
    rw [getToken_nat hjlt]
    simp only [hjt]
  · unfold NavToken.head
    simp only [hr, Bool.false_eq_true, if_false, ha1]
    rw [getToken_nat hn2]
  · unfold NavToken.head
    simp only [hr, Bool.false_eq_true, if_false, ha2]
    rw [show (n : Int) + (s.start : Int) = ((s.start + n : Nat) : Int) by push_cast; omega]
    rw [getToken_nat hnlt]
  · apply Option.some.inj
    rw [← List.getElem?_eq_getElem, ← List.getElem?_eq_getElem]
    show (slice d.tokens s.start s.stop)[n]? = _
    rw [slice_getElem?, if_pos (by rw [hlen] at hn2; exact hn2)]

/-- C08: `head` of a root is `None` and of a token without head raises `TypeError`. -/
theorem C08_head_edge_cases (t : NavToken) :
    (t.token.isRoot = true → t.head = .ok none) ∧
    (t.token.hasHead = false → (t.headView = Token.headDoc ∨ t.headView = Token.headSent) →
      t.head = .error .type) := by
  constructor
  · intro h; simp [NavToken.head, h]
  · intro h hv
    have h' := hasHead_false.mp h
    have hr : t.token.isRoot = false := by simp [Token.isRoot, h'.1, h'.2]
    rcases hv with hv | hv <;> simp [NavToken.head, hr, hv, h'.1, h'.2]

example : BuiltValid Demo.doc ∧ ∃ t, Demo.doc.tokens[2]? = some t ∧ t.hasHead = true ∧ t.isRoot = false :=
  ⟨Demo.docBuiltValid, _, rfl, rfl, rfl⟩

/-! ### C10 -/

theorem Tiles.end_unique {a n m : Nat} {ss : List Sentence} (h1 : Tiles a ss n) (h2 : Tiles a ss m) :
    n = m := by
  induction ss generalizing a with
  | nil => simp only [Tiles] at h1 h2; omega
  | cons s ss ih => exact ih h1.2 h2.2

/-- C10: replacing the tokens keeps text, sentence boundaries and spans, whatever non-empty list of
tokens is given; in particular a missing, additional or moved span makes it raise. -/
theorem C10_from_document_structure {d d' : Document} {tokens : List Token} (hb : Built d)
    (hne : tokens ≠ []) (h : d.fromDocument tokens = .ok d') :
    d'.text = d.text ∧ d'.sentences = d.sentences ∧
    List.Forall₂ (fun a b : Token => a.start = b.start ∧ a.stop = b.stop) d.tokens d'.tokens ∧
    ∃ l : List Token, l.Perm tokens ∧ List.Forall₂ SameButHeads l d'.tokens := by
  have hd := hb.docOk
  unfold Document.fromDocument at h
  simp only at h
  by_cases hc : ((d.tokens.zip (pySorted tokLe tokens)).any fun p => !p.1.coincides p.2) = true
  · rw [if_pos hc] at h; cases h
  rw [if_neg hc] at h
  have hp := pySorted_perm tokLe tokens
  have hne' : pySorted tokLe tokens ≠ [] := fun e => hne (by rw [e] at hp; exact hp.nil_eq.symm)
  obtain ⟨hB, hN, hT, hF, h1, hS, _⟩ := (Document.new_ok_iff hne').mp h
  have h2 := new_forall₂ hne' h
  rw [sortedSentences_of_ne hne', pySorted_eq_self sentLe hd.tiles.sorted] at hT hS hF
  have hlen : d.tokens.length = (pySorted tokLe tokens).length := hd.tiles.end_unique hT
  have hss : pySorted tokLe (pySorted tokLe tokens) = pySorted tokLe tokens :=
    pySorted_eq_self tokLe (pySorted_pairwise tokLe tokLe_total tokLe_trans _)
  rw [hss] at h2
  refine ⟨h1, hS, ?_, _, hp, h2⟩
  rw [List.forall₂_iff_get] at h2 ⊢
  refine ⟨by omega, ?_⟩
  intro i hi hi'
  have hi2 : i < (pySorted tokLe tokens).length := by omega
  have h3 := h2.2 i hi2 hi'
  simp only [List.get_eq_getElem] at h3 ⊢
  have h4 : (d.tokens[i]).coincides (pySorted tokLe tokens)[i] = true := by
    simp only [Bool.not_eq_true, List.any_eq_false] at hc
    have hm : (d.tokens[i], (pySorted tokLe tokens)[i]) ∈ d.tokens.zip (pySorted tokLe tokens) := by
      rw [List.mem_iff_getElem]
      exact ⟨i, by rw [List.length_zip]; omega, by simp⟩
    have := hc _ hm
    simpa using this
  unfold Token.coincides at h4
  simp only [Bool.and_eq_true, beq_iff_eq] at h4
  exact ⟨h4.1.trans h3.1, h4.2.trans h3.2.1⟩

/-- C10: the hypothesis of a non-empty list is needed: an empty list silently drops every token and
sentence. -/
theorem C10_empty_list_drops_everything (d : Document) :
    d.fromDocument [] = .ok ⟨d.text, [], []⟩ := by
  unfold Document.fromDocument
  rw [pySorted_nil]
  simp [Document.new_nil]

example : Demo.doc.fromDocument Demo.doc.tokens = .ok Demo.doc := by decide
example : Demo.doc.fromDocument (Demo.doc.tokens.take 3) = .error .value := by decide

/-! ### C11 -/

/-- C11 is false in general: a head given in the document view that points just before its sentence
becomes a root; wrapping the tokens again then changes the document. -/
theorem C11_refuted : ∃ d d' : Document, Built d ∧ d.fromDocument d.tokens = .ok d' ∧
    d.pyEq d' = false := by
  refine ⟨⟨['a', 'b'],
    [{ start := 0, stop := 1 }, { start := 1, stop := 2, headDoc := some 0, headSent := some (-1) }],
    [{ start := 0, stop := 1 }, { start := 1, stop := 2 }]⟩, ⟨['a', 'b'],
    [{ start := 0, stop := 1 }, { start := 1, stop := 2, headDoc := some (-1), headSent := some (-1) }],
    [{ start := 0, stop := 1 }, { start := 1, stop := 2 }]⟩,
    ⟨['a', 'b'], [{ start := 0, stop := 1 }, { start := 1, stop := 2, headDoc := some 0 }],
      some [{ start := 0, stop := 1 }, { start := 1, stop := 2 }], true, ?_⟩, ?_, ?_⟩ <;> decide

theorem Filled.root_canon {k : Nat} {t t' : Token} (h : Filled k t t') (hr : t.isRoot = true) :
    t'.headDoc = some (-1) ∧ t'.headSent = some (-1) := by
  unfold Token.isRoot at hr
  simp only [Bool.or_eq_true, beq_iff_eq] at hr
  cases h with
  | none h8 h9 => simp [h8, h9] at hr
  | root h => exact ⟨rfl, rfl⟩
  | sent h8 h9 h10 =>
    rcases hr with hr | hr
    · rcases h10 with h10 | ⟨h10, h11⟩
      · simp [h10] at hr
      · rw [h10] at hr; injection hr with hr; exact absurd hr h11
    · rw [h8] at hr; injection hr with hr; exact absurd hr h9
  | doc h8 h9 h10 =>
    rcases hr with hr | hr
    · rw [h8] at hr; injection hr with hr; exact absurd hr h9
    · simp [h10] at hr

/-- C11, exactly when it holds: re-wrapping always succeeds, and is the identity if and only if every
root carries -1 in both head views.
(Missing for the unconditional claim: documents in which a head outside the sentence happens to have
index -1 in one view, see `C11_refuted`.) -/
theorem C11_rewrap_identity_partial {d : Document} (hb : Built d) :
    (∃ d', d.fromDocument d.tokens = .ok d') ∧
    (d.fromDocument d.tokens = .ok d ↔
      ∀ t ∈ d.tokens, t.isRoot = true → t.headDoc = some (-1) ∧ t.headSent = some (-1)) := by
  have hd := hb.docOk
  have hsort := pySorted_before hd.order
  have hzip : ((d.tokens.zip d.tokens).any fun p => !p.1.coincides p.2) = false := by
    rw [List.any_eq_false]
    rintro ⟨a, b⟩ hab
    obtain ⟨i, hi, hi'⟩ := List.mem_iff_getElem.mp hab
    simp only [List.getElem_zip, Prod.mk.injEq] at hi'
    obtain ⟨rfl, rfl⟩ := hi'
    simp [Token.coincides]
  by_cases hne : d.tokens = []
  · have hsen : d.sentences = [] := by
      have := hd.tiles
      rw [hne] at this
      cases hs : d.sentences with
      | nil => rfl
      | cons s ss =>
        rw [hs] at this
        have h1 := this.2.le
        have h2 := s.lt
        simp at h1; omega
    have : d.fromDocument d.tokens = .ok d := by
      rw [hne, C10_empty_list_drops_everything]
      cases d; simp_all
    refine ⟨⟨d, this⟩, ?_⟩
    rw [hne]
    rw [hne] at this
    simp [this]
  have hfd : d.fromDocument d.tokens = Document.new d.text d.tokens (some d.sentences) false := by
    unfold Document.fromDocument
    simp only [hsort, hzip, Bool.false_eq_true, if_false]
  have hss : sortedSentences d.tokens (some d.sentences) = d.sentences := by
    rw [sortedSentences_of_ne hne, pySorted_eq_self sentLe hd.tiles.sorted]
  rw [hfd]
  have hfix : ∀ (hroots : ∀ t ∈ d.tokens, t.isRoot = true → t.headDoc = some (-1) ∧ t.headSent = some (-1)),
      fillTokenHeads d.tokens d.sentences = .ok d.tokens := by
    intro hroots
    refine fillTokenHeads_eq hd.tiles (by simp) ?_
    intro s hs j h1 h2 t t' h3 h4
    simp only [Nat.sub_zero] at h4
    rw [h3] at h4
    injection h4 with h4
    subst h4
    exact fillHeads_fixed (hd.canon s hs j t h1 h2 h3) (hroots t (List.mem_of_getElem? h3))
  constructor
  · have hok : ∃ r, fillTokenHeads d.tokens d.sentences = .ok r := by
      apply fillTokenHeads_isOk.mpr
      intro s hs t ht
      have := hd.canon_slice hs t ht
      intro a b ha hb
      rcases this with ⟨h1, _⟩ | ⟨h1, h2⟩ | ⟨x, h1, h2⟩
      · simp [h1] at ha
      · rw [h1] at ha; injection ha with ha; exact .inl ha.symm
      · rw [h1] at ha; rw [h2] at hb
        injection ha with ha; injection hb with hb
        right; right; omega
    obtain ⟨r, hr⟩ := hok
    refine ⟨⟨d.text, r, d.sentences⟩, (Document.new_ok_iff hne).mpr ?_⟩
    rw [hss, hsort]
    exact ⟨hd.order, hd.numbered, hd.tiles, hr, rfl, rfl, by simp⟩
  · constructor
    · intro h t ht hr
      obtain ⟨_, h2⟩ := new_tokens hne h
      obtain ⟨j, hj, rfl⟩ := List.mem_iff_getElem.mp ht
      obtain ⟨s, hs, h3, h4⟩ := hd.tiles.cover (Nat.zero_le j) hj
      obtain ⟨_, _, _, hF, _⟩ := (Document.new_ok_iff hne).mp h
      rw [hss, hsort] at hF
      obtain ⟨t0, t', h5, h6, h7⟩ := h2 s hs j h3 h4
      rw [hsort, List.getElem?_eq_getElem hj] at h5
      rw [List.getElem?_eq_getElem hj] at h6
      injection h5 with h5; injection h6 with h6
      subst h5
      rw [← h6] at h7
      exact h7.root_canon hr
    · intro hroots
      refine (Document.new_ok_iff hne).mpr ?_
      rw [hss, hsort]
      exact ⟨hd.order, hd.numbered, hd.tiles, hfix hroots, rfl, rfl, by simp⟩

example : Built Demo.doc ∧ ∀ t ∈ Demo.doc.tokens, t.isRoot = true →
    t.headDoc = some (-1) ∧ t.headSent = some (-1) := ⟨Demo.docBuilt, by decide⟩

end Verif
