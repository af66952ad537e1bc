import Verif.Proofs.Built

/-!
# Properties of documents (C01 - C13)
-/

namespace Verif

/-! A concrete document used to show that hypotheses can be met: the text "ab cd e" with a
two-word multiword token and two sentences, the second with heads given in different notations. -/

namespace Demo

def text : Str := "ab cd e".toList
/-- word 0 of the multiword token "ab" -/
def t0 : Token := { start := 0, stop := 2, sub := 0, repl := some ['a'], headSent := some 1 }
/-- word 1 of the multiword token "ab", the root of the first sentence -/
def t1 : Token := { start := 0, stop := 2, sub := 1, repl := some ['b'], headSent := some (-1), mwOk := by simp }
/-- "cd", head given in the document view -/
def t2 : Token := { start := 3, stop := 5, headDoc := some 3 }
/-- "e", the root of the second sentence -/
def t3 : Token := { start := 6, stop := 7, headDoc := some (-1) }
def s0 : Sentence := { start := 0, stop := 2 }
def s1 : Sentence := { start := 2, stop := 4 }

def doc : Document :=
  { text := text
    tokens := [{ t0 with headDoc := some 1 }, { t1 with headDoc := some (-1) },
               { t2 with headSent := some 1 }, { t3 with headSent := some (-1) }]
    sentences := [s0, s1] }

theorem built : Document.new text [t3, t1, t2, t0] (some [s1, s0]) true = .ok doc := by decide

theorem docBuilt : Built doc := ⟨_, _, _, _, built⟩
theorem docBuiltValid : BuiltValid doc := ⟨_, _, _, built⟩

end Demo

/-! ### C01 -/

/-- C01: the tokens of a constructed document are the given ones (in some order, heads aside), and
any two of them are strictly ordered, hence never intersect. -/
theorem C01_tokens_ordered {text : Str} {tokens : List Token} {sents : Option (List Sentence)}
    {v : Bool} {d : Document} (h : Document.new text tokens sents v = .ok d) :
    (∃ l : List Token, l.Perm tokens ∧ List.Forall₂ SameButHeads l d.tokens) ∧
    (∀ (i j : Nat) (hi : i < d.tokens.length) (hj : j < d.tokens.length), i < j →
      Before d.tokens[i] d.tokens[j]) ∧
    (∀ (i j : Nat) (hi : i < d.tokens.length) (hj : j < d.tokens.length), i ≠ j →
      d.tokens[i].intersects d.tokens[j] = false) := by
  have hd := new_docOk h
  have hord : ∀ (i j : Nat) (hi : i < d.tokens.length) (hj : j < d.tokens.length), i < j →
      Before d.tokens[i] d.tokens[j] := fun i j hi hj hij =>
    List.pairwise_iff_getElem.mp hd.order i j hi hj hij
  refine ⟨?_, hord, ?_⟩
  · by_cases hne : tokens = []
    · subst hne
      rw [Document.new_nil] at h
      injection h with h
      subst h
      exact ⟨[], .nil, .nil⟩
    · exact ⟨pySorted tokLe tokens, pySorted_perm _ _, new_forall₂ hne h⟩
  · intro i j hi hj hij
    rcases Nat.lt_or_gt_of_ne hij with hlt | hlt
    · exact (hord i j hi hj hlt).not_intersects
    · have hb := hord j i hj hi hlt
      rw [Token.intersects_comm]
      exact hb.not_intersects

example : (∃ d, Document.new Demo.text [Demo.t3, Demo.t1, Demo.t2, Demo.t0]
    (some [Demo.s1, Demo.s0]) true = .ok d) := ⟨_, Demo.built⟩

/-! ### C02 -/

theorem wordList_perm {l₁ l₂ : List Token} (h : l₁.Perm l₂) (ss : List Sentence) :
    wordList l₁ ss = wordList l₂ ss := by
  unfold wordList
  have key : ∀ {a b : List Token}, a.Perm b →
      checkForSequence Token.intersects (pySorted tokLe a) = true → pySorted tokLe a = pySorted tokLe b := by
    intro a b hab hc
    have hp := (nonIntersecting_iff a).mp hc
    apply pySorted_eq_of_perm tokLe tokLe_total tokLe_trans _ hab
    intro x y hx hy
    exact pairwise_before_anti hp ((mem_pySorted tokLe).mpr hx) ((mem_pySorted tokLe).mpr hy)
  by_cases h1 : checkForSequence Token.intersects (pySorted tokLe l₁) = true
  · rw [key h h1]
  · by_cases h2 : checkForSequence Token.intersects (pySorted tokLe l₂) = true
    · rw [key h.symm h2]
    · simp [h1, h2]

/-- C02: construction does not depend on the order of tokens and sentences. -/
theorem C02_permutation_independent {text : Str} {l₁ l₂ : List Token} {s₁ s₂ : List Sentence}
    (v : Bool) (ht : l₁.Perm l₂) (hs : s₁.Perm s₂) :
    Document.new text l₁ (some s₁) v = Document.new text l₂ (some s₂) v ∧
    Document.new text l₁ none v = Document.new text l₂ none v := by
  by_cases hne : l₁ = []
  · subst hne
    have : l₂ = [] := ht.nil_eq.symm
    subst this
    simp [Document.new_nil]
  have hne2 : l₂ ≠ [] := fun e => hne (by subst e; exact ht.eq_nil)
  have e1 : sortedSentences l₁ (some s₁) = sortedSentences l₂ (some s₂) := by
    rw [sortedSentences_of_ne hne, sortedSentences_of_ne hne2]
    exact pySorted_eq_of_perm sentLe sentLe_total sentLe_trans
      (fun a b _ _ => sentLe_antisymm a b) hs
  have hl := ht.length_eq
  have e2 : sortedSentences l₁ none = sortedSentences l₂ none := by
    unfold sortedSentences
    simp [hl]
  have i1 : l₁.isEmpty = false := by simpa using hne
  have i2 : l₂.isEmpty = false := by simpa using hne2
  constructor
  · unfold Document.new
    simp only [e1, wordList_perm ht, hl, i1, i2]
  · unfold Document.new
    simp only [e2, wordList_perm ht, hl, i1, i2]

example : Document.new Demo.text [Demo.t0, Demo.t1, Demo.t2, Demo.t3] (some [Demo.s0, Demo.s1]) true =
    .ok Demo.doc := by
  have := (C02_permutation_independent (text := Demo.text) (l₁ := [Demo.t0, Demo.t1, Demo.t2, Demo.t3])
    (l₂ := [Demo.t3, Demo.t1, Demo.t2, Demo.t0]) (s₁ := [Demo.s0, Demo.s1]) (s₂ := [Demo.s1, Demo.s0])
    true (by decide) (by decide)).1
  rw [this]; exact Demo.built

/-! ### C03 -/

/-- C03: sentence boundaries tile the token positions; every sentence can be obtained, contains
exactly its slice, and the sentences' tokens concatenate to the document's tokens. -/
theorem C03_sentences_partition {d : Document} (h : Built d) :
    Tiles 0 d.sentences d.tokens.length ∧
    (∀ s ∈ d.sentences, s.start < s.stop) ∧
    (∀ (k : Nat) (hk : k < d.sentences.length), ∃ ns, d.getSentence k = .ok ns ∧
      ns.tokens = d.sentenceTokens d.sentences[k] ∧ ns.tokens ≠ [] ∧ ns.nav.index = k) ∧
    (d.sentences.map d.sentenceTokens).flatten = d.tokens := by
  have hd := h.docOk
  refine ⟨hd.tiles, fun s _ => s.lt, ?_, ?_⟩
  · intro k hk
    unfold Document.getSentence
    rw [pyGet_nat_ok.mpr (List.getElem?_eq_getElem hk)]
    simp only [wordList_slice hd]
    have : Nav.new d.sentences.length k = .ok ⟨d.sentences.length, k⟩ := by
      unfold Nav.new
      rw [if_neg (by omega), if_neg (by omega)]
      congr 2
      rw [Int.emod_eq_of_lt (by omega) (by omega)]
      simp
    rw [this]
    refine ⟨_, rfl, rfl, ?_, rfl⟩
    have hb := hd.tiles.mem (List.getElem_mem hk)
    have hlt := (d.sentences[k]).lt
    intro e
    have e' := congrArg List.length e
    simp only [slice_length, List.length_nil] at e'
    omega
  · have := tiles_flatten d.tokens hd.tiles
    rw [slice_zero_length] at this
    exact this

example : Built Demo.doc ∧ Demo.doc.sentences.length = 2 := ⟨Demo.docBuilt, rfl⟩

/-! ### C04 -/

/-- C04: what the constructor accepts when no validation is requested.  `l` is the token list in
document order (any arrangement of the tokens in which positions are ordered), `ss` the sentences in
order. -/
theorem C04_accepts_iff {text : Str} {tokens : List Token} {sents : List Sentence}
    (hne : tokens ≠ []) :
    (∃ d, Document.new text tokens (some sents) false = .ok d) ↔
      ∃ (l : List Token) (ss : List Sentence), l.Perm tokens ∧ ss.Perm sents ∧ l.Pairwise Before ∧
        (∀ (i : Nat) (hi : i + 1 < l.length), NumberedAfter l[i] l[i + 1]) ∧
        Tiles 0 ss l.length ∧
        ∀ s ∈ ss, ∀ (j : Nat) (hj : j < l.length), s.start ≤ j → j < s.stop →
          HeadsConsistent s.start l[j] := by
  constructor
  · rintro ⟨d, h⟩
    obtain ⟨hB, hN, hT, hF, _, hS, _⟩ := (Document.new_ok_iff hne).mp h
    rw [sortedSentences_of_ne hne] at hT hF
    have hl := pySorted_length tokLe tokens
    refine ⟨_, _, pySorted_perm tokLe tokens, pySorted_perm sentLe sents, hB, ?_, by rw [hl]; exact hT, ?_⟩
    · intro i hi
      exact List.isChain_iff_getElem.mp hN i hi
    · intro s hs j hj h1 h2
      have := fillTokenHeads_isOk.mp ⟨_, hF⟩ s hs
      exact this _ (mem_slice.mpr ⟨j, h1, h2, List.getElem?_eq_getElem hj⟩)
  · rintro ⟨l, ss, hl, hss, hB, hN, hT, hH⟩
    have e1 : pySorted tokLe tokens = l := by
      rw [← pySorted_eq_of_perm tokLe tokLe_total tokLe_trans
        (fun a b ha hb => pairwise_before_anti hB ha hb) hl]
      exact pySorted_before hB
    have e2 : pySorted sentLe sents = ss := by
      rw [← pySorted_eq_of_perm sentLe sentLe_total sentLe_trans
        (fun a b _ _ => sentLe_antisymm a b) hss]
      exact pySorted_eq_self sentLe hT.sorted
    have hf : ∃ r, fillTokenHeads l ss = .ok r := by
      apply fillTokenHeads_isOk.mpr
      intro s hs t ht
      obtain ⟨j, h1, h2, h3⟩ := mem_slice.mp ht
      obtain ⟨hj, h4⟩ := List.getElem?_eq_some_iff.mp h3
      exact h4 ▸ hH s hs j hj h1 h2
    obtain ⟨r, hr⟩ := hf
    refine ⟨⟨text, r, ss⟩, (Document.new_ok_iff hne).mpr ?_⟩
    rw [sortedSentences_of_ne hne, e1, e2]
    exact ⟨hB, List.isChain_iff_getElem.mpr hN, by rw [← hl.length_eq]; exact hT, hr, rfl, rfl, by simp⟩

/-- C04, the default: without a sentence list the whole token list is one sentence, and an empty
token list is always accepted. -/
theorem C04_defaults {text : Str} {tokens : List Token} (v : Bool) :
    (Document.new text [] none v = .ok ⟨text, [], []⟩) ∧
    (∀ h : 0 < tokens.length,
      Document.new text tokens none v = Document.new text tokens (some [⟨0, tokens.length, h⟩]) v) := by
  refine ⟨Document.new_nil _ _ _, ?_⟩
  intro h
  have hne : tokens ≠ [] := List.length_pos_iff.mp h
  have e : sortedSentences tokens none = sortedSentences tokens (some [⟨0, tokens.length, h⟩]) := by
    rw [sortedSentences_of_ne hne]
    simp [sortedSentences, h, pySorted]
  unfold Document.new
  simp only [e]

/-- C04: tokens with an explicitly empty sentence list raise `IndexError`, not `ValueError`, unless
the token checks fail first. -/
theorem C04_no_sentences {text : Str} {tokens : List Token} (hne : tokens ≠ []) (v : Bool) :
    Document.new text tokens (some []) v = .error .index ∨
    Document.new text tokens (some []) v = .error .value := by
  unfold Document.new wordList
  rw [sortedSentences_of_ne hne]
  have : tokens.isEmpty = false := by simpa using hne
  simp only [pySorted_nil, List.isEmpty_nil, if_true]
  split
  · rename_i h
    split at h
    · injection h with h; subst h; exact .inr rfl
    · split at h
      · injection h with h; subst h; exact .inr rfl
      · cases h
  · simp [this]

example : (∃ d, Document.new Demo.text [Demo.t0, Demo.t1, Demo.t2, Demo.t3]
    (some [Demo.s0, Demo.s1]) false = .ok d) := ⟨Demo.doc, by decide⟩
example : Document.new Demo.text [Demo.t0, { Demo.t2 with start := 1, lt := by decide }] none false =
    .error .value := by decide
example : Document.new Demo.text [Demo.t0] (some []) false = .error .index := by decide

/-! ### C05 -/

/-- C05 is false as stated: a document may start with a word numbered 5 (only neighbours are
compared, so the first token is not checked). -/
theorem C05_refuted : ∃ (text : Str) (tokens : List Token) (d : Document),
    Document.new text tokens none true = .ok d ∧ ∃ t, d.tokens = [t] ∧ t.repl.isSome ∧ t.sub = 5 :=
  ⟨['a'], [{ start := 0, stop := 1, sub := 5, repl := some ['x'], mwOk := by simp }], _,
    rfl, _, rfl, rfl, rfl⟩

/-- C05 up to the first token: if the first token of the document carries `sub_index` 0, then the
words of every multiword token are numbered 0, 1, 2, ... in order: the token at position `j` has as
`sub_index` the distance to the first token `i` with the same span.
(Missing: a document whose first token has another `sub_index` is accepted, see `C05_refuted`.) -/
theorem C05_multiword_numbered_partial {d : Document} (h : Built d)
    (hfirst : ∀ t, d.tokens[0]? = some t → t.sub = 0)
    (i j : Nat) (hj : j < d.tokens.length) (hij : i ≤ j)
    (hsame : d.tokens[i].start = d.tokens[j].start ∧ d.tokens[i].stop = d.tokens[j].stop)
    (hmin : ∀ (k : Nat) (hk : k < i), ¬ (d.tokens[k].start = d.tokens[j].start ∧
      d.tokens[k].stop = d.tokens[j].stop)) :
    d.tokens[j].sub = (j : Int) - i := by
  have hd := h.docOk
  have hnum : ∀ (k : Nat) (hk : k + 1 < d.tokens.length), NumberedAfter d.tokens[k] d.tokens[k + 1] :=
    fun k hk => List.isChain_iff_getElem.mp hd.numbered k hk
  have hord : ∀ (a b : Nat) (ha : a < d.tokens.length) (hb : b < d.tokens.length), a < b →
      Before d.tokens[a] d.tokens[b] := fun a b ha hb hab =>
    List.pairwise_iff_getElem.mp hd.order a b ha hb hab
  -- the start of the group
  have hbase : d.tokens[i].sub = 0 := by
    cases i with
    | zero => exact hfirst _ (List.getElem?_eq_getElem (by omega))
    | succ i =>
      have hi : i + 1 < d.tokens.length := by omega
      have hn := hnum i hi
      cases hr : d.tokens[i + 1].repl with
      | none => exact d.tokens[i + 1].mwOk hr
      | some r =>
        refine (hn (by rw [hr]; rfl)).2 ?_
        rintro ⟨_, h1, h2⟩
        exact hmin i (by omega) ⟨by rw [h1]; exact hsame.1, by rw [h2]; exact hsame.2⟩
  -- all tokens between have the span, and are numbered
  induction j, hij using Nat.le_induction with
  | base => rw [hbase]; omega
  | succ j hij ih =>
    have hj' : j < d.tokens.length := by omega
    have hb1 := hord j (j + 1) hj' hj (by omega)
    have hs : d.tokens[j].start = d.tokens[j + 1].start ∧ d.tokens[j].stop = d.tokens[j + 1].stop := by
      rcases Nat.eq_or_lt_of_le hij with e | hlt
      · subst e; exact hsame
      · have hb0 := hord i j (by omega) hj' hlt
        have l1 := d.tokens[i].lt
        have l2 := d.tokens[j].lt
        have l3 := d.tokens[j + 1].lt
        obtain ⟨hs1, hs2⟩ := hsame
        unfold Before at hb0 hb1
        omega
    have hsub := ih hj' ⟨hsame.1.trans hs.1.symm, hsame.2.trans hs.2.symm⟩
      (fun k hk hc => hmin k hk ⟨hc.1.trans hs.1, hc.2.trans hs.2⟩) hnum hbase
    have hn := hnum j hj
    have hlt : d.tokens[j].sub < d.tokens[j + 1].sub := by
      have l2 := d.tokens[j].lt
      obtain ⟨hs1, hs2⟩ := hs
      unfold Before at hb1; omega
    have hr1 : d.tokens[j + 1].repl.isSome := by
      cases hr : d.tokens[j + 1].repl with
      | some r => rfl
      | none =>
        have := d.tokens[j + 1].mwOk hr
        omega
    have hr0 : d.tokens[j].repl.isSome := by
      cases hr : d.tokens[j].repl with
      | some r => rfl
      | none =>
        have := (hn hr1).2 (by simp [hr])
        have := d.tokens[j].mwOk hr
        omega
    have := (hn hr1).1 ⟨hr0, hs.1, hs.2⟩
    rw [this, hsub]
    push_cast; omega

example : Built Demo.doc ∧ (∀ t, Demo.doc.tokens[0]? = some t → t.sub = 0) ∧
    Demo.doc.tokens[1].sub = 1 := ⟨Demo.docBuilt, by
      intro t h
      have : t = { Demo.t0 with headDoc := some 1 } := by
        simpa [Demo.doc] using h.symm
      rw [this]; rfl, rfl⟩

/-! ### C06 -/

/-- C06: head views of the tokens of a constructed document, relative to the tokens it was built
from.  For every sentence `s` and position `j` in it, with `t0` the given token at that place (the
`j`-th in document order) and `t` the stored one:
headless tokens stay headless, tokens marked as root in either view are root in both views, and all
others have both views filled, differing by the sentence start, and keep the given ones. -/
theorem C06_heads_agree {text : Str} {tokens : List Token} {sents : Option (List Sentence)}
    {v : Bool} {d : Document} (h : Document.new text tokens sents v = .ok d) :
    ∃ l : List Token, l.Perm tokens ∧ l.Pairwise Before ∧ l.length = d.tokens.length ∧
    ∀ s ∈ d.sentences, ∀ (j : Nat), s.start ≤ j → j < s.stop → ∃ t0 t, l[j]? = some t0 ∧
      d.tokens[j]? = some t ∧ SameButHeads t0 t ∧
      (t0.hasHead = false → t.headDoc = none ∧ t.headSent = none) ∧
      (t0.isRoot = true → t.headDoc = some (-1) ∧ t.headSent = some (-1)) ∧
      (t0.hasHead = true → t0.isRoot = false → ∃ a : Int, t.headSent = some a ∧
        t.headDoc = some (a + s.start) ∧ (∀ x, t0.headSent = some x → x = a) ∧
        (∀ x, t0.headDoc = some x → x = a + s.start)) := by
  by_cases hne : tokens = []
  · subst hne
    rw [Document.new_nil] at h
    injection h with h
    subst h
    exact ⟨[], .nil, .nil, rfl, by simp⟩
  obtain ⟨hB, hN, hT, hF, _, hS, _⟩ := (Document.new_ok_iff hne).mp h
  obtain ⟨hl, h2⟩ := new_tokens hne h
  refine ⟨_, pySorted_perm tokLe tokens, hB, by rw [pySorted_length]; exact hl.symm, ?_⟩
  intro s hs j h3 h4
  obtain ⟨t0, t, ht0, ht, hf⟩ := h2 s hs j h3 h4
  refine ⟨t0, t, ht0, ht, hf.same, ?_, ?_, ?_⟩
  · intro hh
    have hh := hasHead_false.mp hh
    cases hf with
    | none _ _ => exact hh
    | root h => rcases h with h | h <;> simp [hh] at h
    | sent h => simp [hh] at h
    | doc h => simp [hh] at h
  · intro hr
    unfold Token.isRoot at hr
    simp only [Bool.or_eq_true, beq_iff_eq] at hr
    cases hf with
    | none h5 h6 => simp [h5, h6] at hr
    | root _ => exact ⟨rfl, rfl⟩
    | sent h5 h6 h7 =>
      rcases hr with hr | hr
      · rcases h7 with h7 | ⟨h7, h8⟩
        · simp [h7] at hr
        · rw [h7] at hr; injection hr with hr; exact absurd hr h8
      · rw [h5] at hr; injection hr with hr; exact absurd hr h6
    | doc h5 h6 h7 =>
      rcases hr with hr | hr
      · rw [h5] at hr; injection hr with hr; exact absurd hr h6
      · simp [h7] at hr
  · intro hh hr
    cases hf with
    | none h5 h6 => simp [Token.hasHead, h5, h6] at hh
    | root h => unfold Token.isRoot at hr; rcases h with h | h <;> simp [h] at hr
    | @sent a h5 h6 h7 =>
      refine ⟨a, rfl, rfl, fun x hx => ?_, fun x hx => ?_⟩
      · rw [h5] at hx; injection hx with hx; exact hx.symm
      · rcases h7 with h7 | ⟨h7, h8⟩
        · simp [h7] at hx
        · rw [h7] at hx; injection hx with hx; exact hx.symm
    | @doc x0 h5 h6 h7 =>
      refine ⟨x0 - s.start, rfl, by simp, fun x hx => by simp [h7] at hx, fun x hx => ?_⟩
      rw [h5] at hx; injection hx with hx; omega

example : Document.new Demo.text [Demo.t3, Demo.t1, Demo.t2, Demo.t0] (some [Demo.s1, Demo.s0]) true =
    .ok Demo.doc ∧ Demo.doc.sentences = [Demo.s0, Demo.s1] := ⟨Demo.built, rfl⟩

/-! ### C07 -/

/-- C07: `validate_syntax=True` accepts exactly the documents (accepted without validation) in which
each sentence is either without heads or one tree. -/
theorem C07_validation_iff_forest {text : Str} {tokens : List Token}
    {sents : Option (List Sentence)} {d : Document} :
    Document.new text tokens sents true = .ok d ↔
      Document.new text tokens sents false = .ok d ∧
      ∀ s ∈ d.sentences, Headless (d.sentenceTokens s) ∨ IsTree (d.sentenceTokens s) := by
  by_cases hne : tokens = []
  · subst hne
    rw [Document.new_nil, Document.new_nil]
    constructor
    · intro h
      refine ⟨h, ?_⟩
      injection h with h
      subst h
      simp
    · exact fun h => h.1
  · constructor
    · intro h
      have hd := new_docOk h
      obtain ⟨hB, hN, hT, hF, h1, hS, hV⟩ := (Document.new_ok_iff hne).mp h
      refine ⟨(Document.new_ok_iff hne).mpr ⟨hB, hN, hT, hF, h1, hS, by simp⟩, ?_⟩
      exact (validateSyntax_iff (fun s hs => ⟨hd.stop_le hs, hd.canon_slice hs⟩)).mp (hV rfl)
    · rintro ⟨h, ht⟩
      have hd := new_docOk h
      obtain ⟨hB, hN, hT, hF, h1, hS, hV⟩ := (Document.new_ok_iff hne).mp h
      refine (Document.new_ok_iff hne).mpr ⟨hB, hN, hT, hF, h1, hS, fun _ => ?_⟩
      exact (validateSyntax_iff (fun s hs => ⟨hd.stop_le hs, hd.canon_slice hs⟩)).mpr ht

/-- C07: in an accepted tree every token has a head, non-root heads lie inside the sentence. -/
theorem C07_tree_heads {ts : List Token} (h : IsTree ts) :
    (∀ t ∈ ts, t.hasHead = true) ∧
    (∀ t ∈ ts, t.isRoot = false → ∃ a : Nat, t.headSent = some (a : Int) ∧ a < ts.length) := by
  have key : ∀ t ∈ ts, t.isRoot = true ∨ ∃ a : Nat, t.headSent = some (a : Int) ∧ a < ts.length := by
    intro t ht
    obtain ⟨i, hi, rfl⟩ := List.mem_iff_getElem.mp ht
    cases h.2 i hi with
    | root h1 h2 =>
      rw [List.getElem?_eq_getElem hi] at h1; injection h1 with h1; rw [h1]; exact .inl h2
    | @step _ a _ h1 h2 h3 h4 =>
      rw [List.getElem?_eq_getElem hi] at h1; injection h1 with h1; rw [h1]
      refine .inr ⟨a, h3, ?_⟩
      cases h4 with
      | root hx _ => exact (List.getElem?_eq_some_iff.mp hx).1
      | step hx _ _ _ => exact (List.getElem?_eq_some_iff.mp hx).1
  constructor
  · intro t ht
    rcases key t ht with h1 | ⟨a, h1, _⟩
    · exact hasHead_of_isRoot h1
    · simp [Token.hasHead, h1]
  · intro t ht hr
    rcases key t ht with h1 | h1
    · rw [hr] at h1; cases h1
    · exact h1

/-- Both outcomes occur: a tree is accepted, a cycle, two roots and a partial annotation are
rejected. -/
example : Document.new Demo.text [Demo.t3, Demo.t1, Demo.t2, Demo.t0] (some [Demo.s1, Demo.s0]) true =
    .ok Demo.doc := Demo.built
example : Document.new ['a', 'b'] [{ start := 0, stop := 1, headSent := some 1 },
    { start := 1, stop := 2, headSent := some 0 }] none true = .error .value := by decide
example : Document.new ['a', 'b'] [{ start := 0, stop := 1, headSent := some (-1) },
    { start := 1, stop := 2, headSent := some (-1) }] none true = .error .value := by decide
example : Document.new ['a', 'b'] [{ start := 0, stop := 1, headSent := some (-1) },
    { start := 1, stop := 2 }] none true = .error .value := by decide

end Verif
