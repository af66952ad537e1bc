import Verif.Props.Datamodel3
import Verif.Proofs.NewErrors

/-!
# Exact conditions and error kinds of the constructors (C04, C05, C10, C12)
-/

namespace Verif

/-! ### C04 -/

/-- C04: `Token(...)` accepts exactly the arguments with `0 <= start < end` and, for a token that is
no word of a multiword token, `sub_index` 0; it stores what was given, and every other call raises
`AssertionError`. -/
theorem C04_token_accepts (start stop : Int) (pos : Option Pos) (lem dep : Option Str) (sub : Int)
    (repl : Option Str) (hd hs : Option Int) (extras : Option TokenExtras) :
    (0 ≤ start ∧ start < stop ∧ (repl = none → sub = 0) →
      ∃ t, Token.new start stop pos lem dep sub repl hd hs extras = .ok t ∧
        (t.start : Int) = start ∧ (t.stop : Int) = stop ∧ t.pos = pos ∧ t.lemma' = lem ∧
        t.deprel = dep ∧ t.sub = sub ∧ t.repl = repl ∧ t.headDoc = hd ∧ t.headSent = hs ∧
        (∀ e, extras = some e → t.extras = e) ∧ (extras = none → ∀ k, t.extras.get? k = none)) ∧
    (¬ (0 ≤ start ∧ start < stop ∧ (repl = none → sub = 0)) →
      Token.new start stop pos lem dep sub repl hd hs extras = .error .assertion) := by
  unfold Token.new
  constructor
  · rintro ⟨h1, h2, h3⟩
    rw [dif_pos h1, dif_pos h2, dif_pos h3]
    refine ⟨_, rfl, ?_, ?_, rfl, rfl, rfl, rfl, rfl, rfl, rfl, ?_, ?_⟩
    · exact Int.toNat_of_nonneg h1
    · exact Int.toNat_of_nonneg (by omega)
    · rintro e rfl; rfl
    · rintro rfl k; rfl
  · intro h
    by_cases h1 : 0 ≤ start
    · by_cases h2 : start < stop
      · by_cases h3 : repl = none → sub = 0
        · exact absurd ⟨h1, h2, h3⟩ h
        · rw [dif_pos h1, dif_pos h2, dif_neg h3]
      · rw [dif_pos h1, dif_neg h2]
    · rw [dif_neg h1]

example : ∃ t, Token.new 3 5 none none (some "nsubj".toList) 1 (some "du".toList) none (some 0) none =
    .ok t ∧ t.stop = 5 := by
  obtain ⟨t, h, _, h2, _⟩ := (C04_token_accepts 3 5 none none (some "nsubj".toList) 1
    (some "du".toList) none (some 0) none).1 ⟨by decide, by decide, by simp⟩
  exact ⟨t, h, by omega⟩

/-- C04: `Sentence(start, end)` accepts exactly `0 <= start < end`, and raises `AssertionError`
otherwise. -/
theorem C04_sentence_accepts (start stop : Int) :
    (0 ≤ start ∧ start < stop →
      ∃ s, Sentence.new start stop = .ok s ∧ (s.start : Int) = start ∧ (s.stop : Int) = stop ∧
        (s.len : Int) = stop - start) ∧
    (¬ (0 ≤ start ∧ start < stop) → Sentence.new start stop = .error .assertion) := by
  unfold Sentence.new
  constructor
  · rintro ⟨h1, h2⟩
    rw [dif_pos h1, dif_pos h2]
    refine ⟨_, rfl, Int.toNat_of_nonneg h1, Int.toNat_of_nonneg (by omega), ?_⟩
    simp only [Sentence.len]
    omega
  · intro h
    by_cases h1 : 0 ≤ start
    · have h2 : ¬ start < stop := fun h2 => h ⟨h1, h2⟩
      rw [dif_pos h1, dif_neg h2]
    · rw [dif_neg h1]

example : (0 : Int) ≤ 2 ∧ (2 : Int) < 7 := by decide

/-- C04: the only exceptions of the document constructor are `ValueError` and, when tokens come with
an explicitly empty sentence list, `IndexError`; whether or not validation is requested. -/
theorem C04_errors {text : Str} {tokens : List Token} {sents : Option (List Sentence)} {v : Bool}
    {e : Err} (h : Document.new text tokens sents v = .error e) :
    e = .value ∨ e = .index ∧ sents = some [] ∧ tokens ≠ [] := by
  cases v with
  | false => exact new_false_err h
  | true =>
    rw [new_true_eq] at h
    cases hd : Document.new text tokens sents false with
    | error e' =>
      rw [hd] at h
      injection h with h
      exact h ▸ new_false_err hd
    | ok d =>
      rw [hd] at h
      simp only at h
      have hok := new_docOk hd
      cases hv : validateSyntax d.tokens d.sentences with
      | ok u => rw [hv] at h; cases h
      | error e' =>
        rw [hv] at h
        injection h with h
        exact .inl (h ▸ validateSyntax_err (fun s hs => ⟨hok.stop_le hs, hok.canon_slice hs⟩) hv)

/-- C04: requesting validation never changes the document, it can only reject it. -/
theorem C04_validation_only_rejects {text : Str} {tokens : List Token}
    {sents : Option (List Sentence)} :
    (∀ d, Document.new text tokens sents true = .ok d → Document.new text tokens sents false = .ok d) ∧
    (∀ d, Document.new text tokens sents false = .ok d →
      Document.new text tokens sents true = .ok d ∨
        Document.new text tokens sents true = .error .value) ∧
    ∀ e, Document.new text tokens sents false = .error e →
      Document.new text tokens sents true = .error e := by
  rw [new_true_eq]
  cases hd : Document.new text tokens sents false with
  | error e' => simp
  | ok d =>
    simp only
    cases hv : validateSyntax d.tokens d.sentences with
    | ok u => simp
    | error e' =>
      have hok := new_docOk hd
      have := validateSyntax_err (fun s hs => ⟨hok.stop_le hs, hok.canon_slice hs⟩) hv
      simp [this]

example : Document.new Demo.text [Demo.t0, Demo.t1, Demo.t1] none true = .error .value := by decide
/-- A cycle is accepted without validation and rejected with it. -/
example : (∃ d, Document.new ['a', 'b'] [{ start := 0, stop := 1, headSent := some 1 },
      { start := 1, stop := 2, headSent := some 0 }] none false = .ok d) ∧
    Document.new ['a', 'b'] [{ start := 0, stop := 1, headSent := some 1 },
      { start := 1, stop := 2, headSent := some 0 }] none true = .error .value := ⟨⟨_, rfl⟩, by decide⟩

/-! ### C05 -/

/-- C05, the exact condition: the words of all multiword tokens of a constructed document are
numbered 0, 1, 2, ... if and only if its first token has `sub_index` 0. -/
theorem C05_numbered_iff_first {d : Document} (h : Built d) :
    (∀ (i j : Nat) (hj : j < d.tokens.length) (hij : i ≤ j),
      (d.tokens[i].start = d.tokens[j].start ∧ d.tokens[i].stop = d.tokens[j].stop) →
      (∀ (k : Nat) (hk : k < i), ¬ (d.tokens[k].start = d.tokens[j].start ∧
        d.tokens[k].stop = d.tokens[j].stop)) →
      d.tokens[j].sub = (j : Int) - i) ↔
    ∀ t, d.tokens[0]? = some t → t.sub = 0 := by
  constructor
  · intro hall t ht
    obtain ⟨hj, rfl⟩ := List.getElem?_eq_some_iff.mp ht
    have := hall 0 0 hj (Nat.le_refl 0) ⟨rfl, rfl⟩ (fun k hk => absurd hk (by omega))
    simpa using this
  · intro hf i j hj hij hs hm
    exact C05_multiword_numbered_partial h hf i j hj hij hs hm

example : Built Demo.doc ∧ ∀ t, Demo.doc.tokens[0]? = some t → t.sub = 0 :=
  ⟨Demo.docBuilt, by
    intro t h
    have : t = { Demo.t0 with headDoc := some 1 } := by simpa [Demo.doc] using h.symm
    rw [this]; rfl⟩

/-! ### C10 -/

/-- C10, the exact condition: replacing the tokens succeeds if and only if the new tokens, brought
into document order, have the spans of the old ones position by position, are pairwise ordered and
numbered, and no sentence contains contradicting heads. -/
theorem C10_accepts_iff {d : Document} {tokens : List Token} (hb : Built d) (hne : tokens ≠ []) :
    (∃ d', d.fromDocument tokens = .ok d') ↔
      ∃ l : List Token, l.Perm tokens ∧
        List.Forall₂ (fun a b : Token => a.start = b.start ∧ a.stop = b.stop) d.tokens l ∧
        l.Pairwise Before ∧
        (∀ (i : Nat) (hi : i + 1 < l.length), NumberedAfter l[i] l[i + 1]) ∧
        ∀ s ∈ d.sentences, ∀ (j : Nat) (hj : j < l.length), s.start ≤ j → j < s.stop →
          HeadsConsistent s.start l[j] := by
  have hp := pySorted_perm tokLe tokens
  have hne' : pySorted tokLe tokens ≠ [] := fun e => hne (by rw [e] at hp; exact hp.nil_eq.symm)
  have hss : pySorted tokLe (pySorted tokLe tokens) = pySorted tokLe tokens :=
    pySorted_eq_self tokLe (pySorted_pairwise tokLe tokLe_total tokLe_trans _)
  constructor
  · rintro ⟨d', h⟩
    obtain ⟨_, hS', hF, _⟩ := C10_from_document_structure hb hne h
    have hcons : Document.new d.text (pySorted tokLe tokens) (some d.sentences) false = .ok d' := by
      unfold Document.fromDocument at h
      simp only at h
      split at h
      · cases h
      · exact h
    obtain ⟨hB, hN, hT, hFi, _, hS, _⟩ := (Document.new_ok_iff hne').mp hcons
    have h2 := new_forall₂ hne' hcons
    rw [hss] at hB hN hFi h2
    refine ⟨_, hp, ?_, hB, fun i hi => List.isChain_iff_getElem.mp hN i hi, ?_⟩
    · rw [List.forall₂_iff_get] at hF h2 ⊢
      refine ⟨hF.1.trans h2.1.symm, fun i hi hi' => ?_⟩
      have a := hF.2 i hi (by omega)
      have b := h2.2 i hi' (by omega)
      exact ⟨a.1.trans b.1.symm, a.2.trans b.2.1.symm⟩
    · intro s hs j hj h3 h4
      rw [← hS, hS'] at hFi
      exact fillTokenHeads_isOk.mp ⟨_, hFi⟩ s hs _
        (mem_slice.mpr ⟨j, h3, h4, List.getElem?_eq_getElem hj⟩)
  · rintro ⟨l, hl, hF, hB, hN, hH⟩
    have e1 : pySorted tokLe tokens = l := by
      rw [← pySorted_eq_of_perm tokLe tokLe_total tokLe_trans
        (fun a b ha hb => pairwise_before_anti hB ha hb) hl]
      exact pySorted_before hB
    unfold Document.fromDocument
    simp only [e1]
    rw [if_neg]
    · refine (C04_accepts_iff (e1 ▸ hne')).mpr
        ⟨l, d.sentences, .refl _, .refl _, hB, hN, ?_, hH⟩
      rw [← hF.length_eq]
      exact hb.docOk.tiles
    · simp only [Bool.not_eq_true, List.any_eq_false]
      rintro ⟨a, b⟩ hm
      rw [List.mem_iff_getElem] at hm
      obtain ⟨i, hi, he⟩ := hm
      rw [List.length_zip] at hi
      rw [List.getElem_zip] at he
      injection he with ha hb'
      have := (List.forall₂_iff_get.mp hF).2 i (by omega) (by omega)
      simp only [List.get_eq_getElem, ha, hb'] at this
      simp [Token.coincides, this.1, this.2]

/-- C10: when replacing the tokens fails, the exception is `ValueError`, except that putting tokens
into a document without tokens raises `IndexError`. -/
theorem C10_errors {d : Document} {tokens : List Token} {e : Err} (hb : Built d)
    (h : d.fromDocument tokens = .error e) :
    e = .value ∨ e = .index ∧ d.tokens = [] ∧ tokens ≠ [] := by
  unfold Document.fromDocument at h
  simp only at h
  split at h
  · injection h with h; exact .inl h.symm
  · rcases C04_errors h with h1 | ⟨h1, h2, h3⟩
    · exact .inl h1
    · refine .inr ⟨h1, ?_, ?_⟩
      · injection h2 with h2
        have := hb.docOk.tiles
        rw [h2] at this
        simp only [Tiles] at this
        exact List.length_eq_zero_iff.mp this.symm
      · rintro rfl
        exact h3 (by simp [pySorted])

/-- Both kinds of failure happen: a moved span, and tokens for an empty document. -/
example : Demo.doc.fromDocument (Demo.doc.tokens.take 3) = .error .value ∧
    Built ⟨[], [], []⟩ ∧ (⟨[], [], []⟩ : Document).fromDocument Demo.doc.tokens = .error .index :=
  ⟨by decide, ⟨[], [], none, false, rfl⟩, by decide⟩

/-! ### C12 -/

/-- C12, what `==` decides, exactly: two tokens are equal if and only if they agree on everything but
the head in the sentence view; two documents if and only if their texts, sentences and (in this
sense) tokens are equal. -/
theorem C12_equality_iff :
    (∀ a b : Token, a.pyEq b = true ↔ SameButSentHead a b) ∧
    ∀ d e : Document, d.pyEq e = true ↔
      d.text = e.text ∧ d.sentences = e.sentences ∧ List.Forall₂ SameButSentHead d.tokens e.tokens := by
  refine ⟨fun a b => Token.pyEq_iff, fun d e => ?_⟩
  rw [Document.pyEq_iff]
  tauto

/-- C12: the full claim holds for constructed documents in which every token with document head -1 has
sentence head -1 too, as in every document read from a file without negative numbers in HEAD. -/
theorem C12_sees_everything_when_roots_agree {d e : Document} (hd : Built d) (he : Built e)
    (hrd : ∀ t ∈ d.tokens, t.headDoc = some (-1) → t.headSent = some (-1))
    (hre : ∀ t ∈ e.tokens, t.headDoc = some (-1) → t.headSent = some (-1))
    (h : d.pyEq e = true) :
    d.text = e.text ∧ d.sentences = e.sentences ∧
    List.Forall₂ (fun a b => SameButSentHead a b ∧ a.headSent = b.headSent) d.tokens e.tokens := by
  obtain ⟨h1, h2, h3, h4⟩ := C12_equality_sees_everything_partial hd he h
  refine ⟨h1, h2, ?_⟩
  rw [List.forall₂_iff_get]
  refine ⟨h3, fun i hi hi' => ?_⟩
  obtain ⟨h5, h6⟩ := h4 i _ _ (List.getElem?_eq_getElem hi) (List.getElem?_eq_getElem hi')
  refine ⟨h5, ?_⟩
  by_cases hr : d.tokens[i].headDoc = some (-1)
  · have a := hrd _ (List.getElem_mem hi) hr
    have b := hre _ (List.getElem_mem hi') (by rw [← h5.headDoc]; exact hr)
    simp only [List.get_eq_getElem]
    rw [a, b]
  · exact h6 hr

example : Built Demo.doc ∧ (∀ t ∈ Demo.doc.tokens, t.headDoc = some (-1) → t.headSent = some (-1)) ∧
    Demo.doc.pyEq Demo.doc = true := ⟨Demo.docBuilt, by decide, by decide⟩

end Verif
