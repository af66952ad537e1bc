import Verif.Props.Datamodel2

/-!
# Properties of documents, continued (C12 - C15): equality, updates, order
-/

namespace Verif

/-! ### helpers -/

theorem Pos.pyEq_iff {p q : Pos} : p.pyEq q = true ↔ SamePos p q := by
  simp [Pos.pyEq, SamePos, SameMap, Dict.pyEq_iff, and_assoc]

theorem SamePos.refl (p : Pos) : SamePos p p := ⟨rfl, rfl, fun _ => rfl⟩
theorem SamePos.symm {p q : Pos} (h : SamePos p q) : SamePos q p :=
  ⟨h.1.symm, h.2.1.symm, fun k => (h.2.2 k).symm⟩
theorem SamePos.trans {p q r : Pos} (h : SamePos p q) (h' : SamePos q r) : SamePos p r :=
  ⟨h.1.trans h'.1, h.2.1.trans h'.2.1, fun k => (h.2.2 k).trans (h'.2.2 k)⟩

theorem optPosEq_iff {p q : Option Pos} : Token.optPosEq p q = true ↔ Option.Rel SamePos p q := by
  cases p with
  | none => cases q with
    | none => simp [Token.optPosEq]
    | some q => simp only [Token.optPosEq, Bool.false_eq_true, false_iff]; rintro ⟨⟩
  | some p => cases q with
    | none => simp only [Token.optPosEq, Bool.false_eq_true, false_iff]; rintro ⟨⟩
    | some q =>
      simp only [Token.optPosEq, Pos.pyEq_iff]
      exact ⟨.some, fun h => by cases h; assumption⟩

theorem Token.pyEq_iff {a b : Token} : a.pyEq b = true ↔ SameButSentHead a b := by
  simp only [Token.pyEq, Bool.and_eq_true, beq_iff_eq, optPosEq_iff, Dict.pyEq_iff]
  constructor
  · rintro ⟨⟨⟨⟨⟨⟨⟨⟨⟨h1, h2⟩, h3⟩, h4⟩, h5⟩, -⟩, h6⟩, h7⟩, h8⟩, h9⟩
    exact ⟨h1, h2, h3, h4, h6, h7, h8, h5, h9⟩
  · rintro ⟨h1, h2, h3, h4, h6, h7, h8, h5, h9⟩
    exact ⟨⟨⟨⟨⟨⟨⟨⟨⟨h1, h2⟩, h3⟩, h4⟩, h5⟩, trivial⟩, h6⟩, h7⟩, h8⟩, h9⟩

theorem relSymm {p q : Option Pos} (h : Option.Rel SamePos p q) : Option.Rel SamePos q p := by
  cases h with
  | some h => exact .some h.symm
  | none => exact .none

theorem SameButSentHead.refl (a : Token) : SameButSentHead a a :=
  ⟨rfl, rfl, by cases a.pos; exacts [.none, .some (.refl _)], rfl, rfl, rfl, rfl, rfl, fun _ => rfl⟩

theorem SameButSentHead.symm {a b : Token} (h : SameButSentHead a b) : SameButSentHead b a :=
  ⟨h.1.symm, h.2.symm, relSymm h.3, h.4.symm, h.5.symm,
    h.6.symm, h.7.symm, h.8.symm, fun k => (h.9 k).symm⟩

theorem SameButSentHead.trans {a b c : Token} (h : SameButSentHead a b) (h' : SameButSentHead b c) :
    SameButSentHead a c :=
  ⟨h.1.trans h'.1, h.2.trans h'.2, by
    have h3 := h.3
    have h3' := h'.3
    generalize a.pos = x at *
    generalize b.pos = y at *
    generalize c.pos = z at *
    cases h3 with
    | some h3 => cases h3' with | some h3' => exact .some (h3.trans h3')
    | none => exact h3', h.4.trans h'.4, h.5.trans h'.5, h.6.trans h'.6,
    h.7.trans h'.7, h.8.trans h'.8, fun k => (h.9 k).trans (h'.9 k)⟩

theorem tokensEq_iff {a b : List Token} : tokensEq a b = true ↔ List.Forall₂ SameButSentHead a b := by
  induction a generalizing b with
  | nil => cases b <;> simp [tokensEq]
  | cons x a ih => cases b <;> simp [tokensEq, ih, Token.pyEq_iff]

theorem Document.pyEq_iff {d e : Document} : d.pyEq e = true ↔
    d.text = e.text ∧ List.Forall₂ SameButSentHead d.tokens e.tokens ∧ d.sentences = e.sentences := by
  simp [Document.pyEq, tokensEq_iff, and_assoc]

/-! ### C12 -/

/-- C12, first half: token equality is an equivalence relation. -/
theorem C12_token_equivalence :
    (∀ a : Token, a.pyEq a = true) ∧ (∀ a b : Token, a.pyEq b = b.pyEq a) ∧
    (∀ a b c : Token, a.pyEq b = true → b.pyEq c = true → a.pyEq c = true) := by
  refine ⟨fun a => Token.pyEq_iff.mpr (.refl a), fun a b => ?_, fun a b c h h' =>
    Token.pyEq_iff.mpr ((Token.pyEq_iff.mp h).trans (Token.pyEq_iff.mp h'))⟩
  rw [Bool.eq_iff_iff, Token.pyEq_iff, Token.pyEq_iff]
  exact ⟨.symm, .symm⟩

/-- C12, first half: document equality is an equivalence relation. -/
theorem C12_document_equivalence :
    (∀ a : Document, a.pyEq a = true) ∧ (∀ a b : Document, a.pyEq b = b.pyEq a) ∧
    (∀ a b c : Document, a.pyEq b = true → b.pyEq c = true → a.pyEq c = true) := by
  refine ⟨fun a => Document.pyEq_iff.mpr ⟨rfl, ?_, rfl⟩, fun a b => ?_, fun a b c h h' => ?_⟩
  · exact List.forall₂_same.mpr fun x _ => .refl x
  · rw [Bool.eq_iff_iff, Document.pyEq_iff, Document.pyEq_iff]
    constructor
    · rintro ⟨h1, h2, h3⟩
      exact ⟨h1.symm, (h2.imp fun _ _ h => h.symm).flip, h3.symm⟩
    · rintro ⟨h1, h2, h3⟩
      exact ⟨h1.symm, (h2.imp fun _ _ h => h.symm).flip, h3.symm⟩
  · obtain ⟨h1, h2, h3⟩ := Document.pyEq_iff.mp h
    obtain ⟨h1', h2', h3'⟩ := Document.pyEq_iff.mp h'
    refine Document.pyEq_iff.mpr ⟨h1.trans h1', ?_, h3.trans h3'⟩
    rw [List.forall₂_iff_get] at h2 h2' ⊢
    exact ⟨h2.1.trans h2'.1, fun i hi hi' => (h2.2 i hi (h2.1 ▸ hi)).trans (h2'.2 i _ hi')⟩

/-- C12, second half, is false for tokens: tokens with different sentence heads compare equal. -/
theorem C12_refuted_token : ∃ a b : Token, a.pyEq b = true ∧ a.headSent ≠ b.headSent :=
  ⟨{ start := 0, stop := 1, headSent := some 1 }, { start := 0, stop := 1, headSent := some 2 }, by decide⟩

/-- C12, second half, is false even for constructed documents. -/
theorem C12_refuted_document : ∃ d e : Document, Built d ∧ Built e ∧ d.pyEq e = true ∧
    ∃ j : Nat, d.tokens[j]?.bind Token.headSent ≠ e.tokens[j]?.bind Token.headSent := by
  refine ⟨⟨['a', 'b'],
    [{ start := 0, stop := 1 }, { start := 1, stop := 2, headDoc := some (-1), headSent := some (-1) }],
    [{ start := 0, stop := 1 }, { start := 1, stop := 2 }]⟩, ⟨['a', 'b'],
    [{ start := 0, stop := 1 }, { start := 1, stop := 2, headDoc := some (-1), headSent := some (-2) }],
    [{ start := 0, stop := 1 }, { start := 1, stop := 2 }]⟩,
    ⟨['a', 'b'], [{ start := 0, stop := 1 }, { start := 1, stop := 2, headSent := some (-1) }],
      some [{ start := 0, stop := 1 }, { start := 1, stop := 2 }], true, ?_⟩,
    ⟨['a', 'b'], [{ start := 0, stop := 1 }, { start := 1, stop := 2, headSent := some (-2) }],
      some [{ start := 0, stop := 1 }, { start := 1, stop := 2 }], true, ?_⟩, ?_, 1, ?_⟩ <;> decide

/-- C12, second half, as far as it holds: equal constructed documents agree on everything except the
sentence head of tokens whose document head is -1.
(Missing for the full claim: the sentence head of those tokens, see `C12_refuted_document`.) -/
theorem C12_equality_sees_everything_partial {d e : Document} (hd : Built d) (he : Built e)
    (h : d.pyEq e = true) :
    d.text = e.text ∧ d.sentences = e.sentences ∧ d.tokens.length = e.tokens.length ∧
    ∀ (j : Nat) (a b : Token), d.tokens[j]? = some a → e.tokens[j]? = some b →
      SameButSentHead a b ∧ (a.headDoc ≠ some (-1) → a.headSent = b.headSent) := by
  obtain ⟨h1, h2, h3⟩ := Document.pyEq_iff.mp h
  refine ⟨h1, h3, h2.length_eq, ?_⟩
  intro j a b ha hb
  obtain ⟨hj, ha'⟩ := List.getElem?_eq_some_iff.mp ha
  obtain ⟨hj', hb'⟩ := List.getElem?_eq_some_iff.mp hb
  have hs : SameButSentHead a b := by
    have := (List.forall₂_iff_get.mp h2).2 j hj hj'
    simpa [ha', hb'] using this
  refine ⟨hs, fun hr => ?_⟩
  obtain ⟨s, hsm, h4, h5⟩ := hd.docOk.tiles.cover (Nat.zero_le j) hj
  have c1 := hd.docOk.canon s hsm j a h4 h5 ha
  have c2 := he.docOk.canon s (h3 ▸ hsm) j b h4 h5 hb
  have hh := hs.headDoc
  rcases c1 with ⟨x1, x2⟩ | ⟨x1, x2⟩ | ⟨x, x1, x2⟩ <;>
    rcases c2 with ⟨y1, y2⟩ | ⟨y1, y2⟩ | ⟨y, y1, y2⟩ <;> simp_all

example : Demo.doc.pyEq Demo.doc = true ∧ ∃ t ∈ Demo.doc.tokens, t.headDoc ≠ some (-1) := by decide

/-! ### C13 -/

/-- C13: what each update sets and keeps; none of them raises. -/
theorem C13_updates (t : Token) (pos : Option Pos) (lem dep : Option Str) (hd hs : Option Int)
    (ex : Option TokenExtras) :
    (∃ r, t.withMorphology pos lem = .ok r ∧ r.pos = pos ∧ r.lemma' = lem ∧ r.start = t.start ∧
      r.stop = t.stop ∧ r.sub = t.sub ∧ r.repl = t.repl ∧ r.deprel = t.deprel ∧
      r.headDoc = t.headDoc ∧ r.headSent = t.headSent ∧ r.extras = t.extras) ∧
    (∃ r, t.withSyntax dep hd hs = .ok r ∧ r.deprel = dep ∧ r.headDoc = hd ∧ r.headSent = hs ∧
      r.start = t.start ∧ r.stop = t.stop ∧ r.sub = t.sub ∧ r.repl = t.repl ∧ r.pos = t.pos ∧
      r.lemma' = t.lemma' ∧ r.extras = t.extras) ∧
    (∃ r, t.withExtras ex = .ok r ∧ r.extras = ex.getD Dict.empty ∧ r.start = t.start ∧
      r.stop = t.stop ∧ r.sub = t.sub ∧ r.repl = t.repl ∧ r.pos = t.pos ∧ r.lemma' = t.lemma' ∧
      r.deprel = t.deprel ∧ r.headDoc = t.headDoc ∧ r.headSent = t.headSent) ∧
    (∀ u, ∃ r, t.updateExtras u = .ok r ∧ r.start = t.start ∧ r.stop = t.stop ∧ r.sub = t.sub ∧
      r.repl = t.repl ∧ r.pos = t.pos ∧ r.lemma' = t.lemma' ∧ r.deprel = t.deprel ∧
      r.headDoc = t.headDoc ∧ r.headSent = t.headSent ∧
      ∀ k, r.extras.get? k = ((u.bind fun u => u.get? k).orElse fun _ => t.extras.get? k)) := by
  simp only [Token.withMorphology_ok, Token.withSyntax_ok, Token.withExtras_ok, Token.updateExtras]
  refine ⟨⟨_, rfl, by simp⟩, ⟨_, rfl, by simp⟩, ⟨_, rfl, by simp⟩, ?_⟩
  intro u
  cases u with
  | none => exact ⟨t, rfl, by simp⟩
  | some u =>
    refine ⟨_, rfl, rfl, rfl, rfl, rfl, rfl, rfl, rfl, rfl, rfl, ?_⟩
    intro k
    simp only [Option.getD_some, Option.bind_some]
    unfold TokenExtras.update
    split
    · rename_i he
      have : u.get? k = none := by
        rw [Dict.get?_none]; unfold Dict.keys; rw [List.isEmpty_iff.mp he]; simp
      rw [this]; rfl
    · exact Dict.get?_update _ _ _

/-- C13: the last update of one kind wins. -/
theorem C13_last_wins (t : Token) :
    (∀ p l p' l', (t.withMorphology p l).bind (·.withMorphology p' l') = t.withMorphology p' l') ∧
    (∀ d a b d' a' b', (t.withSyntax d a b).bind (·.withSyntax d' a' b') = t.withSyntax d' a' b') ∧
    (∀ e e', (t.withExtras e).bind (·.withExtras e') = t.withExtras e') := by
  simp [Token.withMorphology_ok, Token.withSyntax_ok, Token.withExtras_ok, Except.bind]

/-- C13: updates of different kinds commute. -/
theorem C13_commute (t : Token) (p l d a b e u) :
    (t.withMorphology p l).bind (·.withSyntax d a b) = (t.withSyntax d a b).bind (·.withMorphology p l) ∧
    (t.withMorphology p l).bind (·.withExtras e) = (t.withExtras e).bind (·.withMorphology p l) ∧
    (t.withSyntax d a b).bind (·.withExtras e) = (t.withExtras e).bind (·.withSyntax d a b) ∧
    (t.withMorphology p l).bind (·.updateExtras u) = (t.updateExtras u).bind (·.withMorphology p l) ∧
    (t.withSyntax d a b).bind (·.updateExtras u) = (t.updateExtras u).bind (·.withSyntax d a b) := by
  cases u <;>
  simp [Token.withMorphology_ok, Token.withSyntax_ok, Token.withExtras_ok, Token.updateExtras, Except.bind]

example : ∃ r, Demo.t0.withMorphology none (some ['x']) = .ok r ∧ r ≠ Demo.t0 := ⟨_, rfl, by decide⟩

/-! ### C14 -/

theorem itemLe_total (a b : Str × Str) : itemLe a b ∨ itemLe b a := by
  unfold itemLe
  rcases lt_trichotomy a.1 b.1 with h | h | h
  · exact .inl (.inl h)
  · rcases le_total a.2 b.2 with h' | h'
    · exact .inl (.inr ⟨h, h'⟩)
    · exact .inr (.inr ⟨h.symm, h'⟩)
  · exact .inr (.inl h)

theorem itemLe_trans (a b c : Str × Str) (h : itemLe a b) (h' : itemLe b c) : itemLe a c := by
  unfold itemLe at *
  rcases h with h | ⟨h, h1⟩ <;> rcases h' with h' | ⟨h', h1'⟩
  · exact .inl (h.trans h')
  · exact .inl (h' ▸ h)
  · exact .inl (h ▸ h')
  · exact .inr ⟨h.trans h', h1.trans h1'⟩

theorem itemLe_antisymm (a b : Str × Str) (h : itemLe a b) (h' : itemLe b a) : a = b := by
  unfold itemLe at *
  rcases h with h | ⟨h, h1⟩ <;> rcases h' with h' | ⟨h', h1'⟩
  · exact absurd h' h.asymm
  · exact absurd (h' ▸ h) (lt_irrefl _)
  · exact absurd (h ▸ h') (lt_irrefl _)
  · exact Prod.ext h (le_antisymm h1 h1')

theorem sortedItems_eq_iff {d e : Dict Str Str} :
    pySorted itemLe d.entries = pySorted itemLe e.entries ↔ SameMap d e := by
  unfold SameMap
  rw [← Dict.pyEq_iff, Dict.pyEq_perm]
  constructor
  · intro h
    exact (pySorted_perm itemLe d.entries).symm.trans (h ▸ pySorted_perm itemLe e.entries)
  · intro h
    exact pySorted_eq_of_perm itemLe itemLe_total itemLe_trans (fun a b _ _ => itemLe_antisymm a b) h

theorem Pos.tupleView_eq_iff {p q : Pos} : p.tupleView = q.tupleView ↔ SamePos p q := by
  simp only [Pos.tupleView, Prod.mk.injEq, sortedItems_eq_iff, SamePos]

/-- C14: equality of `Pos` is agreement of tags and of the feature map. -/
theorem C14_equality (p q : Pos) : p.pyEq q = true ↔
    p.upos = q.upos ∧ p.xpos = q.xpos ∧ ∀ k, p.feats.get? k = q.feats.get? k := Pos.pyEq_iff

/-- C14: equal values have equal hashes, whatever the hash function on tuples. -/
theorem C14_hash (hash : _ → Int) {p q : Pos} (h : p.pyEq q = true) : p.hash hash = q.hash hash := by
  unfold Pos.hash
  rw [Pos.tupleView_eq_iff.mpr (Pos.pyEq_iff.mp h)]

/-- Order on single items. -/
theorem itemsLt_irrefl (l : List (Str × Str)) : itemsLt l l = false := by
  induction l with
  | nil => rfl
  | cons a l ih => simp [itemsLt, ih]

theorem itemsLt_trichotomy (a b : List (Str × Str)) :
    (itemsLt a b = true ∧ a ≠ b ∧ itemsLt b a = false) ∨ (itemsLt a b = false ∧ a = b ∧ itemsLt b a = false) ∨
    (itemsLt a b = false ∧ a ≠ b ∧ itemsLt b a = true) := by
  induction a generalizing b with
  | nil => cases b <;> simp [itemsLt]
  | cons x a ih =>
    cases b with
    | nil => simp [itemsLt]
    | cons y b =>
      by_cases hxy : x = y
      · subst hxy
        have := ih b
        simpa [itemsLt] using this
      · have hyx : y ≠ x := fun e => hxy e.symm
        simp only [itemsLt, hxy, hyx, if_false]
        by_cases h1 : x.1 = y.1
        · have h2 : x.2 ≠ y.2 := fun e => hxy (Prod.ext h1 e)
          rcases lt_or_gt_of_ne h2 with h | h
          · left; simp [h1, h, h.not_gt, hxy]
          · right; right; simp [h1, h, h.not_gt, hxy]
        · have h1' : ¬ y.1 = x.1 := fun e => h1 e.symm
          rcases lt_or_gt_of_ne h1 with h | h
          · left; simp [h1, h1', h, h.not_gt, hxy]
          · right; right; simp [h1, h1', h, h.not_gt, hxy]

theorem itemsLt_trans {a b c : List (Str × Str)} (h : itemsLt a b = true) (h' : itemsLt b c = true) :
    itemsLt a c = true := by
  induction a generalizing b c with
  | nil => cases b <;> cases c <;> simp_all [itemsLt]
  | cons x a ih =>
    cases b with
    | nil => simp [itemsLt] at h
    | cons y b =>
      cases c with
      | nil => simp [itemsLt] at h'
      | cons z c =>
        simp only [itemsLt] at *
        by_cases hxy : x = y
        · subst hxy
          simp only [if_true] at h
          by_cases hxz : x = z
          · simp only [hxz, if_true] at *; exact ih h h'
          · simpa only [hxz, if_false] using h'
        · simp only [hxy, if_false] at h
          by_cases hyz : y = z
          · subst hyz; simp only [hxy, if_false]; exact h
          · simp only [hyz, if_false] at h'
            by_cases h1 : x.1 = y.1
            · simp only [h1, if_true, decide_eq_true_eq] at h
              by_cases h2 : y.1 = z.1
              · simp only [h2, if_true, decide_eq_true_eq] at h'
                have h3 : x ≠ z := fun e => by
                  subst e; exact absurd h' h.asymm
                simp only [h3, if_false, h1.trans h2, if_true, decide_eq_true_eq]
                exact h.trans h'
              · simp only [h2, if_false, decide_eq_true_eq] at h'
                have h3 : x.1 ≠ z.1 := h1 ▸ h2
                have h4 : x ≠ z := fun e => h3 (e ▸ rfl)
                simp only [h4, h3, if_false, decide_eq_true_eq]
                exact h1 ▸ h'
            · simp only [h1, if_false, decide_eq_true_eq] at h
              have h5 : y.1 ≤ z.1 := by
                split at h'
                · exact le_of_eq ‹_›
                · exact le_of_lt (by simpa using h')
              have h6 : x.1 < z.1 := lt_of_lt_of_le h h5
              have h4 : x ≠ z := fun e => absurd (e ▸ rfl) h6.ne
              simp only [h4, h6.ne, if_false, decide_eq_true_eq]
              exact h6

/-- C14: `<` raises `TypeError` exactly if the first differing tag is `None` on one side; this is
symmetric in the operands. -/
theorem C14_lt_defined (p q : Pos) :
    ((∃ b, p.lt q = .ok b) ↔ TagsComparable p q) ∧ (¬ TagsComparable p q → p.lt q = .error .type) := by
  unfold Pos.lt TagsComparable
  by_cases h1 : p.upos = q.upos
  · simp only [h1, ne_eq, not_true_eq_false, if_false, false_implies, true_and, true_implies]
    by_cases h2 : p.xpos = q.xpos
    · simp [h2]
    · simp only [h2, not_false_eq_true, if_true]
      cases p.xpos <;> cases q.xpos <;> simp [optStrLt]
  · simp only [h1, ne_eq, not_false_eq_true, if_true]
    cases p.upos <;> cases q.upos <;> simp [optStrLt]

/-- C14: where it is defined, `<` is a strict order whose incomparable pairs are the equal ones
(exactly one of `p < q`, `p == q`, `q < p` holds), and the operators derived by `total_ordering`
mean what they should. -/
theorem C14_trichotomy {p q : Pos} (h : TagsComparable p q) :
    ((p.lt q = .ok true ∧ p.pyEq q = false ∧ q.lt p = .ok false) ∨
     (p.lt q = .ok false ∧ p.pyEq q = true ∧ q.lt p = .ok false) ∨
     (p.lt q = .ok false ∧ p.pyEq q = false ∧ q.lt p = .ok true)) ∧
    p.gt q = q.lt p ∧ p.le q = q.ge p ∧ p.ge q = q.le p := by
  have key : (p.lt q = .ok true ∧ p.pyEq q = false ∧ q.lt p = .ok false) ∨
     (p.lt q = .ok false ∧ p.pyEq q = true ∧ q.lt p = .ok false) ∨
     (p.lt q = .ok false ∧ p.pyEq q = false ∧ q.lt p = .ok true) := by
    have he : p.pyEq q = decide (p.tupleView = q.tupleView) := by
      rw [Bool.eq_iff_iff, Pos.pyEq_iff, decide_eq_true_eq, Pos.tupleView_eq_iff]
    rw [he]
    obtain ⟨h1, h2⟩ := h
    unfold Pos.lt
    by_cases e1 : p.upos = q.upos
    · by_cases e2 : p.xpos = q.xpos
      · simp only [e1, e2, ne_eq, not_true_eq_false, if_false, Pos.tupleView, Prod.mk.injEq, true_and]
        rcases itemsLt_trichotomy (pySorted itemLe p.feats.entries) (pySorted itemLe q.feats.entries)
          with ⟨a, b, c⟩ | ⟨a, b, c⟩ | ⟨a, b, c⟩
        · simp [a, b, c]
        · right; left; simp [b, itemsLt_irrefl]
        · simp [a, b, c]
      · have e2' : ¬ q.xpos = p.xpos := fun e => e2 e.symm
        have := h2 e1 e2
        simp only [e1, e2, e2', ne_eq, not_true_eq_false, not_false_eq_true, if_true, if_false,
          Pos.tupleView, Prod.mk.injEq, false_and, and_false, decide_false]
        obtain ⟨x, hx⟩ := Option.isSome_iff_exists.mp this.1
        obtain ⟨y, hy⟩ := Option.isSome_iff_exists.mp this.2
        rw [hx, hy] at e2 ⊢
        have e2 : x ≠ y := fun e => e2 (e ▸ rfl)
        rcases lt_or_gt_of_ne e2 with h | h
        · simp [optStrLt, h, h.not_gt]
        · simp [optStrLt, h, h.not_gt]
    · have e1' : ¬ q.upos = p.upos := fun e => e1 e.symm
      have := h1 e1
      simp only [e1, e1', ne_eq, not_true_eq_false, not_false_eq_true, if_true, if_false,
        Pos.tupleView, Prod.mk.injEq, false_and, and_false, decide_false]
      obtain ⟨x, hx⟩ := Option.isSome_iff_exists.mp this.1
      obtain ⟨y, hy⟩ := Option.isSome_iff_exists.mp this.2
      rw [hx, hy] at e1 ⊢
      have e1 : x ≠ y := fun e => e1 (e ▸ rfl)
      rcases lt_or_gt_of_ne e1 with h | h
      · simp [optStrLt, h, h.not_gt]
      · simp [optStrLt, h, h.not_gt]
  refine ⟨key, ?_⟩
  have hsym : q.pyEq p = p.pyEq q := by
    rw [Bool.eq_iff_iff, Pos.pyEq_iff, Pos.pyEq_iff]; exact ⟨.symm, .symm⟩
  unfold Pos.gt Pos.le Pos.ge
  rw [hsym]
  rcases key with ⟨a, b, c⟩ | ⟨a, b, c⟩ | ⟨a, b, c⟩ <;> simp [a, b, c]

/-- C14: transitivity of `<` (for any values: a chain of successful comparisons composes). -/
theorem C14_transitive {p q r : Pos} (h : p.lt q = .ok true) (h' : q.lt r = .ok true) :
    p.lt r = .ok true := by
  have opt : ∀ {a b c : Option Str}, optStrLt a b = .ok true → optStrLt b c = .ok true →
      optStrLt a c = .ok true ∧ a ≠ c := by
    intro a b c h h'
    cases a <;> cases b <;> cases c <;> simp_all [optStrLt]
    exact ⟨h.trans h', fun e => absurd h' (e ▸ h.asymm)⟩
  have ne : ∀ {a b : Option Str}, optStrLt a b = .ok true → a ≠ b := by
    intro a b h
    cases a <;> cases b <;> simp_all [optStrLt]
    exact h.ne
  unfold Pos.lt at *
  by_cases e1 : p.upos = q.upos
  · by_cases e2 : q.upos = r.upos
    · simp only [e1, e2, ne_eq, not_true_eq_false, if_false] at *
      by_cases f1 : p.xpos = q.xpos
      · by_cases f2 : q.xpos = r.xpos
        · simp only [f1, f2, ne_eq, not_true_eq_false, if_false, Except.ok.injEq] at *
          exact itemsLt_trans h h'
        · simp only [f1, f2, ne_eq, not_true_eq_false, not_false_eq_true, if_true, if_false] at *
          exact h'
      · by_cases f2 : q.xpos = r.xpos
        · rw [← f2]
          simp only [f1, ne_eq, not_false_eq_true, if_true] at *
          exact h
        · simp only [f1, f2, ne_eq, not_false_eq_true, if_true] at *
          have := opt h h'
          simp only [this.2, not_false_eq_true, if_true, this.1]
    · simp only [e1, e2, ne_eq, not_false_eq_true, if_true] at *
      exact h'
  · by_cases e2 : q.upos = r.upos
    · rw [← e2]
      simp only [e1, ne_eq, not_false_eq_true, if_true] at *
      exact h
    · simp only [e1, e2, ne_eq, not_false_eq_true, if_true] at *
      have := opt h h'
      simp only [this.2, ne_eq, not_false_eq_true, if_true, this.1]

example : TagsComparable ⟨some ['N'], none, Dict.ofList [(['a'], ['x']), (['b'], ['y'])]⟩
      ⟨some ['N'], none, Dict.ofList [(['b'], ['y']), (['a'], ['x'])]⟩ ∧
    Pos.pyEq ⟨some ['N'], none, Dict.ofList [(['a'], ['x']), (['b'], ['y'])]⟩
      ⟨some ['N'], none, Dict.ofList [(['b'], ['y']), (['a'], ['x'])]⟩ = true := by
  constructor
  · exact ⟨fun h => absurd rfl h, fun _ h => absurd rfl h⟩
  · decide

/-! ### C15 -/

/-- C15: `update` is right-biased; the keys are the union. -/
theorem C15_extras_update (e : TokenExtras) (u : Dict Str ExtraVal) (k : Str) :
    (TokenExtras.update e u).getItem k =
      (if k ∈ u.keys then u.getItem k else TokenExtras.getItem e k) ∧
    (k ∈ (TokenExtras.update e u).keys ↔ k ∈ e.keys ∨ k ∈ u.keys) := by
  have key : (TokenExtras.update e u).get? k = (u.get? k).orElse fun _ => e.get? k := by
    unfold TokenExtras.update
    split
    · rename_i he
      have : u.get? k = none := by
        rw [Dict.get?_none]; unfold Dict.keys; rw [List.isEmpty_iff.mp he]; simp
      rw [this]; rfl
    · exact Dict.get?_update _ _ _
  constructor
  · unfold TokenExtras.getItem Dict.getItem
    rw [key]
    by_cases hk : k ∈ u.keys
    · obtain ⟨v, hv⟩ := Option.isSome_iff_exists.mp (Dict.get?_isSome.mpr hk)
      simp [hk, hv]
    · simp [hk, Dict.get?_none.mpr hk]
  · rw [← Dict.get?_isSome, ← Dict.get?_isSome, ← Dict.get?_isSome, key]
    cases u.get? k <;> simp

example : (TokenExtras.update (Dict.ofList [(['a'], 1), (['b'], 2)]) (Dict.ofList [(['b'], 3)])).getItem ['b']
    = .ok 3 := by decide

end Verif
