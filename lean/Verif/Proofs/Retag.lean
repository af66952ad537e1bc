import Verif.Proofs.Built
import Verif.Props.Datamodel2

/-! `Document.from_document` with tokens that cover the same spans in the same order. -/

namespace Verif

/-- Two tokens at the same place of a document. -/
def SameSpan (a b : Token) : Prop :=
  a.start = b.start ∧ a.stop = b.stop ∧ a.sub = b.sub ∧ a.repl = b.repl

theorem SameSpan.refl (a : Token) : SameSpan a a := ⟨rfl, rfl, rfl, rfl⟩

theorem SameSpan.before {a b a' b' : Token} (h1 : SameSpan a a') (h2 : SameSpan b b')
    (h : Before a b) : Before a' b' := by
  unfold SameSpan at h1 h2; unfold Before at *
  obtain ⟨e1, e2, e3, _⟩ := h1
  obtain ⟨f1, f2, f3, _⟩ := h2
  omega

theorem SameSpan.numbered {a b a' b' : Token} (h1 : SameSpan a a') (h2 : SameSpan b b')
    (h : NumberedAfter a b) : NumberedAfter a' b' := by
  unfold SameSpan at h1 h2; unfold NumberedAfter at *
  obtain ⟨e1, e2, e3, e4⟩ := h1
  obtain ⟨f1, f2, f3, f4⟩ := h2
  rw [← e1, ← e2, ← e3, ← e4, ← f1, ← f2, ← f3, ← f4]
  exact h

theorem Tiles.nil_of_zero {ss : List Sentence} (h : Tiles 0 ss 0) : ss = [] := by
  cases ss with
  | nil => rfl
  | cons s ss =>
    have h1 := h.2.le
    have h2 := s.lt
    omega

theorem DocOk.sentences_nil {d : Document} (h : DocOk d) (hn : d.tokens = []) : d.sentences = [] := by
  have := h.tiles
  rw [hn] at this
  exact this.nil_of_zero

theorem DocOk.of_sameSpan {d : Document} (h : DocOk d) {ts : List Token}
    (h2 : List.Forall₂ SameSpan d.tokens ts) : ts.Pairwise Before ∧ ts.IsChain NumberedAfter :=
  ⟨forall₂_pairwise (S := SameSpan) (R := Before) (fun _ _ _ _ h1 h2 h => h1.before h2 h) h2 h.order,
   forall₂_isChain (S := SameSpan) (R := NumberedAfter) (fun _ _ _ _ h1 h2 h => h1.numbered h2 h) h2
    h.numbered⟩

/-- Replacing every token by one with the same span succeeds when the heads can be filled. -/
theorem fromDocument_fill {d : Document} (h : DocOk d) {ts r : List Token}
    (h2 : List.Forall₂ SameSpan d.tokens ts) (hf : fillTokenHeads ts d.sentences = .ok r) :
    d.fromDocument ts = .ok ⟨d.text, r, d.sentences⟩ := by
  have hlen := h2.length_eq
  by_cases hne : ts = []
  · subst hne
    have h3 : d.tokens = [] := List.length_eq_zero_iff.mp (by simpa using hlen)
    rw [h.sentences_nil h3] at hf ⊢
    rw [fillTokenHeads] at hf
    injection hf with hf
    subst hf
    exact C10_empty_list_drops_everything d
  obtain ⟨hB, hN⟩ := h.of_sameSpan h2
  have hsort := pySorted_before hB
  have hzip : ((d.tokens.zip ts).any fun p => !p.1.coincides p.2) = false := by
    rw [List.any_eq_false]
    rintro ⟨a, b⟩ hab
    have := (List.forall₂_iff_zip.mp h2).2 hab
    obtain ⟨e1, e2, _⟩ := this
    simp [Token.coincides, e1, e2]
  unfold Document.fromDocument
  simp only [hsort, hzip, Bool.false_eq_true, if_false]
  have hss : sortedSentences ts (some d.sentences) = d.sentences := by
    rw [sortedSentences_of_ne hne, pySorted_eq_self sentLe h.tiles.sorted]
  rw [Document.new_ok_iff hne, hsort, hss]
  exact ⟨hB, hN, hlen ▸ h.tiles, hf, rfl, rfl, by simp⟩

/-- The same with the filled tokens given position by position. -/
theorem fromDocument_retag {d : Document} (h : DocOk d) {ts r : List Token}
    (h2 : List.Forall₂ SameSpan d.tokens ts) (hl : r.length = ts.length)
    (hf : ∀ s ∈ d.sentences, ∀ j : Nat, s.start ≤ j → j < s.stop → ∀ t t', ts[j]? = some t →
      r[j]? = some t' → t.fillHeads s.start = .ok t') :
    d.fromDocument ts = .ok ⟨d.text, r, d.sentences⟩ := by
  apply fromDocument_fill h h2
  refine fillTokenHeads_eq (a := 0) (h2.length_eq ▸ h.tiles) (by simpa using hl) ?_
  simpa using hf

/-- Tokens without heads are stored as they are. -/
theorem fromDocument_headless {d : Document} (h : DocOk d) {ts : List Token}
    (h2 : List.Forall₂ SameSpan d.tokens ts)
    (hn : ∀ t ∈ ts, t.headSent = none ∧ t.headDoc = none) :
    d.fromDocument ts = .ok ⟨d.text, ts, d.sentences⟩ := by
  refine fromDocument_retag h h2 rfl ?_
  intro s _ j _ _ t t' h3 h4
  rw [h3] at h4
  injection h4 with h4
  subst h4
  obtain ⟨e1, e2⟩ := hn t (List.mem_of_getElem? h3)
  simp [Token.fillHeads, e1, e2]

/-- The document with other tokens in the same places is again a constructed document. -/
theorem fromDocument_built {d d' : Document} {ts : List Token} (h : d.fromDocument ts = .ok d') :
    Built d' := by
  unfold Document.fromDocument at h
  simp only at h
  split at h
  · cases h
  · exact ⟨_, _, _, _, h⟩

/-- Changing anything but spans and heads always succeeds; the result keeps the text, the sentences
and, apart from heads that say root in one view only, the tokens. -/
theorem fromDocument_sameHeads {d : Document} (h : DocOk d) {ts : List Token}
    (h2 : List.Forall₂ SameSpan d.tokens ts)
    (hh : List.Forall₂ (fun a b : Token => a.headDoc = b.headDoc ∧ a.headSent = b.headSent)
      d.tokens ts) :
    ∃ r, d.fromDocument ts = .ok ⟨d.text, r, d.sentences⟩ ∧ List.Forall₂ SameButHeads ts r ∧
      List.Forall₂ (fun a b : Token => b.headDoc = (if a.isRoot then some (-1) else a.headDoc) ∧
        b.headSent = (if a.isRoot then some (-1) else a.headSent)) ts r := by
  let g : Token → Token := fun t =>
    if t.isRoot then { t with headDoc := some (-1), headSent := some (-1) } else t
  refine ⟨ts.map g, ?_, ?_, ?_⟩
  · refine fromDocument_retag h h2 (by simp) ?_
    intro s hs j h3 h4 t t' h5 h6
    rw [List.getElem?_map, h5] at h6
    injection h6 with h6
    subst h6
    have hj : j < d.tokens.length := by
      rw [h2.length_eq]
      exact (List.getElem?_eq_some_iff.mp h5).1
    have hcan := h.canon s hs j _ h3 h4 (List.getElem?_eq_getElem hj)
    have hth : d.tokens[j].headDoc = t.headDoc ∧ d.tokens[j].headSent = t.headSent := by
      have := (List.forall₂_iff_get.mp hh).2 j hj (List.getElem?_eq_some_iff.mp h5).1
      simp only [List.get_eq_getElem] at this
      rw [(List.getElem?_eq_some_iff.mp h5).2] at this
      exact this
    have hcan' : CanonHeads s.start t := by
      unfold CanonHeads at hcan ⊢
      rw [hth.1, hth.2] at hcan
      exact hcan
    show t.fillHeads s.start = .ok (g t)
    by_cases hr : t.isRoot = true
    · simp only [g, if_pos hr]
      exact fillHeads_root hr
    · simp only [g, if_neg hr]
      exact fillHeads_fixed hcan' (fun h => absurd h hr)
  · rw [List.forall₂_map_right_iff, List.forall₂_same]
    intro t _
    by_cases hr : t.isRoot = true <;> simp [g, hr, SameButHeads]
  · rw [List.forall₂_map_right_iff, List.forall₂_same]
    intro t _
    by_cases hr : t.isRoot = true <;> simp [g, hr]

end Verif
