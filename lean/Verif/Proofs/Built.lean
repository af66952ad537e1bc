import Verif.Proofs.Validate

/-! Facts about documents returned by the constructor. -/

namespace Verif

/-- Everything that is known about a constructed document, in one place. -/
structure DocOk (d : Document) : Prop where
  order : d.tokens.Pairwise Before
  numbered : d.tokens.IsChain NumberedAfter
  tiles : Tiles 0 d.sentences d.tokens.length
  canon : ∀ s ∈ d.sentences, ∀ j t, s.start ≤ j → j < s.stop → d.tokens[j]? = some t →
    CanonHeads s.start t

theorem SameButHeads.before {a b a' b' : Token} (h1 : SameButHeads a a') (h2 : SameButHeads b b')
    (h : Before a b) : Before a' b' := by
  unfold SameButHeads at h1 h2; unfold Before at *
  obtain ⟨e1, e2, e3, _⟩ := h1
  obtain ⟨f1, f2, f3, _⟩ := h2
  omega

theorem SameButHeads.numbered {a b a' b' : Token} (h1 : SameButHeads a a') (h2 : SameButHeads b b')
    (h : NumberedAfter a b) : NumberedAfter a' b' := by
  unfold SameButHeads at h1 h2; unfold NumberedAfter at *
  obtain ⟨e1, e2, e3, e4, _⟩ := h1
  obtain ⟨f1, f2, f3, f4, _⟩ := h2
  rw [← e1, ← e2, ← e3, ← e4, ← f1, ← f2, ← f3, ← f4]
  exact h

theorem forall₂_pairwise {α : Type} {S R : α → α → Prop}
    (hS : ∀ a b a' b', S a a' → S b b' → R a b → R a' b') {l l' : List α}
    (h : List.Forall₂ S l l') (hp : l.Pairwise R) : l'.Pairwise R := by
  rw [List.forall₂_iff_get] at h
  rw [List.pairwise_iff_getElem] at *
  intro i j hi hj hij
  exact hS _ _ _ _ (h.2 i (by omega) hi) (h.2 j (by omega) hj) (hp i j (by omega) (by omega) hij)

theorem forall₂_isChain {α : Type} {S R : α → α → Prop}
    (hS : ∀ a b a' b', S a a' → S b b' → R a b → R a' b') {l l' : List α}
    (h : List.Forall₂ S l l') (hp : l.IsChain R) : l'.IsChain R := by
  rw [List.forall₂_iff_get] at h
  rw [List.isChain_iff_getElem] at *
  intro i hi
  exact hS _ _ _ _ (h.2 i (by omega) (by omega)) (h.2 (i+1) (by omega) hi) (hp i (by omega))

/-- The stored tokens are the sorted argument tokens with filled heads, position by position. -/
theorem new_tokens {text : Str} {tokens : List Token} {sents : Option (List Sentence)}
    {v : Bool} {d : Document} (hne : tokens ≠ []) (h : Document.new text tokens sents v = .ok d) :
    d.tokens.length = tokens.length ∧
    ∀ s ∈ d.sentences, ∀ j, s.start ≤ j → j < s.stop →
      ∃ t t', (pySorted tokLe tokens)[j]? = some t ∧ d.tokens[j]? = some t' ∧ Filled s.start t t' := by
  obtain ⟨hB, hN, hT, hF, _, hS, _⟩ := (Document.new_ok_iff hne).mp h
  rw [← hS] at hT hF
  have hl := pySorted_length tokLe tokens
  rw [← hl] at hT
  obtain ⟨h1, h2⟩ := fillTokenHeads_spec hT hF
  exact ⟨by omega, by simpa using h2⟩

theorem new_forall₂ {text : Str} {tokens : List Token} {sents : Option (List Sentence)}
    {v : Bool} {d : Document} (hne : tokens ≠ []) (h : Document.new text tokens sents v = .ok d) :
    List.Forall₂ SameButHeads (pySorted tokLe tokens) d.tokens := by
  obtain ⟨h1, h2⟩ := new_tokens hne h
  have hl := pySorted_length tokLe tokens
  obtain ⟨hB, hN, hT, hF, _, hS, _⟩ := (Document.new_ok_iff hne).mp h
  rw [← hS] at hT
  rw [List.forall₂_iff_get]
  refine ⟨by omega, ?_⟩
  intro j hj hj'
  obtain ⟨s, hs, hs1, hs2⟩ := hT.cover (Nat.zero_le j) (by omega)
  obtain ⟨t, t', ht, ht', hf⟩ := h2 s hs j hs1 hs2
  rw [List.getElem?_eq_getElem hj] at ht
  rw [List.getElem?_eq_getElem hj'] at ht'
  injection ht with ht; injection ht' with ht'
  simp only [List.get_eq_getElem]
  rw [ht, ht']
  exact hf.same

theorem new_docOk {text : Str} {tokens : List Token} {sents : Option (List Sentence)}
    {v : Bool} {d : Document} (h : Document.new text tokens sents v = .ok d) : DocOk d := by
  by_cases hne : tokens = []
  · subst hne
    rw [Document.new_nil] at h
    injection h with h
    subst h
    exact ⟨by simp, by simp, rfl, by simp⟩
  · obtain ⟨hB, hN, hT, hF, _, hS, _⟩ := (Document.new_ok_iff hne).mp h
    obtain ⟨h1, h2⟩ := new_tokens hne h
    have h3 := new_forall₂ hne h
    refine ⟨forall₂_pairwise (S := SameButHeads) (R := Before) (fun _ _ _ _ h1 h2 h => SameButHeads.before h1 h2 h) h3 hB,
      forall₂_isChain (S := SameButHeads) (R := NumberedAfter) (fun _ _ _ _ h1 h2 h => SameButHeads.numbered h1 h2 h) h3 hN, by rw [hS, h1]; exact hT, ?_⟩
    intro s hs j t h4 h5 h6
    obtain ⟨t0, t', _, ht', hf⟩ := h2 s hs j h4 h5
    rw [h6] at ht'
    injection ht' with ht'
    exact ht' ▸ hf.canon

theorem Built.docOk {d : Document} (h : Built d) : DocOk d := by
  obtain ⟨_, _, _, _, h⟩ := h
  exact new_docOk h

theorem BuiltValid.built {d : Document} (h : BuiltValid d) : Built d := by
  obtain ⟨_, _, _, h⟩ := h
  exact ⟨_, _, _, _, h⟩

theorem DocOk.canon_slice {d : Document} (h : DocOk d) {s : Sentence} (hs : s ∈ d.sentences) :
    ∀ t ∈ slice d.tokens s.start s.stop, CanonHeads s.start t := by
  intro t ht
  obtain ⟨j, h1, h2, h3⟩ := mem_slice.mp ht
  exact h.canon s hs j t h1 h2 h3

theorem DocOk.stop_le {d : Document} (h : DocOk d) {s : Sentence} (hs : s ∈ d.sentences) :
    s.stop ≤ d.tokens.length := (h.tiles.mem hs).2

theorem Token.with_heads_eq {t : Token} {hd hs : Option Int} (h1 : t.headDoc = hd)
    (h2 : t.headSent = hs) : { t with headDoc := hd, headSent := hs } = t := by
  subst h1 h2; rfl

/-- A document passing the invariant can be built from its own parts when its heads are already
filled in a way `fill_heads` leaves alone. -/
theorem fillHeads_fixed {k : Nat} {t : Token} (h : CanonHeads k t)
    (hr : t.isRoot = true → t.headDoc = some (-1) ∧ t.headSent = some (-1)) :
    t.fillHeads k = .ok t := by
  unfold Token.fillHeads
  simp only [Token.withSyntax_ok]
  rcases h with ⟨h1, h2⟩ | ⟨h1, h2⟩ | ⟨a, h1, h2⟩
  · simp [h1, h2]
  · simp only [h1, h2, true_or, if_true]
    rw [Token.with_heads_eq h2 h1]
  · simp only [h1, h2]
    by_cases hroot : t.isRoot = true
    · obtain ⟨e1, e2⟩ := hr hroot
      rw [if_pos (.inl (h1.symm.trans e2)), Token.with_heads_eq e1 e2]
    · rw [if_neg]
      · simp only [ne_eq, not_true_eq_false, if_false]
        rw [Token.with_heads_eq h2 h1]
      · intro hc
        apply hroot
        unfold Token.isRoot
        rw [h1, h2]
        rcases hc with hc | hc <;> simp [hc]

theorem fillHeads_root {k : Nat} {t : Token} (hr : t.isRoot = true) :
    t.fillHeads k = .ok { t with headDoc := some (-1), headSent := some (-1) } := by
  unfold Token.isRoot at hr
  simp only [Bool.or_eq_true, beq_iff_eq] at hr
  unfold Token.fillHeads
  simp only [Token.withSyntax_ok]
  cases h1 : t.headSent with
  | none =>
    cases h2 : t.headDoc with
    | none => simp [h1, h2] at hr
    | some d => simp [h1, h2] at hr; simp [hr]
  | some s =>
    simp only
    rw [if_pos]
    rcases hr with hr | hr
    · exact .inr hr
    · rw [h1] at hr; exact .inl hr

theorem fillTokenHeads_eq {toks r : List Token} {ss : List Sentence} {a : Nat}
    (ht : Tiles a ss toks.length) (hl : r.length = toks.length - a)
    (h : ∀ s ∈ ss, ∀ j, s.start ≤ j → j < s.stop → ∀ t t', toks[j]? = some t → r[j - a]? = some t' →
      t.fillHeads s.start = .ok t') : fillTokenHeads toks ss = .ok r := by
  induction ss generalizing a r with
  | nil =>
    simp only [Tiles] at ht
    have : r = [] := List.length_eq_zero_iff.mp (by omega)
    subst this; rfl
  | cons s ss ih =>
    simp only [Tiles] at ht
    have hle := ht.2.le
    have hlt := s.lt
    have h1 : mapM' (fun t => Token.fillHeads t s.start) (slice toks s.start s.stop) =
        .ok (r.take (s.stop - a)) := by
      rw [mapM'_ok_iff, List.forall₂_iff_get]
      refine ⟨by rw [slice_length, List.length_take]; omega, ?_⟩
      intro i hi hi'
      simp only [List.get_eq_getElem]
      have b1 : i < s.stop - s.start := by rw [slice_length] at hi; omega
      refine h s (by simp) (s.start + i) (by omega) (by omega) _ _ ?_ ?_
      · rw [← List.getElem?_eq_getElem, slice_getElem?, if_pos b1]
      · rw [← List.getElem?_eq_getElem, List.getElem?_take, if_pos (by omega)]
        congr 1; omega
    have h2 : fillTokenHeads toks ss = .ok (r.drop (s.stop - a)) := by
      apply ih ht.2 (by rw [List.length_drop]; omega)
      intro s' hs' j hj1 hj2 t t' h3 h4
      have := (ht.2.mem hs').1
      apply h s' (by simp [hs']) j hj1 hj2 t t' h3
      rw [List.getElem?_drop] at h4
      rw [← h4]; congr 1; omega
    simp only [fillTokenHeads, h1, h2, List.take_append_drop]

theorem wordList_slice {d : Document} (h : DocOk d) (a b : Nat) :
    wordList (slice d.tokens a b) [] = .ok (slice d.tokens a b) := by
  have hp : (slice d.tokens a b).Pairwise Before := h.order.sublist (slice_sublist _ _ _)
  have hs := pySorted_before hp
  have h1 := (nonIntersecting_iff (slice d.tokens a b)).mpr (by rw [hs]; exact hp)
  have hc : (slice d.tokens a b).IsChain NumberedAfter := by
    have := h.numbered
    rw [List.isChain_iff_getElem] at *
    intro i hi
    have hi' := hi
    rw [slice_length] at hi'
    have e1 : (slice d.tokens a b)[i] = d.tokens[a + i] := by
      apply Option.some.inj
      rw [← List.getElem?_eq_getElem, ← List.getElem?_eq_getElem, slice_getElem?, if_pos (by omega)]
    have e2 : (slice d.tokens a b)[i + 1] = d.tokens[a + i + 1] := by
      apply Option.some.inj
      rw [← List.getElem?_eq_getElem, ← List.getElem?_eq_getElem, slice_getElem?, if_pos (by omega)]
      rfl
    rw [e1, e2]
    exact this (a + i) (by omega)
  have h2 := (noSkipped_iff (slice d.tokens a b)).mpr hc
  rw [hs] at h1
  unfold wordList
  simp [hs, h1, h2]

theorem tiles_flatten {α : Type} (l : List α) {a : Nat} {ss : List Sentence}
    (h : Tiles a ss l.length) :
    (ss.map (fun s => slice l s.start s.stop)).flatten = slice l a l.length := by
  induction ss generalizing a with
  | nil => simp only [Tiles] at h; simp [h, slice_self]
  | cons s ss ih =>
    simp only [Tiles] at h
    simp only [List.map_cons, List.flatten_cons, ih h.2, h.1]
    exact slice_append_slice l (by have := s.lt; omega) h.2.le

end Verif
