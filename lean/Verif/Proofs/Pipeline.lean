import Verif.Spec.Pipeline
import Verif.Proofs.Retag
import Verif.Proofs.Tables
import Verif.Proofs.Validate
import Verif.Proofs.Reader2

/-! Proofs about taggers, parsers and processors. -/

namespace Verif

theorem retagged_of {d : Document} (h : DocOk d) {ts : List Token}
    (h2 : List.Forall₂ (fun a b : Token => ∃ p l, b = { a with pos := p, lemma' := l }) d.tokens ts) :
    ∃ d', d.fromDocument ts = .ok d' ∧ Retagged d d' ∧
      List.Forall₂ (fun b c : Token => c.pos = b.pos ∧ c.lemma' = b.lemma') ts d'.tokens := by
  have hs : List.Forall₂ SameSpan d.tokens ts := h2.imp (fun a b ⟨p, l, hb⟩ => by
    subst hb; exact ⟨rfl, rfl, rfl, rfl⟩)
  obtain ⟨r, hr, hsame, hheads⟩ := fromDocument_sameHeads h hs
    (h2.imp (fun a b ⟨p, l, hb⟩ => by subst hb; exact ⟨rfl, rfl⟩))
  refine ⟨_, hr, ⟨rfl, rfl, ?_⟩, ?_⟩
  · show List.Forall₂ SameButMorph d.tokens r
    rw [List.forall₂_iff_get] at h2 hsame hheads ⊢
    refine ⟨by rw [h2.1, hsame.1], ?_⟩
    intro i hi hi'
    have hit : i < ts.length := by rw [← h2.1]; exact hi
    obtain ⟨p, l, e⟩ := h2.2 i hi hit
    have h3 := hsame.2 i hit hi'
    have h4 := hheads.2 i hit hi'
    simp only [e, Token.isRoot, SameButHeads] at h3 h4
    obtain ⟨a1, a2, a3, a4, a5, a6, a7, a8⟩ := h3
    refine ⟨a1.symm, a2.symm, a3.symm, a4.symm, a7.symm, a8.symm, ?_⟩
    unfold KeepsHead Token.isRoot
    split
    · rename_i hroot
      simp only [hroot, if_true] at h4
      exact h4
    · rename_i hroot
      simp only [hroot, Bool.false_eq_true, if_false] at h4
      exact h4
  · exact hsame.imp (fun a b ⟨_, _, _, _, a5, a6, _⟩ => ⟨a5.symm, a6.symm⟩)

theorem mapM'_pure {α β : Type} {f : α → Res β} {g : α → β} {l : List α}
    (h : ∀ x ∈ l, f x = .ok (g x)) : mapM' f l = .ok (l.map g) := by
  induction l with
  | nil => rfl
  | cons x xs ih =>
    have h1 := h x (by simp)
    have h2 := ih (fun y hy => h y (by simp [hy]))
    simp [mapM', h1, h2]

theorem stubTag_spec {d : Document} (h : DocOk d) (pos : Option Pos) :
    ∃ d', stubTag pos d = .ok d' ∧ Retagged d d' ∧
      List.Forall₂ (fun a b : Token => b.pos = pos ∧ b.lemma' = some (tokText d.text a))
        d.tokens d'.tokens := by
  have h1 : mapM' (fun t => t.withMorphology pos (some (tokText d.text t))) d.tokens =
      .ok (d.tokens.map (fun t => { t with pos := pos, lemma' := some (tokText d.text t) })) :=
    mapM'_pure (fun t _ => Token.withMorphology_ok ..)
  obtain ⟨d', h2, h3, h4⟩ := retagged_of h
    (ts := d.tokens.map (fun t => { t with pos := pos, lemma' := some (tokText d.text t) }))
    (by rw [List.forall₂_map_right_iff, List.forall₂_same]; exact fun t _ => ⟨_, _, rfl⟩)
  refine ⟨d', by simp only [stubTag, h1, h2], h3, ?_⟩
  rw [List.forall₂_map_left_iff] at h4
  exact h4

/-! ### Sentence by sentence -/

theorem tiles_mapIdx {α β : Type} (g : Sentence → Nat → α → β) (l : List α) {a : Nat}
    {ss : List Sentence} (h : Tiles a ss l.length) :
    ((ss.map (fun s => (slice l s.start s.stop).zipIdx.map (fun p => g s p.2 p.1))).flatten).length =
      l.length - a ∧
    ∀ s ∈ ss, ∀ j : Nat, s.start ≤ j → j < s.stop → ∀ x, l[j]? = some x →
      ((ss.map (fun s => (slice l s.start s.stop).zipIdx.map (fun p => g s p.2 p.1))).flatten)[j - a]? =
        some (g s (j - s.start) x) := by
  induction ss generalizing a with
  | nil => simp only [Tiles] at h; simp [h]
  | cons s ss ih =>
    simp only [Tiles] at h
    obtain ⟨ih1, ih2⟩ := ih h.2
    have hle := h.2.le
    have hlt := s.lt
    have hlen : ((slice l s.start s.stop).zipIdx.map (fun p => g s p.2 p.1)).length = s.stop - s.start := by
      simp only [List.length_map, List.length_zipIdx, slice_length]; omega
    refine ⟨?_, ?_⟩
    · rw [List.map_cons, List.flatten_cons, List.length_append, ih1, hlen]
      omega
    · intro s' hs' j h1 h2 x hx
      rw [List.map_cons, List.flatten_cons]
      rcases List.mem_cons.mp hs' with e | hs'
      · subst e
        rw [List.getElem?_append_left (by omega), List.getElem?_map, List.getElem?_zipIdx,
          slice_getElem?, if_pos (by omega)]
        have : s'.start + (j - a) = j := by omega
        rw [this, hx]
        simp [h.1]
      · have h3 := (h.2.mem hs').1
        rw [List.getElem?_append_right (by omega), hlen]
        have : j - a - (s.stop - s.start) = j - s.stop := by omega
        rw [this]
        exact ih2 s' hs' j h1 h2 x hx

/-- The word at position `i` of a sentence starting at `k`, attached to its left neighbour. -/
def attached (deprel : Option Str) (k i : Nat) (t : Token) : Token :=
  { t with
    deprel := deprel
    headDoc := some (if i = 0 then -1 else ((k + i - 1 : Nat) : Int))
    headSent := some (if i = 0 then -1 else ((i - 1 : Nat) : Int)) }

theorem stubAttach_eq (deprel : Option Str) (ts : List Token) :
    stubAttach deprel ts = .ok (ts.zipIdx.map (fun p =>
      { p.1 with deprel := deprel, headDoc := none, headSent := some ((p.2 : Int) - 1) })) :=
  mapM'_pure (fun _ _ => Token.withSyntax_ok ..)

theorem stubParse_spec {d : Document} (h : DocOk d) (deprel : Option Str) :
    ∃ ts, stubParse deprel d = .ok ⟨d.text, ts, d.sentences⟩ ∧ ts.length = d.tokens.length ∧
      ∀ s ∈ d.sentences, ∀ j : Nat, s.start ≤ j → j < s.stop → ∀ t, d.tokens[j]? = some t →
        ts[j]? = some (attached deprel s.start (j - s.start) t) := by
  obtain ⟨l1, g1⟩ := tiles_mapIdx (fun _ i t => ({ t with
    deprel := deprel, headDoc := none, headSent := some ((i : Int) - 1) } : Token)) d.tokens h.tiles
  obtain ⟨l2, g2⟩ := tiles_mapIdx (fun s i t => attached deprel s.start i t) d.tokens h.tiles
  simp only [Nat.sub_zero] at l1 g1 l2 g2
  refine ⟨_, ?_, l2, g2⟩
  have e1 : mapM' (fun s : Sentence => stubAttach deprel (slice d.tokens s.start s.stop)) d.sentences =
      .ok (d.sentences.map (fun s => (slice d.tokens s.start s.stop).zipIdx.map (fun p =>
        ({ p.1 with deprel := deprel, headDoc := none, headSent := some ((p.2 : Int) - 1) } : Token)))) :=
    mapM'_pure (fun s _ => stubAttach_eq deprel _)
  simp only [stubParse, e1]
  refine fromDocument_retag h ?_ (by rw [l1, l2]) ?_
  · rw [List.forall₂_iff_get]
    refine ⟨l1.symm, ?_⟩
    intro j hj hj'
    obtain ⟨s, hs, h1, h2⟩ := h.tiles.cover (Nat.zero_le j) hj
    have := g1 s hs j h1 h2 _ (List.getElem?_eq_getElem hj)
    rw [List.getElem?_eq_getElem hj'] at this
    injection this with this
    simp only [List.get_eq_getElem]
    rw [this]
    exact ⟨rfl, rfl, rfl, rfl⟩
  · intro s hs j h1 h2 t t' h3 h4
    have hj : j < d.tokens.length := by
      have := (h.tiles.mem hs).2
      omega
    have e3 := g1 s hs j h1 h2 _ (List.getElem?_eq_getElem hj)
    have e4 := g2 s hs j h1 h2 _ (List.getElem?_eq_getElem hj)
    rw [e3] at h3
    rw [e4] at h4
    injection h3 with h3
    injection h4 with h4
    subst h3 h4
    unfold Token.fillHeads attached
    simp only [Token.withSyntax_ok]
    by_cases h0 : j - s.start = 0
    · simp [h0]
    · have h5 : ¬ ((j - s.start : Nat) : Int) - 1 = -1 := by omega
      have h6 : (((j - s.start : Nat) : Int) - 1) = ((j - s.start - 1 : Nat) : Int) := by omega
      have h7 : ((s.start + (j - s.start) - 1 : Nat) : Int) = ((j - s.start - 1 : Nat) : Int) + s.start := by
        omega
      rw [h6]
      simp [h0, h7]

/-! ### Chains are trees -/

theorem chain_isTree {ts : List Token} (hne : ts ≠ [])
    (h : ∀ (i : Nat) t, ts[i]? = some t → t.headSent = some (if i = 0 then -1 else ((i - 1 : Nat) : Int)) ∧
      (t.isRoot = true ↔ i = 0)) : IsTree ts := by
  have hlen := List.length_pos_of_ne_nil hne
  refine ⟨⟨0, ⟨ts[0], List.getElem?_eq_getElem hlen, (h 0 _ (List.getElem?_eq_getElem hlen)).2.mpr rfl⟩,
    ?_⟩, ?_⟩
  · rintro i ⟨t, ht, hr⟩
    exact (h i t ht).2.mp hr
  · intro i
    induction i with
    | zero =>
      intro hi
      exact .root (List.getElem?_eq_getElem hi) ((h 0 _ (List.getElem?_eq_getElem hi)).2.mpr rfl)
    | succ i ih =>
      intro hi
      have h1 := h (i + 1) _ (List.getElem?_eq_getElem hi)
      refine .step (h := i) (List.getElem?_eq_getElem hi) ?_ ?_ (ih (by omega))
      · have := h1.2
        simp only [Nat.add_one_ne_zero, iff_false, Bool.not_eq_true] at this
        exact this
      · simpa using h1.1

/-- A well-formed document whose roots are marked in both views and whose sentences are trees passes
validation unchanged. -/
theorem revalidates {d : Document} (h : DocOk d)
    (hroots : ∀ t ∈ d.tokens, t.isRoot = true → t.headDoc = some (-1) ∧ t.headSent = some (-1))
    (ht : ∀ s ∈ d.sentences, Headless (slice d.tokens s.start s.stop) ∨
      IsTree (slice d.tokens s.start s.stop)) :
    Document.new d.text d.tokens (some d.sentences) true = .ok d := by
  by_cases hne : d.tokens = []
  · have hs := h.sentences_nil hne
    cases d
    simp only at hne hs
    subst hne hs
    rfl
  have hsort := pySorted_before h.order
  have hss : sortedSentences d.tokens (some d.sentences) = d.sentences := by
    rw [sortedSentences_of_ne hne, pySorted_eq_self sentLe h.tiles.sorted]
  refine (Document.new_ok_iff hne).mpr ?_
  rw [hss, hsort]
  refine ⟨h.order, h.numbered, h.tiles, ?_, rfl, rfl, fun _ => ?_⟩
  · refine fillTokenHeads_eq h.tiles (by simp) ?_
    intro s hs j h1 h2 t t' h3 h4
    simp only [Nat.sub_zero] at h4
    rw [h3] at h4
    injection h4 with h4
    subst h4
    exact fillHeads_fixed (h.canon s hs j t h1 h2 h3) (hroots t (List.mem_of_getElem? h3))
  · refine (validateSyntax_iff ?_).mpr ht
    intro s hs
    refine ⟨(h.tiles.mem hs).2, fun t ht => ?_⟩
    exact h.canon_slice hs t ht

/-! ### Interpreting predictions -/

/-- What an interpreter makes of a predicted label: a tag or a lemma. -/
def WordInterp.value (lower : Str → Str) (i : WordInterp) (text : Str) (ids : List Int) :
    Res (Option Pos ⊕ Option Str) :=
  match i with
  | .pos _ table => match table.decode ids with
    | .error e => .error e
    | .ok q => .ok (.inl q)
  | .lemmaDict _ lemmas => match pyGet ids 0 with
    | .error e => .error e
    | .ok i => match pyGet lemmas i with
      | .error e => .error e
      | .ok l => .ok (.inr l)
  | .lemmaRule _ rules => match pyGet ids 0 with
    | .error e => .error e
    | .ok i => match pyGet rules i with
      | .error e => .error e
      | .ok r => if r.isApplicable (lower text) then
          match r.transform (lower text) with
          | .error e => .error e
          | .ok l => .ok (.inr (some l))
        else .ok (.inr (some (lower text)))
  | .lemmaChars _ chars => match decodeChars chars ids with
    | .error e => .error e
    | .ok l => .ok (.inr (some l))

/-- Set the tag or the lemma of a token. -/
def setMorph (t : Token) : Option Pos ⊕ Option Str → Token
  | .inl q => { t with pos := q }
  | .inr l => { t with lemma' := l }

theorem WordInterp.apply_eq (lower : Str → Str) (i : WordInterp) (t : TextToken) (ids : List Int) :
    i.apply lower t ids = match i.value lower t.1 ids with
      | .error e => .error e
      | .ok v => .ok (setMorph t.2 v) := by
  cases i with
  | pos n table =>
    simp only [WordInterp.apply, PosTable.interpret, WordInterp.value]
    cases table.decode ids with
    | error e => rfl
    | ok q => simp [Token.withMorphology_ok, setMorph]
  | lemmaDict n lemmas =>
    simp only [WordInterp.apply, interpretLemma, WordInterp.value]
    cases pyGet ids 0 with
    | error e => rfl
    | ok j =>
      simp only
      cases pyGet lemmas j with
      | error e => rfl
      | ok l => simp [Token.withMorphology_ok, setMorph]
  | lemmaRule n rules =>
    simp only [WordInterp.apply, interpretRule, WordInterp.value]
    cases pyGet ids 0 with
    | error e => rfl
    | ok j =>
      simp only
      cases pyGet rules j with
      | error e => rfl
      | ok r =>
        simp only
        split
        · cases r.transform (lower t.1) with
          | error e => rfl
          | ok l => simp [Token.withMorphology_ok, setMorph]
        · simp [Token.withMorphology_ok, setMorph]
  | lemmaChars n chars =>
    simp only [WordInterp.apply, interpretChars, WordInterp.value]
    cases decodeChars chars ids with
    | error e => rfl
    | ok l => simp [Token.withMorphology_ok, setMorph]

/-- Only tag and lemma changed. -/
def Morphed (a b : Token) : Prop := ∃ p l, b = { a with pos := p, lemma' := l }

theorem Morphed.refl (a : Token) : Morphed a a := ⟨_, _, rfl⟩

theorem Morphed.trans {a b c : Token} (h1 : Morphed a b) (h2 : Morphed b c) : Morphed a c := by
  obtain ⟨p, l, rfl⟩ := h1
  obtain ⟨p', l', rfl⟩ := h2
  exact ⟨p', l', rfl⟩

theorem setMorph_morphed (t : Token) (v : Option Pos ⊕ Option Str) : Morphed t (setMorph t v) := by
  cases v with
  | inl q => exact ⟨q, t.lemma', rfl⟩
  | inr l => exact ⟨t.pos, l, rfl⟩

theorem WordInterp.interpret_ok {lower : Str → Str} {i : WordInterp} {t t' : TextToken} {v : Features}
    (h : i.interpret lower t v = .ok t') :
    ∃ f ids x, v.get? i.name = some f ∧ featInts f = .ok ids ∧ i.value lower t.1 ids = .ok x ∧
      t' = (t.1, setMorph t.2 x) := by
  unfold WordInterp.interpret at h
  cases hv : v.getItem i.name with
  | error e => rw [hv] at h; cases h
  | ok f =>
    rw [hv] at h
    simp only at h
    cases hf : featInts f with
    | error e => rw [hf] at h; cases h
    | ok ids =>
      rw [hf] at h
      simp only [WordInterp.apply_eq] at h
      cases hx : i.value lower t.1 ids with
      | error e => rw [hx] at h; cases h
      | ok x =>
        rw [hx] at h
        injection h with h
        refine ⟨f, ids, x, ?_, hf, hx, h.symm⟩
        unfold Dict.getItem at hv
        cases hg : v.get? i.name with
        | none => rw [hg] at hv; cases hv
        | some f' => rw [hg] at hv; injection hv with hv; rw [hv]

theorem composite_morphed {lower : Str → Str} {is : List WordInterp} {t t' : TextToken} {v : Features}
    (h : compositeInterpret (is.map (fun i => i.interpret lower)) t v = .ok t') :
    t'.1 = t.1 ∧ Morphed t.2 t'.2 := by
  unfold compositeInterpret at h
  induction is generalizing t with
  | nil =>
    simp only [List.map_nil, forM'] at h
    injection h with h
    subst h
    exact ⟨rfl, Morphed.refl _⟩
  | cons i is ih =>
    simp only [List.map_cons, forM'] at h
    cases hi : i.interpret lower t v with
    | error e => rw [hi] at h; cases h
    | ok t1 =>
      rw [hi] at h
      obtain ⟨_, _, x, _, _, _, rfl⟩ := WordInterp.interpret_ok hi
      obtain ⟨h1, h2⟩ := ih h
      exact ⟨h1, (setMorph_morphed _ _).trans h2⟩

/-- The texts agree and only tag and lemma changed. -/
def TextMorphed (a b : TextToken) : Prop := b.1 = a.1 ∧ Morphed a.2 b.2

/-- `b` corresponds to the beginning of `a`. -/
def PartOf (a b : List TextToken) : Prop :=
  b.length ≤ a.length ∧ List.Forall₂ TextMorphed (a.take b.length) b

theorem iterInterpret_part {f : TextToken → Features → Res TextToken}
    (hf : ∀ t v t', f t v = .ok t' → TextMorphed t t') {ts : List TextToken}
    {value : Dict Str (List Feat)} {r : List TextToken} (h : iterInterpret f ts value = .ok r) :
    PartOf ts r := by
  unfold iterInterpret at h
  generalize converted value = c at h
  induction ts generalizing c r with
  | nil =>
    simp only [List.zip_nil_left, mapM'] at h
    injection h with h
    subst h
    exact ⟨by simp, by simp⟩
  | cons t ts ih =>
    cases c with
    | nil =>
      simp only [List.zip_nil_right, mapM'] at h
      injection h with h
      subst h
      exact ⟨by simp, by simp⟩
    | cons v c =>
      simp only [List.zip_cons_cons, mapM'] at h
      cases h1 : f t v with
      | error e => rw [h1] at h; cases h
      | ok t' =>
        rw [h1] at h
        simp only at h
        cases h2 : mapM' (fun p : TextToken × Features => f p.1 p.2) (ts.zip c) with
        | error e => rw [h2] at h; cases h
        | ok r' =>
          rw [h2] at h
          injection h with h
          subst h
          obtain ⟨h3, h4⟩ := ih c h2
          exact ⟨by simpa using h3, by simpa using ⟨hf t v t' h1, h4⟩⟩

theorem interpretWords_part {lower : Str → Str} {is : List WordInterp} {ts r : List TextToken}
    {v : Features} (h : interpretWords lower is ts v = .ok r) : PartOf ts r := by
  unfold interpretWords at h
  cases ha : asSequences v with
  | error e => rw [ha] at h; cases h
  | ok w =>
    rw [ha] at h
    exact iterInterpret_part (fun t v t' ht => composite_morphed ht) h

theorem tagSentence_part {lower : Str → Str} {is : List WordInterp} {ts r : List TextToken}
    {pred : Dict Str (List Feat)} (h : tagSentence lower is ts pred = .ok r) : PartOf ts r := by
  unfold tagSentence iterInterpret at h
  cases hc : converted pred with
  | nil =>
    rw [hc] at h
    simp only [List.zip_nil_right, mapM'] at h
    injection h with h
    subst h
    exact ⟨by simp, by simp⟩
  | cons v c =>
    rw [hc] at h
    simp only [List.zip_cons_cons, List.zip_nil_left, mapM'] at h
    cases hw : interpretWords lower is ts v with
    | error e => rw [hw] at h; cases h
    | ok r' =>
      rw [hw] at h
      simp only [List.flatten_cons, List.flatten_nil, List.append_nil] at h
      injection h with h
      subst h
      exact interpretWords_part hw

theorem partOf_flatten {as bs : List (List TextToken)} (h : List.Forall₂ PartOf as bs) :
    bs.flatten.length ≤ as.flatten.length ∧
    (bs.flatten.length = as.flatten.length → List.Forall₂ TextMorphed as.flatten bs.flatten) := by
  induction h with
  | nil => exact ⟨by simp, fun _ => by simp⟩
  | @cons a b as bs h1 _ ih =>
    simp only [List.flatten_cons, List.length_append]
    have := h1.1
    refine ⟨by omega, fun he => ?_⟩
    have h2 := h1.2
    rw [List.take_of_length_le (by omega)] at h2
    exact List.rel_append h2 (ih.2 (by omega))

theorem textTokens_flatten {d : Document} (h : DocOk d) :
    (d.sentences.map (fun s => slice d.textTokens s.start s.stop)).flatten = d.textTokens := by
  have hl : d.textTokens.length = d.tokens.length := by simp [Document.textTokens]
  rw [tiles_flatten d.textTokens (a := 0) (by rw [hl]; exact h.tiles), slice_zero_length]

theorem tagSentences_part {lower : Str → Str} {is : List WordInterp}
    {predict : Document → Sentence → Res (Dict Str (List Feat))} {d : Document}
    {tss : List (List TextToken)} (h : tagSentences lower is predict d = .ok tss) :
    List.Forall₂ PartOf (d.sentences.map (fun s => slice d.textTokens s.start s.stop)) tss := by
  unfold tagSentences at h
  rw [mapM'_ok_iff] at h
  rw [List.forall₂_map_left_iff]
  refine h.imp ?_
  intro s r hr
  unfold predictAndTag at hr
  cases hp : predict d s with
  | error e => rw [hp] at hr; cases hr
  | ok pred =>
    rw [hp] at hr
    exact tagSentence_part hr

theorem neuralTag_structure {lower : Str → Str} {is : List WordInterp}
    {predict : Document → Sentence → Res (Dict Str (List Feat))} {d d' : Document} (hd : DocOk d)
    (h : neuralTag lower is predict d = .ok d') :
    Retagged d d' ∨ (d'.text = d.text ∧ d'.tokens = [] ∧ d'.sentences = []) := by
  unfold neuralTag at h
  cases ht : tagSentences lower is predict d with
  | error e => rw [ht] at h; cases h
  | ok tss =>
    rw [ht] at h
    simp only at h
    have hp := partOf_flatten (tagSentences_part ht)
    rw [textTokens_flatten hd] at hp
    obtain ⟨hle, heq⟩ := hp
    have hl : d.textTokens.length = d.tokens.length := by simp [Document.textTokens]
    by_cases hne : tss.flatten = []
    · right
      rw [hne, List.map_nil, C10_empty_list_drops_everything] at h
      injection h with h
      subst h
      exact ⟨rfl, rfl, rfl⟩
    · left
      have hlen : tss.flatten.length = d.textTokens.length := by
        unfold Document.fromDocument at h
        simp only at h
        split at h
        · cases h
        · have hne' : pySorted tokLe (tss.flatten.map Prod.snd) ≠ [] := by
            intro h0
            have := congrArg List.length h0
            rw [(pySorted_perm tokLe _).length_eq, List.length_map, List.length_nil] at this
            exact hne (List.length_eq_zero_iff.mp this)
          obtain ⟨_, _, hT, _⟩ := (Document.new_ok_iff hne').mp h
          rw [sortedSentences_of_ne hne', pySorted_eq_self sentLe hd.tiles.sorted,
            (pySorted_perm tokLe _).length_eq, List.length_map] at hT
          have e1 := hT.lastStop
          have e2 := hd.tiles.lastStop
          omega
      have h2 : List.Forall₂ (fun a b : Token => ∃ p l, b = { a with pos := p, lemma' := l }) d.tokens
          (tss.flatten.map Prod.snd) := by
        have h3 := heq hlen
        rw [List.forall₂_map_right_iff]
        unfold Document.textTokens at h3
        rw [List.forall₂_map_left_iff] at h3
        exact h3.imp (fun a b hab => hab.2)
      obtain ⟨d2, e1, e2, _⟩ := retagged_of hd h2
      rw [e1] at h
      injection h with h
      subst h
      exact e2

end Verif
