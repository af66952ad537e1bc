import Verif.Proofs.Reader

/-!
# The reader loop against the grammar
-/

namespace Verif

/-! ### items -/

theorem ItemTokens.unique {off : Nat} {it : Item} {a b : List Token} (ha : ItemTokens off it a)
    (hb : ItemTokens off it b) (hda : ∀ t ∈ a, t.headDoc = none) (hdb : ∀ t ∈ b, t.headDoc = none) :
    a = b := by
  cases it with
  | word p =>
    obtain ⟨t, rfl, h1⟩ := ha
    obtain ⟨t', rfl, h2⟩ := hb
    rw [h1.unique h2 (by rw [hda t (by simp), hdb t' (by simp)])]
  | multi h ws =>
    have hl := ha.1.trans hb.1.symm
    apply List.ext_getElem hl
    intro i hi hi'
    have hw : i < ws.length := ha.1 ▸ hi
    exact (ha.2 i _ _ (List.getElem?_eq_getElem hw) (List.getElem?_eq_getElem hi)).unique
      (hb.2 i _ _ (List.getElem?_eq_getElem hw) (List.getElem?_eq_getElem hi'))
      (by rw [hda _ (List.getElem_mem hi), hdb _ (List.getElem_mem hi')])

theorem ItemsTokens.unique {off : Nat} {its : List Item} {a b : List Token} (ha : ItemsTokens off its a)
    (hb : ItemsTokens off its b) (hda : ∀ t ∈ a, t.headDoc = none) (hdb : ∀ t ∈ b, t.headDoc = none) :
    a = b := by
  induction its generalizing off a b with
  | nil => cases ha; cases hb; rfl
  | cons it its ih =>
    obtain ⟨a1, a2, rfl, h1, h2⟩ := ha
    obtain ⟨b1, b2, rfl, h3, h4⟩ := hb
    rw [h1.unique h3 (fun t ht => hda t (by simp [ht])) (fun t ht => hdb t (by simp [ht])),
      ih h2 h4 (fun t ht => hda t (by simp [ht])) (fun t ht => hdb t (by simp [ht]))]

theorem Bounds.unique {k : Nat} {sents : List (List Item)} {a b : List Sentence} (ha : Bounds k sents a)
    (hb : Bounds k sents b) : a = b := by
  induction sents generalizing k a b with
  | nil => cases ha; cases hb; rfl
  | cons its sents ih =>
    obtain ⟨s, r, rfl, h1, h2, h3⟩ := ha
    obtain ⟨s', r', rfl, g1, g2, g3⟩ := hb
    have : s = s' := by
      cases s; cases s'; simp only at *; subst h1 h2 g1 g2; rfl
    subst this
    rw [ih h3 g3]

theorem Bounds.append {k : Nat} {a b : List (List Item)} {x y : List Sentence} (ha : Bounds k a x)
    (hb : Bounds (k + wordCount a.flatten) b y) : Bounds k (a ++ b) (x ++ y) := by
  induction a generalizing k x with
  | nil => cases ha; simpa [wordCount] using hb
  | cons its a ih =>
    obtain ⟨s, r, rfl, h1, h2, h3⟩ := ha
    refine ⟨s, r ++ y, rfl, h1, h2, ih h3 ?_⟩
    rw [h2]
    simpa [wordCount_append, Nat.add_assoc] using hb

theorem Bounds.tiles {k : Nat} {a : List (List Item)} {x : List Sentence} (h : Bounds k a x) :
    Tiles k x (k + wordCount a.flatten) := by
  induction a generalizing k x with
  | nil => cases h; simp [wordCount, Tiles]
  | cons its a ih =>
    obtain ⟨s, r, rfl, h1, h2, h3⟩ := h
    refine ⟨h1, ?_⟩
    have := ih h3
    rw [h2] at this ⊢
    simpa [wordCount_append, Nat.add_assoc] using this

theorem Tiles.lastStop {k n : Nat} {ss : List Sentence} (h : Tiles k ss n) :
    ((ss.getLast?).map Sentence.stop).getD k = n := by
  induction ss generalizing k with
  | nil => simpa [Tiles] using h
  | cons s ss ih =>
    have := ih h.2
    cases ss with
    | nil => simp [Tiles] at h; simp [h.2]
    | cons s' ss =>
      rw [List.getLast?_cons_cons]
      obtain ⟨l, hl⟩ : ∃ l, (s' :: ss).getLast? = some l := ⟨_, List.getLast?_eq_some_getLast (by simp)⟩
      rw [hl] at this ⊢
      exact this

theorem Bounds.length {k : Nat} {a : List (List Item)} {x : List Sentence} (h : Bounds k a x) :
    x.length = a.length := by
  induction a generalizing k x with
  | nil => cases h; rfl
  | cons its a ih =>
    obtain ⟨s, r, rfl, h1, h2, h3⟩ := h
    simp [ih h3]

theorem Bounds.wordCount_pos {k : Nat} {a : List (List Item)} {x : List Sentence} (h : Bounds k a x)
    (hne : a ≠ []) : 0 < wordCount a.flatten := by
  have ht := h.tiles
  cases a with
  | nil => exact absurd rfl hne
  | cons its a =>
    obtain ⟨s, r, rfl, h1, h2, h3⟩ := h
    have := s.lt
    simp only [List.flatten_cons, wordCount_append]
    omega

theorem ItemLines.words_ne {cols : Cols} {ls : List Str} {its : List Item} (h : ItemLines cols ls its) :
    ∀ it ∈ its, it.words ≠ [] := by
  induction h with
  | nil => simp
  | skip _ _ _ _ ih => exact ih
  | word _ _ _ _ _ _ ih =>
    intro it hit
    rcases List.mem_cons.mp hit with rfl | hit
    · simp [Item.words]
    · exact ih it hit
  | multi _ _ _ _ _ _ _ hne _ _ _ ih =>
    intro it hit
    rcases List.mem_cons.mp hit with rfl | hit
    · exact hne
    · exact ih it hit

theorem ItemLines.wordCount_eq_zero {cols : Cols} {ls : List Str} {its : List Item}
    (h : ItemLines cols ls its) (h0 : wordCount its = 0) : its = [] := by
  cases its with
  | nil => rfl
  | cons it its =>
    have := List.length_pos_iff.mpr (h.words_ne it (by simp))
    simp only [wordCount, List.flatMap_cons, List.length_append] at h0
    omega

/-! ### documents -/

theorem ItemTokens.span {off : Nat} {it : Item} {toks : List Token} (h : ItemTokens off it toks) :
    toks.Pairwise Before ∧ ∀ t ∈ toks, t.start = off ∧ t.stop = off + it.surface.text.length := by
  cases it with
  | word p =>
    obtain ⟨t, rfl, h1⟩ := h
    exact ⟨by simp, by simp [h1.start, h1.stop, Item.surface]⟩
  | multi hd ws =>
    have key : ∀ (i : Nat) (hi : i < toks.length), toks[i].start = off ∧
        toks[i].stop = off + hd.text.length ∧ toks[i].sub = i := by
      intro i hi
      have hw : i < ws.length := h.1 ▸ hi
      have := h.2 i _ _ (List.getElem?_eq_getElem hw) (List.getElem?_eq_getElem hi)
      exact ⟨this.start, this.stop, this.sub⟩
    constructor
    · rw [List.pairwise_iff_getElem]
      intro i j hi hj hij
      obtain ⟨a1, a2, a3⟩ := key i hi
      obtain ⟨b1, b2, b3⟩ := key j hj
      right
      rw [a1, a2, a3, b1, b2, b3]
      exact ⟨rfl, rfl, by omega⟩
    · intro t ht
      obtain ⟨i, hi, rfl⟩ := List.mem_iff_getElem.mp ht
      exact ⟨(key i hi).1, (key i hi).2.1⟩

theorem ItemsTokens.before {off : Nat} {its : List Item} {toks : List Token} (h : ItemsTokens off its toks) :
    toks.Pairwise Before ∧ ∀ t ∈ toks, off ≤ t.start := by
  induction its generalizing off toks with
  | nil => cases h; simp
  | cons it its ih =>
    obtain ⟨a, b, rfl, h1, h2⟩ := h
    obtain ⟨i1, i2⟩ := ih h2
    obtain ⟨j1, j2⟩ := h1.span
    have hp : it.surface.text.length ≤ it.piece.length := by simp [Item.piece]
    constructor
    · rw [List.pairwise_append]
      refine ⟨j1, i1, ?_⟩
      intro x hx y hy
      left
      have := i2 y hy
      rw [(j2 x hx).2]; omega
    · intro t ht
      rcases List.mem_append.mp ht with ht | ht
      · rw [(j2 t ht).1]
      · have := i2 t ht; omega

theorem Filled.headSent {k : Nat} {t t' : Token} (h : Filled k t t') (hd : t.headDoc = Option.none) :
    t'.headSent = t.headSent := by
  cases h with
  | none => rfl
  | root h => simp [hd] at h; simp [h]
  | sent h => simp [h]
  | doc h => simp [hd] at h

theorem TokenOf.fill {a b sub : Nat} {repl : Option Str} {p : PTok} {t t' : Token}
    (h : TokenOf a b sub repl p t) (hs : SameButHeads t t') (hh : t'.headSent = t.headSent) :
    TokenOf a b sub repl p t' := by
  obtain ⟨h1, h2, h3, h4, h5, h6, h7, h8, h9⟩ := h
  obtain ⟨s1, s2, s3, s4, s5, s6, s7, s8⟩ := hs
  exact ⟨s1 ▸ h1, s2 ▸ h2, s3 ▸ h3, s4 ▸ h4, s5 ▸ h5, s6 ▸ h6, s7 ▸ h7, hh ▸ h8, s8 ▸ h9⟩

/-- Agreement except for the document head. -/
def SameUpToDocHead (t t' : Token) : Prop := SameButHeads t t' ∧ t'.headSent = t.headSent

theorem ItemsTokens.fill {off : Nat} {its : List Item} {toks toks' : List Token}
    (h : ItemsTokens off its toks) (hf : List.Forall₂ SameUpToDocHead toks toks') :
    ItemsTokens off its toks' := by
  induction its generalizing off toks toks' with
  | nil => cases h; cases hf; rfl
  | cons it its ih =>
    obtain ⟨a, b, rfl, h1, h2⟩ := h
    have hl := hf.length_eq
    obtain ⟨a', b', rfl, ha, hb⟩ : ∃ a' b', toks' = a' ++ b' ∧ List.Forall₂ SameUpToDocHead a a' ∧
        List.Forall₂ SameUpToDocHead b b' := by
      refine ⟨toks'.take a.length, toks'.drop a.length, (List.take_append_drop _ _).symm, ?_, ?_⟩
      · have := List.forall₂_take a.length hf; simpa using this
      · have := List.forall₂_drop a.length hf; simpa using this
    refine ⟨a', b', rfl, ?_, ih h2 hb⟩
    cases it with
    | word p =>
      obtain ⟨t, rfl, ht⟩ := h1
      cases ha with
      | cons h3 h4 => cases h4; exact ⟨_, rfl, ht.fill h3.1 h3.2⟩
    | multi hd ws =>
      refine ⟨ha.length_eq ▸ h1.1, ?_⟩
      intro i p t hp ht
      obtain ⟨hi, rfl⟩ := List.getElem?_eq_some_iff.mp ht
      have hi' : i < a.length := by rw [ha.length_eq]; exact hi
      have h3 := (List.forall₂_iff_get.mp ha).2 i hi' hi
      simp only [List.get_eq_getElem] at h3
      exact (h1.2 i p _ hp (List.getElem?_eq_getElem hi')).fill h3.1 h3.2

theorem DocRaw.docOf {sents : List (List Item)} {d : Document} (h : DocRaw sents d) (hne : sents ≠ []) :
    DocOf sents d := by
  obtain ⟨toks, ss, h1, h2, h3, h4⟩ := h
  have hpos := h3.wordCount_pos hne
  have htne : toks ≠ [] := by
    intro e; rw [← h1.length, e] at hpos; simp at hpos
  obtain ⟨hB, hN, hT, hF, e1, hS, _⟩ := (Document.new_ok_iff htne).mp h4
  have hsort := pySorted_before h1.before.1
  have hsent : sortedSentences toks (some ss) = ss := by
    rw [sortedSentences_of_ne htne, pySorted_eq_self sentLe h3.tiles.sorted]
  refine ⟨e1, h1.fill ?_, by rw [hS, hsent]; exact h3⟩
  have hf := new_forall₂ htne h4
  obtain ⟨hl, hfill⟩ := new_tokens htne h4
  rw [hsort] at hf hfill
  rw [List.forall₂_iff_get] at hf ⊢
  refine ⟨hf.1, fun j hj hj' => ⟨hf.2 j hj hj', ?_⟩⟩
  rw [hS] at hfill
  obtain ⟨s, hs, c1, c2⟩ := hT.cover (Nat.zero_le j) hj
  obtain ⟨t, t', g1, g2, g3⟩ := hfill s hs j c1 c2
  rw [List.getElem?_eq_getElem hj] at g1
  rw [List.getElem?_eq_getElem hj'] at g2
  injection g1 with g1; injection g2 with g2
  subst g1 g2
  exact g3.headSent (h2 _ (List.getElem_mem hj))

/-! ### the loop -/

theorem readLoop_comments (limit : Nat) (cols : Cols) (st : RState) (lines : List Str) :
    readLoop limit cols st lines =
      readLoop limit cols st (lines.filter fun l => l.head? != some '#') := by
  induction lines generalizing st with
  | nil => rfl
  | cons l lines ih =>
    by_cases hc : l.head? = some '#'
    · have e : List.filter (fun l : Str => l.head? != some '#') (l :: lines) =
          lines.filter (fun l => l.head? != some '#') := by simp [hc]
      rw [e]
      simp only [readLoop, hc, if_true]
      exact ih st
    · have e : List.filter (fun l : Str => l.head? != some '#') (l :: lines) =
          l :: lines.filter (fun l => l.head? != some '#') := by simp [hc]
      rw [e]
      simp only [readLoop, hc, if_false]
      simp only [← ih]

theorem readLoop_tokens (limit : Nat) (cols : Cols) (st : RState) (ls rest : List Str)
    (hls : ∀ l ∈ ls, l ≠ [] ∧ l.head? ≠ some '#') :
    readLoop limit cols st (ls ++ rest) =
      match forM' (addToken cols) st ls with
      | .error e => ([], some e)
      | .ok st' => readLoop limit cols st' rest := by
  induction ls generalizing st with
  | nil => rfl
  | cons l ls ih =>
    have hl := hls l (by simp)
    simp only [List.cons_append, readLoop, hl.2, if_false, List.isEmpty_iff, hl.1, forM']
    cases addToken cols st l with
    | error e => rfl
    | ok st' => exact ih st' (fun x hx => hls x (by simp [hx]))

/-- The reader state after the sentences `sents` of the current document. -/
structure RInv (st : RState) (sents : List (List Item)) : Prop where
  multi : st.multi = none
  text : st.text = surfaceText sents.flatten
  tokens : ItemsTokens 0 sents.flatten st.tokens
  headDoc : ∀ t ∈ st.tokens, t.headDoc = none
  bounds : Bounds 0 sents st.sents

theorem RInv.init : RInv {} [] := ⟨rfl, rfl, rfl, by simp, rfl⟩

theorem RInv.document {st : RState} {sents : List (List Item)} (h : RInv st sents) {d : Document} :
    st.document = .ok d ↔ DocRaw sents d := by
  unfold RState.document
  rw [h.multi]
  simp only
  constructor
  · intro hd
    exact ⟨st.tokens, st.sents, h.tokens, h.headDoc, h.bounds, h.text ▸ hd⟩
  · rintro ⟨toks, ss, h1, h2, h3, h4⟩
    rw [h.tokens.unique h1 h.headDoc h2, h.bounds.unique h3, h.text]
    exact h4

theorem RInv.endOfSentence {st : RState} {sents : List (List Item)} (h : RInv st sents)
    {its : List Item} {ts : List Token} (hts : ItemsTokens st.text.length its ts)
    (hd : ∀ t ∈ ts, t.headDoc = none) :
    let st1 : RState := { st with text := st.text ++ surfaceText its, tokens := st.tokens ++ ts }
    (0 < wordCount its → ∃ st2, Verif.endOfSentence st1 = .ok st2) ∧
    ∀ st2, Verif.endOfSentence st1 = .ok st2 → 0 < wordCount its ∧ RInv st2 (sents ++ [its]) := by
  have hlast : ((st.sents.getLast?).map Sentence.stop).getD 0 = st.tokens.length := by
    rw [h.bounds.tiles.lastStop, h.tokens.length]; omega
  have hlen := hts.length
  unfold Verif.endOfSentence Sentence.new
  simp only [h.multi, hlast, List.length_append]
  constructor
  · intro hpos
    rw [dif_pos (by omega), dif_pos (by omega)]
    exact ⟨_, rfl⟩
  · intro st2 hst
    rw [dif_pos (by omega)] at hst
    split at hst
    · cases hst
    · rename_i s hs
      split at hs
      · rename_i hlt
        injection hs with hs
        injection hst with hst
        subst hs hst
        refine ⟨by omega, rfl, ?_, ?_, ?_, ?_⟩
        · simp [h.text, surfaceText_append]
        · simp only [List.flatten_append, List.flatten_cons, List.flatten_nil, List.append_nil]
          refine h.tokens.append ?_
          rw [h.text] at hts
          simpa using hts
        · intro t ht
          rcases List.mem_append.mp ht with ht | ht
          · exact h.headDoc t ht
          · exact hd t ht
        · refine h.bounds.append ⟨_, [], rfl, ?_, ?_, rfl⟩
          · simp [h.tokens.length]
          · simp only
            rw [← h.tokens.length, ← hlen]
            omega
      · cases hs

theorem split_blank (lines : List Str) :
    ∃ ls, (∀ l ∈ ls, l ≠ []) ∧ (lines = ls ∨ ∃ rest, lines = ls ++ [] :: rest) := by
  induction lines with
  | nil => exact ⟨[], by simp, .inl rfl⟩
  | cons l lines ih =>
    by_cases hl : l = []
    · subst hl
      exact ⟨[], by simp, .inr ⟨lines, rfl⟩⟩
    · obtain ⟨ls, h1, h2⟩ := ih
      refine ⟨l :: ls, ?_, ?_⟩
      · intro x hx
        rcases List.mem_cons.mp hx with rfl | hx
        · exact hl
        · exact h1 x hx
      · rcases h2 with rfl | ⟨rest, rfl⟩
        · exact .inl rfl
        · exact .inr ⟨rest, rfl⟩

theorem Chunked.cons {limit : Nat} {sents c : List (List Item)} {chunks : List (List (List Item))}
    (h : Chunked limit sents chunks) (hc : c.length = limit) (hpos : 0 < limit) :
    Chunked limit (c ++ sents) (c :: chunks) := by
  refine ⟨by simp [h.flatten], ?_, ?_⟩
  · intro x hx
    rcases List.mem_cons.mp hx with rfl | hx
    · exact ⟨fun e => by simp [e] at hc; omega, by omega⟩
    · exact h.size x hx
  · intro x hx
    cases hk : chunks with
    | nil => rw [hk] at hx; simp at hx
    | cons k ks =>
      rw [hk, List.dropLast_cons_of_ne_nil (by simp), ← hk] at hx
      rcases List.mem_cons.mp hx with rfl | hx
      · exact hc
      · exact h.full x hx

theorem readLoop_sound {limit : Nat} (hpos : 0 < limit) {cols : Cols} (n : Nat) {lines : List Str} (hn : lines.length ≤ n)
    (hnc : ∀ l ∈ lines, l.head? ≠ some '#') {st : RState} {sents : List (List Item)}
    (hinv : RInv st sents) (hlim : sents.length < limit) {docs : List Document}
    (h : readLoop limit cols st lines = (docs, none)) :
    ∃ new chunks, SentLines cols lines new ∧ Chunked limit (sents ++ new) chunks ∧
      List.Forall₂ DocRaw chunks docs := by
  induction n using Nat.strongRecOn generalizing lines st sents docs with
  | _ n ih =>
  obtain ⟨ls, hls, hcase⟩ := split_blank lines
  have hls' : ∀ l ∈ ls, l ≠ [] ∧ l.head? ≠ some '#' := fun l hl => ⟨hls l hl, hnc l (by
    rcases hcase with rfl | ⟨_, rfl⟩
    · exact hl
    · simp [hl])⟩
  rcases hcase with rfl | ⟨rest, rfl⟩
  · rw [← List.append_nil lines, readLoop_tokens limit cols st lines [] hls'] at h
    cases hf : forM' (addToken cols) st lines with
    | error e => rw [hf] at h; cases h
    | ok st1 =>
      rw [hf] at h
      simp only [readLoop] at h
      have hm : st1.multi = none := by
        unfold RState.isEmpty at h
        cases hm : st1.multi with
        | none => rfl
        | some m => simp [hm] at h
      obtain ⟨its, ts, h1, h2, h3, rfl⟩ := items_sound _ (Nat.le_refl _) hls hinv.multi hf hm
      simp only [RState.isEmpty, hinv.multi] at h
      have hl := h2.length
      have hl2 := hinv.tokens.length
      cases he : ((st.text ++ surfaceText its).isEmpty && (st.tokens ++ ts).isEmpty) with
      | true =>
        rw [he] at h
        simp only [Prod.mk.injEq, and_true] at h
        subst h
        simp only [Bool.and_eq_true, List.isEmpty_iff, List.append_eq_nil_iff] at he
        have : its = [] := h1.wordCount_eq_zero (by rw [← hl, he.2.2]; rfl)
        subst this
        have : sents = [] := by
          by_contra hc
          have := hinv.bounds.wordCount_pos hc
          rw [← hl2, he.2.1] at this
          simp at this
        subst this
        exact ⟨[], [], .nil h1, ⟨rfl, by simp, by simp⟩, .nil⟩
      | false =>
        rw [he] at h
        simp only at h
        split at h
        · cases h
        · rename_i d hd
          simp only [Prod.mk.injEq, and_true] at h
          subst h
          unfold RState.document at hd
          simp only at hd
          by_cases htne : st.tokens ++ ts = []
          · exfalso
            simp only [List.append_eq_nil_iff] at htne
            have e1 : its = [] := h1.wordCount_eq_zero (by rw [← hl, htne.2]; rfl)
            have e2 : sents = [] := by
              by_contra hc
              have := hinv.bounds.wordCount_pos hc
              rw [← hl2, htne.1] at this
              simp at this
            subst e1 e2
            rw [hinv.text, htne.1, htne.2] at he
            simp [surfaceText] at he
          · obtain ⟨_, _, hT, _⟩ := (Document.new_ok_iff htne).mp hd
            have htl := hinv.bounds.tiles
            rw [sortedSentences_of_ne htne, pySorted_eq_self sentLe htl.sorted] at hT
            have e := hT.lastStop.symm.trans htl.lastStop
            rw [List.length_append] at e
            have : its = [] := h1.wordCount_eq_zero (by omega)
            subst this
            have : ts = [] := List.length_eq_zero_iff.mp (by rw [hl]; rfl)
            subst this
            have hsne : sents ≠ [] := by
              rintro rfl
              apply htne
              have := hinv.tokens
              simp [ItemsTokens] at this
              simp [this]
            refine ⟨[], [sents], .nil h1, ⟨by simp, by simp [hsne]; omega, by simp⟩, .cons ?_ .nil⟩
            refine (hinv.document).mp ?_
            unfold RState.document
            rw [hinv.multi]
            simpa [surfaceText] using hd
  · rw [readLoop_tokens limit cols st ls _ hls'] at h
    cases hf : forM' (addToken cols) st ls with
    | error e => rw [hf] at h; cases h
    | ok st1 =>
      rw [hf] at h
      simp only [readLoop, List.head?_nil, List.isEmpty_nil, if_true, reduceCtorEq, if_false] at h
      have hm : st1.multi = none := by
        unfold endOfSentence at h
        cases hm : st1.multi with
        | none => rfl
        | some m => simp [hm] at h
      obtain ⟨its, ts, h1, h2, h3, rfl⟩ := items_sound _ (Nat.le_refl _) hls hinv.multi hf hm
      obtain ⟨hE1, hE2⟩ := hinv.endOfSentence h2 h3
      split at h
      · cases h
      · rename_i st2 hst2
        obtain ⟨hw, hinv2⟩ := hE2 st2 hst2
        have hits : its ≠ [] := by rintro rfl; simp [wordCount] at hw
        have hlen2 := hinv2.bounds.length
        have hrest : ∀ l ∈ rest, l.head? ≠ some '#' := fun l hl => hnc l (by simp [hl])
        have hrl : rest.length < n := by simp at hn; omega
        split at h
        · rename_i hge
          split at h
          · cases h
          · rename_i d hd
            simp only [Prod.mk.injEq] at h
            obtain ⟨hd1, hd2⟩ := h
            obtain ⟨new, chunks, g1, g2, g3⟩ := ih _ hrl (Nat.le_refl _) hrest RInv.init (by simpa using hpos)
              (docs := (readLoop limit cols {} rest).1) (by rw [← hd2])
            rw [List.nil_append] at g2
            refine ⟨its :: new, (sents ++ [its]) :: chunks, .cons h1 hits g1, ?_, ?_⟩
            · have := g2.cons (c := sents ++ [its]) (by
                rw [hlen2] at hge; simp only [List.length_append, List.length_cons, List.length_nil] at *; omega) hpos
              simpa using this
            · rw [← hd1]
              exact .cons (hinv2.document.mp hd) g3
        · rename_i hlt
          obtain ⟨new, chunks, g1, g2, g3⟩ := ih _ hrl (Nat.le_refl _) hrest hinv2 (by rw [← hlen2]; omega) h
          exact ⟨its :: new, chunks, .cons h1 hits g1, by simpa using g2, g3⟩

theorem ItemLines.line_ne {cols : Cols} {ls : List Str} {its : List Item} (h : ItemLines cols ls its) :
    ∀ l ∈ ls, l ≠ [] := by
  induction h with
  | nil => simp
  | skip h1 _ _ _ ih =>
    intro x hx
    rcases List.mem_cons.mp hx with rfl | hx
    · exact h1.1
    · exact ih x hx
  | word h1 _ _ _ _ _ ih =>
    intro x hx
    rcases List.mem_cons.mp hx with rfl | hx
    · exact h1.1
    · exact ih x hx
  | multi h1 _ _ _ _ _ _ _ _ h2 _ ih =>
    intro x hx
    rcases List.mem_cons.mp hx with rfl | hx
    · exact h1.1
    · rcases List.mem_append.mp hx with hx | hx
      · obtain ⟨i, hi, rfl⟩ := List.mem_iff_getElem.mp hx
        have := (List.forall₂_iff_get.mp h2).2 i hi (h2.length_eq ▸ hi)
        exact this.1
      · exact ih x hx

theorem ItemLines.wordCount_pos {cols : Cols} {ls : List Str} {its : List Item} (h : ItemLines cols ls its)
    (hne : its ≠ []) : 0 < wordCount its := by
  rcases Nat.eq_zero_or_pos (wordCount its) with h0 | h0
  · exact absurd (h.wordCount_eq_zero h0) hne
  · exact h0

theorem Chunked.first {limit : Nat} {a b : List (List Item)} {chunks : List (List (List Item))}
    (h : Chunked limit (a ++ b) chunks) (ha : a.length = limit) (hpos : 0 < limit) :
    ∃ rest, chunks = a :: rest ∧ Chunked limit b rest := by
  cases chunks with
  | nil =>
    have := h.flatten
    simp at this
    rw [this.1] at ha; simp at ha; omega
  | cons c cs =>
    have hc : c.length = limit := by
      cases cs with
      | nil =>
        have h1 := (h.size c (by simp)).2
        have h2 := congrArg List.length h.flatten
        simp at h2; omega
      | cons k ks => exact h.full c (by simp)
    have hf := h.flatten
    simp only [List.flatten_cons] at hf
    obtain ⟨h1, h2⟩ := List.append_inj hf (by omega)
    subst h1
    refine ⟨cs, rfl, h2, fun x hx => h.size x (by simp [hx]), ?_⟩
    intro x hx
    refine h.full x ?_
    cases cs with
    | nil => simp at hx
    | cons k ks =>
      rw [List.dropLast_cons_of_ne_nil (by simp)]
      simp [hx]

theorem readLoop_complete {limit : Nat} (hpos : 0 < limit) {cols : Cols} {lines : List Str}
    {new : List (List Item)} (hl : SentLines cols lines new)
    (hnc : ∀ l ∈ lines, l.head? ≠ some '#') {st : RState} {sents : List (List Item)}
    (hinv : RInv st sents) (hlim : sents.length < limit) {chunks : List (List (List Item))}
    {docs : List Document} (hch : Chunked limit (sents ++ new) chunks)
    (hd : List.Forall₂ DocRaw chunks docs) :
    readLoop limit cols st lines = (docs, none) := by
  induction hl generalizing st sents chunks docs with
  | @nil ls h1 =>
    obtain ⟨ts, g1, g2, g3⟩ := items_complete h1 hinv.multi
    rw [← List.append_nil ls, readLoop_tokens limit cols st ls [] (fun l hl => ⟨h1.line_ne l hl, hnc l hl⟩), g3]
    have : ts = [] := by simpa [ItemsTokens] using g1
    subst this
    rw [List.append_nil] at hch
    have hst : ({ st with text := st.text ++ surfaceText [], tokens := st.tokens ++ [] } : RState) = st := by
      cases st; simp [surfaceText]
    rw [hst]
    have hdoc := @RInv.document _ _ hinv
    simp only [readLoop, RState.isEmpty, hinv.multi]
    by_cases hs : sents = []
    · subst hs
      have e1 := hinv.text
      have e2 : st.tokens = [] := by simpa [ItemsTokens] using hinv.tokens
      have : chunks = [] := by
        cases chunks with
        | nil => rfl
        | cons c cs =>
          have := hch.flatten
          simp only [List.flatten_cons, List.append_eq_nil_iff] at this
          exact absurd this.1 (hch.size c (by simp)).1
      subst this
      cases hd
      simp [e1, e2, surfaceText]
    · have hw := hinv.bounds.wordCount_pos hs
      have hne : st.tokens ≠ [] := by
        intro e; rw [← hinv.tokens.length, e] at hw; simp at hw
      have he : (st.text.isEmpty && st.tokens.isEmpty) = false := by simp [hne]
      rw [he]
      cases chunks with
      | nil => exact absurd hch.flatten.symm hs
      | cons c cs =>
        cases cs with
        | nil =>
          have hc : c = sents := by simpa using hch.flatten
          subst hc
          cases hd with
          | cons h2 h3 =>
            cases h3
            simp only [hdoc.mpr h2]
        | cons k ks =>
          exfalso
          have h2 := hch.full c (by simp)
          have h3 := congrArg List.length hch.flatten
          simp only [List.flatten_cons, List.length_append] at h3
          omega
  | @cons ls rest its more h1 h2 h3 ih =>
    obtain ⟨ts, g1, g2, g3⟩ := items_complete h1 hinv.multi
    rw [readLoop_tokens limit cols st ls _ (fun l hl => ⟨h1.line_ne l hl, hnc l (by simp [hl])⟩), g3]
    obtain ⟨hE1, hE2⟩ := hinv.endOfSentence g1 g2
    obtain ⟨st2, hst2⟩ := hE1 (h1.wordCount_pos h2)
    obtain ⟨_, hinv2⟩ := hE2 st2 hst2
    have hlen2 := hinv2.bounds.length
    have hnc' : ∀ l ∈ rest, l.head? ≠ some '#' := fun l hl => hnc l (by simp [hl])
    simp only [readLoop, List.head?_nil, List.isEmpty_nil, if_true, reduceCtorEq, if_false, hst2]
    rw [show sents ++ its :: more = (sents ++ [its]) ++ more by simp] at hch
    by_cases hge : st2.sents.length ≥ limit
    · rw [if_pos hge]
      obtain ⟨cs, rfl, hcs⟩ := hch.first (by
        rw [hlen2] at hge
        simp only [List.length_append, List.length_cons, List.length_nil] at *; omega) hpos
      cases hd with
      | @cons _ d _ ds hd1 hd2 =>
        simp only [hinv2.document.mpr hd1]
        rw [ih hnc' RInv.init (by simpa using hpos) (by simpa using hcs) hd2]
    · rw [if_neg hge]
      exact ih hnc' hinv2 (by rw [← hlen2]; omega) hch hd

/-- The reader against the grammar: acceptance and result. -/
theorem read_iff {limit : Nat} (hpos : 0 < limit) {cols : Cols} {text : Str} {docs : List Document} :
    readLoop limit cols {} ((fileLines text).map (stripBy isEol)) = (docs, none) ↔
      ∃ sents chunks, SentLines cols (contentLines text) sents ∧ Chunked limit sents chunks ∧
        List.Forall₂ DocRaw chunks docs := by
  rw [readLoop_comments]
  have hnc : ∀ l ∈ contentLines text, l.head? ≠ some '#' := by
    intro l hl
    unfold contentLines at hl
    rw [List.mem_filter] at hl
    simpa using hl.2
  constructor
  · intro h
    obtain ⟨new, chunks, h1, h2, h3⟩ := readLoop_sound hpos _ (Nat.le_refl _) hnc RInv.init (by simpa using hpos) h
    exact ⟨new, chunks, h1, by simpa using h2, h3⟩
  · rintro ⟨sents, chunks, h1, h2, h3⟩
    exact readLoop_complete hpos h1 hnc RInv.init (by simpa using hpos) (by simpa using h2) h3

/-- What was yielded before an error: full groups of the sentences of a prefix of the lines. -/
theorem readLoop_prefix {limit : Nat} (hpos : 0 < limit) {cols : Cols} (n : Nat) {lines : List Str} (hn : lines.length ≤ n)
    (hnc : ∀ l ∈ lines, l.head? ≠ some '#') {st : RState} {sents : List (List Item)}
    (hinv : RInv st sents) (hlim : sents.length < limit) {docs : List Document} {e : Err}
    (h : readLoop limit cols st lines = (docs, some e)) :
    docs = [] ∨ ∃ pre rest new chunks, lines = pre ++ rest ∧ SentLines cols pre new ∧
      chunks.flatten = sents ++ new ∧ (∀ c ∈ chunks, c.length = limit) ∧
      List.Forall₂ DocRaw chunks docs := by
  induction n using Nat.strongRecOn generalizing lines st sents docs with
  | _ n ih =>
  obtain ⟨ls, hls, hcase⟩ := split_blank lines
  have hls' : ∀ l ∈ ls, l ≠ [] ∧ l.head? ≠ some '#' := fun l hl => ⟨hls l hl, hnc l (by
    rcases hcase with rfl | ⟨_, rfl⟩
    · exact hl
    · simp [hl])⟩
  rcases hcase with rfl | ⟨rest, rfl⟩
  · rw [← List.append_nil lines, readLoop_tokens limit cols st lines [] hls'] at h
    cases hf : forM' (addToken cols) st lines with
    | error e => rw [hf] at h; cases h; exact .inl rfl
    | ok st1 =>
      rw [hf] at h
      simp only [readLoop] at h
      split at h
      · cases h; exact .inl rfl
      · cases h
      · split at h
        · cases h; exact .inl rfl
        · cases h
  · rw [readLoop_tokens limit cols st ls _ hls'] at h
    cases hf : forM' (addToken cols) st ls with
    | error e => rw [hf] at h; cases h; exact .inl rfl
    | ok st1 =>
      rw [hf] at h
      simp only [readLoop, List.head?_nil, List.isEmpty_nil, if_true, reduceCtorEq, if_false] at h
      by_cases hm : st1.multi = none
      · obtain ⟨its, ts, h1, h2, h3, rfl⟩ := items_sound _ (Nat.le_refl _) hls hinv.multi hf hm
        obtain ⟨hE1, hE2⟩ := hinv.endOfSentence h2 h3
        split at h
        · cases h; exact .inl rfl
        · rename_i st2 hst2
          obtain ⟨hw, hinv2⟩ := hE2 st2 hst2
          have hits : its ≠ [] := by rintro rfl; simp [wordCount] at hw
          have hlen2 := hinv2.bounds.length
          have hrest : ∀ l ∈ rest, l.head? ≠ some '#' := fun l hl => hnc l (by simp [hl])
          have hrl : rest.length < n := by simp at hn; omega
          split at h
          · rename_i hge
            split at h
            · cases h; exact .inl rfl
            · rename_i d hd
              simp only [Prod.mk.injEq] at h
              obtain ⟨hd1, hd2⟩ := h
              have hc : (sents ++ [its]).length = limit := by
                rw [hlen2] at hge
                simp only [List.length_append, List.length_cons, List.length_nil] at *; omega
              right
              rcases ih _ hrl (Nat.le_refl _) hrest RInv.init (by simpa using hpos)
                (docs := (readLoop limit cols {} rest).1) (by rw [← hd2]) with hnil | ⟨pre, rest', new, chunks, g1, g2, g3, g4, g5⟩
              · refine ⟨ls ++ [[]], rest, [its], [sents ++ [its]], by simp, .cons h1 hits (.nil .nil), by simp,
                  by simpa using hc, ?_⟩
                rw [← hd1, hnil]
                exact .cons (hinv2.document.mp hd) .nil
              · refine ⟨ls ++ [] :: pre, rest', its :: new, (sents ++ [its]) :: chunks, by simp [g1], .cons h1 hits g2,
                  by simp [g3], ?_, ?_⟩
                · intro c hc'
                  rcases List.mem_cons.mp hc' with rfl | hc'
                  · exact hc
                  · exact g4 c hc'
                · rw [← hd1]
                  exact .cons (hinv2.document.mp hd) g5
          · rename_i hlt
            rcases ih _ hrl (Nat.le_refl _) hrest hinv2 (by rw [← hlen2]; omega) h with hnil | ⟨pre, rest', new, chunks, g1, g2, g3, g4, g5⟩
            · exact .inl hnil
            · exact .inr ⟨ls ++ [] :: pre, rest', its :: new, chunks, by simp [g1], .cons h1 hits g2, by simpa using g3, g4, g5⟩
      · left
        unfold endOfSentence at h
        cases hm' : st1.multi with
        | none => exact absurd hm' hm
        | some m => simp [hm'] at h; exact h.1

/-- Every document the reader yields was returned by the validating constructor. -/
theorem readLoop_built (limit : Nat) (cols : Cols) (st : RState) (lines : List Str) :
    ∀ d ∈ (readLoop limit cols st lines).1, BuiltValid d := by
  have hdoc : ∀ (st : RState) (d : Document), st.document = .ok d → BuiltValid d := by
    intro st d h
    unfold RState.document at h
    split at h
    · cases h
    · exact ⟨_, _, _, h⟩
  induction lines generalizing st with
  | nil =>
    intro d hd
    simp only [readLoop] at hd
    split at hd
    · simp at hd
    · simp at hd
    · split at hd
      · simp at hd
      · rename_i d' h'
        simp at hd
        subst hd
        exact hdoc _ _ h'
  | cons l lines ih =>
    intro d hd
    simp only [readLoop] at hd
    split at hd
    · exact ih _ d hd
    · split at hd
      · split at hd
        · simp at hd
        · split at hd
          · split at hd
            · simp at hd
            · rename_i d' h'
              rcases List.mem_cons.mp hd with rfl | hd
              · exact hdoc _ _ h'
              · exact ih _ d hd
          · exact ih _ d hd
      · split at hd
        · simp at hd
        · exact ih _ d hd

theorem SentLines.count_blank {cols : Cols} {lines : List Str} {sents : List (List Item)}
    (h : SentLines cols lines sents) : lines.count [] = sents.length := by
  have h0 : ∀ {ls its}, ItemLines cols ls its → ls.count [] = 0 := by
    intro ls its h
    rw [List.count_eq_zero]
    intro hc
    exact h.line_ne _ hc rfl
  induction h with
  | nil h => simpa using h0 h
  | cons h1 h2 h3 ih => simp [h0 h1, ih]

/-- Where the tokens of one surface unit are. -/
theorem ItemsTokens.at {off : Nat} {a b : List Item} {it : Item} {toks : List Token}
    (h : ItemsTokens off (a ++ it :: b) toks) :
    ∃ ts, ItemTokens (off + (surfaceText a).length) it ts ∧
      ∀ j : Nat, j < it.words.length → toks[wordCount a + j]? = ts[j]? := by
  obtain ⟨x, y, rfl, h1, h2⟩ := h.split
  obtain ⟨ts, z, rfl, h3, h4⟩ := h2
  refine ⟨ts, h3, fun j hj => ?_⟩
  have hl := h3.length
  rw [← h1.length, List.getElem?_append_right (by omega), Nat.add_sub_cancel_left,
    List.getElem?_append_left (by omega)]

theorem ItemLines.surface_ne {cols : Cols} {ls : List Str} {its : List Item} (h : ItemLines cols ls its) :
    ∀ it ∈ its, it.surface.text ≠ [] := by
  induction h with
  | nil => simp
  | skip _ _ _ _ ih => exact ih
  | word _ _ _ _ hne _ ih =>
    intro it hit
    rcases List.mem_cons.mp hit with rfl | hit
    · exact hne
    · exact ih it hit
  | multi _ _ _ _ _ _ hne _ _ _ _ ih =>
    intro it hit
    rcases List.mem_cons.mp hit with rfl | hit
    · exact hne
    · exact ih it hit

theorem SentLines.surface_ne {cols : Cols} {ls : List Str} {sents : List (List Item)}
    (h : SentLines cols ls sents) : ∀ it ∈ sents.flatten, it.surface.text ≠ [] := by
  induction h with
  | nil => simp
  | cons h1 _ _ ih =>
    intro it hit
    rw [List.flatten_cons, List.mem_append] at hit
    rcases hit with hit | hit
    · exact h1.surface_ne it hit
    · exact ih it hit

theorem slice_mid {α : Type} (a b c : List α) : slice (a ++ (b ++ c)) a.length (a.length + b.length) = b := by
  simp [slice]

end Verif
