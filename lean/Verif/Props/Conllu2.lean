import Verif.Proofs.WriterCount
import Verif.Props.Conllu

/-!
# Properties C20–C22: the CoNLL-U writer
-/

namespace Verif

/-! ### Sample documents used by the examples -/

namespace Demo

def wpos : Pos := ⟨some "X".toList, none, ⟨[("b".toList, "2".toList), ("a".toList, "1".toList)], by decide⟩⟩
def w0 : Token := { start := 0, stop := 2, repl := some ['a'], pos := some wpos, headSent := some 1 }
def w1 : Token :=
  { start := 0, stop := 2, sub := 1, repl := some ['b'], pos := some wpos, headSent := some (-1), mwOk := by simp }
def w2 : Token := { start := 3, stop := 5, pos := some wpos, headSent := some 1, deprel := some "dep".toList }
def w3 : Token := { start := 5, stop := 7, pos := some wpos, headSent := some (-1), lemma' := some "e".toList }

/-- "ab cd e ": a multiword token "ab" and "cd" in the first sentence, " e" in the second one. -/
def wdoc : Document :=
  { text := "ab cd e ".toList
    tokens := [{ w0 with headDoc := some 1 }, { w1 with headDoc := some (-1) },
               { w2 with headDoc := some 1 }, { w3 with headDoc := some (-1) }]
    sentences := [{ start := 0, stop := 3 }, { start := 3, stop := 4 }] }

theorem wbuilt : Document.new wdoc.text [w0, w1, w2, w3] (some wdoc.sentences) true = .ok wdoc := by decide +kernel

theorem wdocBuilt : Built wdoc := ⟨_, _, _, _, wbuilt⟩

theorem wdocEnds : ∀ s ∈ wdoc.sentences.dropLast, EndsRegular (wdoc.sentenceTokens s) := by decide +kernel

end Demo

/-! ### C20 -/

/-- The row of the word `t`, number `k + 1` in its sentence. -/
def NumberedRow (text : Str) (k : Nat) (t : Token) (_ : Bool) (r : List Str) : Prop :=
  r.length = 10 ∧ r[colID]? = some (natStr (k + 1)) ∧ r[colFORM]? = some (tokText text t)

/-- C20 is false as stated: a multiword token at the end of a sentence is written again at the start of
the next one. -/
theorem C20_refuted : ∃ (d : Document) (out : Str), BuiltValid d ∧ writeToStr defaultCols [d] = .ok out ∧
    d.tokens.length = 4 ∧ (wordLines out).length = 6 := by
  refine ⟨Demo.doc, _, ⟨_, _, _, Demo.built⟩, (by rfl : _ = Except.ok _), rfl, ?_⟩
  decide +kernel

theorem isRow_numbered {cols : Cols} {text : Str} {k : Nat} {t : Token} {b : Bool} {r : List Str}
    (h : IsRow cols text k t b r) : NumberedRow text k t b r := by
  obtain ⟨_, rfl⟩ := isRow_iff.mp h
  exact ⟨rfl, rfl, rfl⟩

theorem Block.ids {text : Str} {k : Nat} {toks : List Token} {rows : List (List Str)}
    (h : Block text (NumberedRow text) k toks rows) :
    (rows.filter isWordRow).map (fun r => r[colID]?) =
      (List.range toks.length).map fun i => some (natStr (k + i + 1)) := by
  have hid : ∀ {k t b r}, NumberedRow text k t b r → isWordRow r = true := by
    intro k t b r hr
    obtain ⟨h1, h2, _⟩ := hr
    unfold isWordRow
    cases r with
    | nil => simp at h1
    | cons w ws =>
      simp [colID] at h2
      subst h2
      have := natStr_not_mem (n := k + 1) (c := '-') (by decide)
      simpa using this
  have hwords : ∀ {k : Nat} {toks : List Token} {ws : List (List Str)}, WordRows (NumberedRow text) k toks ws →
      ws.filter isWordRow = ws ∧ ws.map (fun r => r[colID]?) =
        (List.range toks.length).map fun i => some (natStr (k + i + 1)) := by
    intro k toks ws hw
    have key : ∀ (i : Nat) (hi : i < ws.length), ∃ t, NumberedRow text (k + i) t false ws[i] := fun i hi =>
      ⟨toks[i]'(hw.1 ▸ hi), hw.2 i _ _ (List.getElem?_eq_getElem (hw.1 ▸ hi)) (List.getElem?_eq_getElem hi)⟩
    constructor
    · rw [List.filter_eq_self]
      intro r hr
      obtain ⟨i, hi, rfl⟩ := List.mem_iff_getElem.mp hr
      obtain ⟨t, ht⟩ := key i hi
      exact hid ht
    · apply List.ext_getElem
      · simp [hw.1]
      · intro i hi hi'
        simp at hi
        obtain ⟨t, ht⟩ := key i hi
        simpa using ht.2.1
  induction h with
  | nil k => rfl
  | @word k t toks r rs h1 h2 h3 ih =>
    rw [List.filter_cons_of_pos (hid h2), List.map_cons, ih, List.length_cons, List.range_succ_eq_map,
      List.map_cons, List.map_map, h2.2.1]
    congr 1
    apply List.map_congr_left
    intro i _
    simp only [Function.comp]
    rw [show k + 1 + i + 1 = k + i.succ + 1 by omega]
  | @multi k t g toks ws rs h1 h2 h3 h4 h5 ih =>
    obtain ⟨w1, w2⟩ := hwords h4
    have hh : isWordRow (headerRow text k (g.length + 1) t) = false := by
      simp [isWordRow, headerRow]
    rw [List.filter_cons_of_neg (by simp [hh]), List.filter_append, List.map_append, w1, w2, ih]
    rw [show (t :: (g ++ toks)).length = (g.length + 1) + toks.length by simp; omega, List.range_add,
      List.map_append, List.map_map]
    congr 1
    apply List.map_congr_left
    intro i _
    simp only [Function.comp]
    rw [show k + (g.length + 1) + i + 1 = k + (g.length + 1 + i) + 1 by omega]

/-- C20 under the condition that no sentence but the last of its document ends in a multiword token: the
output is the blocks of the sentences in order, each with its words once each, numbered from 1, one range
line before each multiword group, and one blank line at the end.
Missing: documents with a multiword token at the end of a sentence before the last (false, see
`C20_refuted`). -/
theorem C20_blocks_partial {columns : Cols} {docs : List Document} {out : Str}
    (hb : ∀ d ∈ docs, Built d)
    (hE : ∀ d ∈ docs, ∀ s ∈ d.sentences.dropLast, EndsRegular (d.sentenceTokens s))
    (h : writeToStr columns docs = .ok out) :
    ∃ parts : List (List (List (List Str))),
      out = parts.flatten.flatMap blockText ∧
      List.Forall₂ (fun (d : Document) blocks => List.Forall₂ (fun s rows =>
        Block d.text (NumberedRow d.text) 0 (d.sentenceTokens s) rows ∧
        (rows.filter isWordRow).map (fun r => r[colID]?) =
          (List.range (d.sentenceTokens s).length).map fun i => some (natStr (i + 1)))
        d.sentences blocks) docs parts := by
  have key : ∀ (docs : List Document) (o : Str), (∀ d ∈ docs, Built d) →
      (∀ d ∈ docs, ∀ s ∈ d.sentences.dropLast, EndsRegular (d.sentenceTokens s)) →
      forM' (writeDocument (withHead columns)) o docs = .ok out →
      ∃ parts : List (List (List (List Str))), out = o ++ parts.flatten.flatMap blockText ∧
        List.Forall₂ (fun (d : Document) blocks => List.Forall₂ (fun s rows =>
          Block d.text (NumberedRow d.text) 0 (d.sentenceTokens s) rows ∧
          (rows.filter isWordRow).map (fun r => r[colID]?) =
            (List.range (d.sentenceTokens s).length).map fun i => some (natStr (i + 1)))
          d.sentences blocks) docs parts := by
    intro docs
    induction docs with
    | nil =>
      intro o _ _ h
      cases h
      exact ⟨[], by simp, .nil⟩
    | cons d docs ih =>
      intro o hb hE h
      simp only [forM'] at h
      split at h
      · rename_i o1 h1
        obtain ⟨blocks, b1, b2⟩ := writeDocument_blocks (hb d (by simp)) (hE d (by simp)) h1
        obtain ⟨parts, p1, p2⟩ := ih o1 (fun x hx => hb x (by simp [hx])) (fun x hx => hE x (by simp [hx])) h
        refine ⟨blocks :: parts, by simp [p1, b2], .cons ?_ p2⟩
        rw [List.forall₂_map_left_iff] at b1
        refine b1.imp ?_
        intro s rows hs
        have hs' := hs.mono (Q := NumberedRow d.text) (fun _ _ _ _ _ => isRow_numbered)
        have := hs'.ids
        simp only [Nat.zero_add] at this
        exact ⟨hs', this⟩
      · cases h
  simpa using key docs [] hb hE h

example : Built Demo.wdoc ∧ (∀ s ∈ Demo.wdoc.sentences.dropLast, EndsRegular (Demo.wdoc.sentenceTokens s)) ∧
    (writeToStr defaultCols [Demo.wdoc]).isOk = true :=
  ⟨Demo.wdocBuilt, Demo.wdocEnds, by decide +kernel⟩

theorem sum_map_eq_zero {α : Type} {l : List α} {f : α → Nat} : (l.map f).sum = 0 ↔ ∀ x ∈ l, f x = 0 := by
  induction l with
  | nil => simp
  | cons a l ih => simp [ih]

/-- C20, exactly: the number of word lines is the number of tokens plus, for every sentence but the last of
its document, the number of words of the multiword token the sentence ends in. -/
theorem C20_word_lines {columns : Cols} {docs : List Document} {out : Str}
    (hb : ∀ d ∈ docs, Built d) (hp : ∀ d ∈ docs, ∀ t ∈ d.tokens, TokenPlain d.text t)
    (h : writeToStr columns docs = .ok out) :
    (wordLines out).length = (docs.map fun d => d.tokens.length +
      (d.sentences.dropLast.map fun s => repeatedAt (d.tokens.take s.stop)).sum).sum := by
  have key : ∀ (docs : List Document) (o : Str) (n : Nat), (∀ d ∈ docs, Built d) →
      (∀ d ∈ docs, ∀ t ∈ d.tokens, TokenPlain d.text t) →
      (∃ ls : List (Option (List Str)), o = ls.flatMap lineText ∧ (∀ r, some r ∈ ls → GoodRow r) ∧
        (ls.filter fun l => l.any isWordRow).length = n) →
      forM' (writeDocument (withHead columns)) o docs = .ok out →
      ∃ ls : List (Option (List Str)), out = ls.flatMap lineText ∧ (∀ r, some r ∈ ls → GoodRow r) ∧
        (ls.filter fun l => l.any isWordRow).length = n + (docs.map fun d => d.tokens.length +
          (d.sentences.dropLast.map fun s => repeatedAt (d.tokens.take s.stop)).sum).sum := by
    intro docs
    induction docs with
    | nil => intro o n _ _ ho h; cases h; simpa using ho
    | cons d docs ih =>
      intro o n hb hp ho h
      simp only [forM'] at h
      split at h
      · rename_i o1 h1
        have := ih o1 _ (fun x hx => hb x (by simp [hx])) (fun x hx => hp x (by simp [hx]))
          (writeDocument_count (hb d (by simp)) (hp d (by simp)) ho h1) h
        rw [List.map_cons, List.sum_cons, ← Nat.add_assoc n]
        exact this
      · cases h
  obtain ⟨ls, h1, h2, h3⟩ := key docs [] 0 hb hp ⟨[], rfl, by simp, rfl⟩ h
  rw [h1, wordLines_rows h2, h3, Nat.zero_add]

/-- A sentence that ends in a multiword token has words to repeat. -/
theorem repeatedAt_pos {d : Document} {s : Sentence}
    (h : ¬ EndsRegular (d.sentenceTokens s)) : repeatedAt (d.tokens.take s.stop) ≠ 0 := by
  unfold EndsRegular at h
  push Not at h
  obtain ⟨u, hu, f, hf, hfm, hfu⟩ := h
  have e : d.tokens.take s.stop = d.tokens.take s.start ++ d.sentenceTokens s := by
    unfold Document.sentenceTokens
    have := slice_append_slice d.tokens (a := 0) (b := s.start) (c := s.stop) (by omega) s.lt.le
    simpa [slice] using this.symm
  have hlast : (d.tokens.take s.stop).getLast? = some u := by
    rw [e, List.getLast?_append, hu]; rfl
  have hmem : ∀ x ∈ d.sentenceTokens s, x ∈ d.tokens.take s.stop := fun x hx => by rw [e]; simp [hx]
  unfold repeatedAt
  rw [hlast]
  intro h0
  rw [List.length_eq_zero_iff, List.filter_eq_nil_iff] at h0
  refine h0 u (hmem u (List.mem_of_getLast? hu)) ?_
  simp only [Option.any_some, Bool.and_eq_true, List.any_eq_true]
  exact ⟨by simp [Token.coincides], f, hmem f hf, hfm, by simpa using hfu⟩

/-- Without multiword tokens at the ends of sentences nothing is repeated. -/
theorem repeatedAt_zero {d : Document} (hd : Built d)
    (hE : ∀ s ∈ d.sentences.dropLast, EndsRegular (d.sentenceTokens s)) {s : Sentence}
    (hs : s ∈ d.sentences.dropLast) : repeatedAt (d.tokens.take s.stop) = 0 := by
  have hok := hd.docOk
  obtain ⟨k, hk, rfl⟩ := List.mem_iff_getElem.mp hs
  rw [List.length_dropLast] at hk
  rw [List.getElem_dropLast]
  have e := (tiles_take d.tokens hok.tiles k (List.getElem?_eq_getElem (by omega))).2
  have e' : slice d.tokens 0 (d.sentences[k]).stop = d.tokens.take (d.sentences[k]).stop := by simp [slice]
  rw [e'] at e
  have hB : (d.tokens.take (d.sentences[k]).stop).Pairwise Before := hok.order.sublist (List.take_sublist _ _)
  unfold repeatedAt
  rw [List.length_eq_zero_iff, List.filter_eq_nil_iff]
  intro t ht hcon
  rw [Option.any_eq_true] at hcon
  obtain ⟨u, hu, hcon⟩ := hcon
  simp only [Bool.and_eq_true, List.any_eq_true] at hcon
  obtain ⟨_, f, hf, hfm, hfu⟩ := hcon
  rw [← e, List.mem_flatten] at hf
  obtain ⟨g, hg, hfg⟩ := hf
  obtain ⟨x, hx, rfl⟩ := List.mem_map.mp hg
  have hxd : x ∈ d.sentences.dropLast := by
    obtain ⟨j, hj, rfl⟩ := List.mem_iff_getElem.mp hx
    rw [List.length_take] at hj
    rw [List.getElem_take]
    exact List.mem_iff_getElem.mpr ⟨j, by rw [List.length_dropLast]; omega, by simp⟩
  obtain ⟨w, hw⟩ : ∃ w, (slice d.tokens x.start x.stop).getLast? = some w := by
    cases hw : (slice d.tokens x.start x.stop).getLast? with
    | none => rw [List.getLast?_eq_none_iff] at hw; rw [hw] at hfg; simp at hfg
    | some w => exact ⟨w, rfl⟩
  have hfw := hE x hxd w hw f hfg hfm
  have h1 : f = w ∨ Before f w := last_before (hok.order.sublist (slice_sublist _ _ _)) hw hfg
  have hwm : w ∈ d.tokens.take (d.sentences[k]).stop := by
    rw [← e, List.mem_flatten]
    exact ⟨_, hg, List.mem_of_getLast? hw⟩
  rcases last_before hB hu hwm with rfl | h2
  · rw [hfw] at hfu; cases hfu
  · have := (before_between h1 h2 hfu).1
    rw [coincides_iff] at this hfu
    rw [← Bool.not_eq_true, coincides_iff] at hfw
    omega

/-- C20, the exact condition: as many word lines as tokens are written if and only if no sentence but the last
of its document ends in a multiword token. -/
theorem C20_once_iff {columns : Cols} {docs : List Document} {out : Str}
    (hb : ∀ d ∈ docs, Built d) (hp : ∀ d ∈ docs, ∀ t ∈ d.tokens, TokenPlain d.text t)
    (h : writeToStr columns docs = .ok out) :
    (wordLines out).length = (docs.map fun d => d.tokens.length).sum ↔
      ∀ d ∈ docs, ∀ s ∈ d.sentences.dropLast, EndsRegular (d.sentenceTokens s) := by
  have hc := C20_word_lines hb hp h
  constructor
  · intro e d hd s hs
    by_contra hE
    refine repeatedAt_pos hE ?_
    have hsum : (docs.map fun d => d.tokens.length +
        (d.sentences.dropLast.map fun s => repeatedAt (d.tokens.take s.stop)).sum).sum =
        (docs.map fun d => d.tokens.length).sum +
        (docs.map fun d => (d.sentences.dropLast.map fun s => repeatedAt (d.tokens.take s.stop)).sum).sum := by
      clear hc e h hs hd hb hp hE
      induction docs with
      | nil => rfl
      | cons d docs ih => simp only [List.map_cons, List.sum_cons, ih]; omega
    have h0 : (docs.map fun d => (d.sentences.dropLast.map fun s => repeatedAt (d.tokens.take s.stop)).sum).sum = 0 := by
      omega
    exact sum_map_eq_zero.mp (sum_map_eq_zero.mp h0 d hd) s hs
  · intro hE
    rw [hc]
    congr 1
    apply List.map_congr_left
    intro d hd
    rw [sum_map_eq_zero.mpr fun s hs => repeatedAt_zero (hb d hd) (hE d hd) hs, Nat.add_zero]

-- a document whose first sentence ends in a multiword token of two words
example : Built Demo.doc ∧ (∀ t ∈ Demo.doc.tokens, TokenPlain Demo.doc.text t) ∧
    (writeToStr defaultCols [Demo.doc]).isOk = true ∧
    Demo.doc.sentences.dropLast.map (fun s => repeatedAt (Demo.doc.tokens.take s.stop)) = [2] := by
  refine ⟨Demo.docBuilt, ?_, by decide +kernel, by decide +kernel⟩
  intro t ht
  have h1 : ∀ t ∈ Demo.doc.tokens, Plain (tokText Demo.doc.text t) ∧ Plain (docText Demo.doc.text t) ∧
      t.lemma' = none ∧ t.deprel = none ∧ t.pos = none := by decide
  obtain ⟨a1, a2, a3, a4, a5⟩ := h1 t ht
  exact ⟨a1, a2, by simp [a3], by simp [a4], by simp [a5], by simp [a5], by simp [a5]⟩

/-! ### C21 -/

/-- C21: every line of the output is blank or has ten tab-separated columns, is not blank after removing
the line end, and is not a comment. -/
theorem C21_ten_columns {columns : Cols} {docs : List Document} {out : Str}
    (hb : ∀ d ∈ docs, Built d) (hp : ∀ d ∈ docs, ∀ t ∈ d.tokens, TokenPlain d.text t)
    (h : writeToStr columns docs = .ok out) :
    ∀ l ∈ fileLines out, l = ['\n'] ∨
      ((splitOn1 '\t' (stripBy isEol l)).length = 10 ∧ stripBy isEol l ≠ [] ∧ l.head? ≠ some '#' ∧
        l.getLast? = some '\n') := by
  obtain ⟨ls, rfl, hls⟩ := writeToStr_lines (Q := fun r => GoodRow r ∧ r.length = 10) hb
    (fun d hd k t ht b r hr => by
      obtain ⟨_, rfl⟩ := isRow_iff.mp hr
      exact ⟨rowFields_good _ _ _ (hp d hd t ht), rfl⟩)
    (fun d hd i j t ht => ⟨rangeRow_good i j (hp d hd t ht), rfl⟩) h
  intro l hl
  rw [fileLines_rows (fun r hr => (hls r hr).1)] at hl
  obtain ⟨x, hx, rfl⟩ := List.mem_map.mp hl
  cases x with
  | none => exact .inl rfl
  | some r =>
    obtain ⟨h1, h2⟩ := hls r hx
    right
    obtain ⟨c, hc, _⟩ := h1.joined_head
    have hn := h1.not_comment
    refine ⟨by simp only [lineText]; rw [h1.strip, h1.split, h2], by simp only [lineText]; rw [h1.strip]; exact h1.joined_ne, ?_, ?_⟩
    · simp only [lineText, formatLine]
      rw [List.head?_append]
      rw [hc] at hn ⊢
      simpa using hn
    · simp [lineText, formatLine]

example : ∀ t ∈ Demo.wdoc.tokens, TokenPlain Demo.wdoc.text t := by
  intro t ht
  have h1 : ∀ t ∈ Demo.wdoc.tokens, Plain (tokText Demo.wdoc.text t) ∧ Plain (docText Demo.wdoc.text t) ∧
      t.lemma'.all (fun s => decide (Plain s)) = true ∧ t.deprel.all (fun s => decide (Plain s)) = true ∧
      t.pos = some Demo.wpos := by decide
  have h2 : Demo.wpos.upos.all (fun s => decide (Plain s)) = true ∧
      Demo.wpos.xpos.all (fun s => decide (Plain s)) = true ∧
      ∀ e ∈ Demo.wpos.feats.entries, Plain e.1 ∧ Plain e.2 := by decide
  obtain ⟨a1, a2, a3, a4, a5⟩ := h1 t ht
  obtain ⟨b1, b2, b3⟩ := h2
  refine ⟨a1, a2, ?_, ?_, ?_, ?_, ?_⟩
  · intro s hs; rw [hs] at a3; simpa using a3
  · intro s hs; rw [hs] at a4; simpa using a4
  · intro p s hp hs; rw [a5] at hp; cases hp; rw [hs] at b1; simpa using b1
  · intro p s hp hs; rw [a5] at hp; cases hp; rw [hs] at b2; simpa using b2
  · intro p hp; rw [a5] at hp; cases hp; exact b3

/-! ### C22 -/

/-- C22 is false as stated, first half: without FEATS the writer fails on a token that has a part of
speech. -/
theorem C22_refuted_fails : ∃ d : Document, BuiltValid d ∧ writeToStr [colLEMMA, colUPOS, colXPOS] [d] = .error .type :=
  ⟨Demo.wdoc, ⟨_, _, _, Demo.wbuilt⟩, by decide +kernel⟩

/-- C22 is false as stated, second half: without HEAD a made-up HEAD is written instead of `_`. -/
theorem C22_refuted_head : ∃ (d : Document) (out : Str), BuiltValid d ∧ writeToStr [colFEATS] [d] = .ok out ∧
    ((splitOn1 '\t' ((fileLines out).headD []))[colHEAD]?) = some ['0'] :=
  ⟨{ text := ['a'], tokens := [{ start := 0, stop := 1, headSent := some (-1), headDoc := some (-1) }], sentences := [⟨0, 1, by decide⟩] },
   _, ⟨['a'], [{ start := 0, stop := 1, headSent := some (-1) }], none, by decide⟩,
   (by rfl : _ = Except.ok _), by decide +kernel⟩

/-- The tokens held back by the writer. -/
def WReady (T : Token → Prop) (st : WState) : Prop :=
  ∀ i f g, st.pending = some (i, f, g) → ∀ t ∈ g, T t

section
variable {cols : Cols} {text : Str} {T : Token → Prop}
  (hT : ∀ t, T t → t.pos = none ∨ colFEATS ∈ cols)
include hT

theorem writeRegular_total {st : WState} {t : Token} (b : Bool) (ht : T t) :
    ∃ st', writeRegular cols text b st t = .ok st' ∧ st'.pending = st.pending := by
  have := isRow_iff (cols := cols) (text := text) (k := st.index) (t := t) (b := b) |>.mpr ⟨hT t ht, rfl⟩
  unfold writeRegular
  unfold IsRow at this
  rw [this]
  exact ⟨_, rfl, rfl⟩

theorem writeMultiword_total {st : WState} (i : Nat) (f : Token) {g : List Token} (hg : ∀ t ∈ g, T t) :
    ∃ st', writeMultiword cols text st i f g = .ok st' ∧ st'.pending = st.pending := by
  have key : ∀ (st : WState), ∃ st', forM' (writeRegular cols text false) st g = .ok st' ∧ st'.pending = st.pending := by
    induction g with
    | nil => exact fun st => ⟨st, rfl, rfl⟩
    | cons t g ih =>
      intro st
      obtain ⟨st1, h1, h2⟩ := writeRegular_total (text := text) (st := st) hT false (hg t (by simp))
      obtain ⟨st2, h3, h4⟩ := ih (fun x hx => hg x (by simp [hx])) st1
      exact ⟨st2, by simp only [forM', h1, h3], h4.trans h2⟩
  exact key _

theorem writeTokenRegular_total {st : WState} {t : Token} (ht : T t) :
    ∃ st', writeTokenRegular cols text st t = .ok st' ∧ WReady T st' := by
  unfold writeTokenRegular
  split
  · refine ⟨_, rfl, ?_⟩
    intro i f g e
    simp only [Option.some.injEq, Prod.mk.injEq] at e
    obtain ⟨rfl, rfl, rfl⟩ := e
    simpa using ht
  · obtain ⟨st1, h1, h2⟩ := writeRegular_total (text := text) (st := { st with pending := none }) hT true ht
    refine ⟨st1, h1, ?_⟩
    intro i f g e
    rw [h2] at e
    cases e

theorem writeToken_total {st : WState} {t : Token} (hst : WReady T st) (ht : T t) :
    ∃ st', writeToken cols text st t = .ok st' ∧ WReady T st' := by
  unfold writeToken
  split
  · exact writeTokenRegular_total hT ht
  · rename_i i f g hp
    split
    · refine ⟨_, rfl, ?_⟩
      intro i' f' g' e
      simp only [Option.some.injEq, Prod.mk.injEq] at e
      obtain ⟨rfl, rfl, rfl⟩ := e
      intro u hu
      rcases List.mem_append.mp hu with hu | hu
      · exact hst _ _ _ hp u hu
      · simp at hu; subst hu; exact ht
    · obtain ⟨st1, h1, _⟩ := writeMultiword_total (text := text) (st := st) hT i f (hst _ _ _ hp)
      rw [h1]
      exact writeTokenRegular_total hT ht

theorem writeSentence_total {st : WState} {toks : List Token} (hst : WReady T st) (ht : ∀ t ∈ toks, T t) :
    ∃ st', writeSentence cols text st toks = .ok st' ∧ WReady T st' := by
  have key : ∃ st1, forM' (writeToken cols text) st toks = .ok st1 ∧ WReady T st1 := by
    induction toks generalizing st with
    | nil => exact ⟨st, rfl, hst⟩
    | cons t toks ih =>
      obtain ⟨st1, h1, h2⟩ := writeToken_total (text := text) hT hst (ht t (by simp))
      obtain ⟨st2, h3, h4⟩ := ih h2 (fun x hx => ht x (by simp [hx]))
      exact ⟨st2, by simp only [forM', h1, h3], h4⟩
  obtain ⟨st1, h1, h2⟩ := key
  unfold writeSentence
  rw [h1]
  simp only [writeEnd]
  split
  · rename_i hp
    exact ⟨_, rfl, fun i f g e => by simp [hp] at e⟩
  · rename_i i f g hp
    obtain ⟨st3, h3, h4⟩ := writeMultiword_total (text := text) (st := st1) hT i f (h2 _ _ _ hp)
    rw [h3]
    refine ⟨_, rfl, ?_⟩
    intro i f g e
    simp only [h4] at e
    exact h2 i f g e

end

/-- When every token has no part of speech, or FEATS is selected, writing succeeds. -/
theorem writeToStr_total {columns : Cols} {docs : List Document} (hb : ∀ d ∈ docs, Built d)
    (hT : ∀ d ∈ docs, ∀ t ∈ d.tokens, t.pos = none ∨ colFEATS ∈ withHead columns) :
    ∃ out, writeToStr columns docs = .ok out := by
  have key : ∀ (docs : List Document) (o : Str), (∀ d ∈ docs, Built d) →
      (∀ d ∈ docs, ∀ t ∈ d.tokens, t.pos = none ∨ colFEATS ∈ withHead columns) →
      ∃ out, forM' (writeDocument (withHead columns)) o docs = .ok out := by
    intro docs
    induction docs with
    | nil => exact fun o _ _ => ⟨o, rfl⟩
    | cons d docs ih =>
      intro o hb hT
      have hd : ∀ (ss : List (List Token)) (st : WState), WReady (· ∈ d.tokens) st →
          (∀ s ∈ ss, ∀ t ∈ s, t ∈ d.tokens) →
          ∃ st', forM' (writeSentence (withHead columns) d.text) st ss = .ok st' := by
        intro ss
        induction ss with
        | nil => exact fun st _ _ => ⟨st, rfl⟩
        | cons s ss ih2 =>
          intro st hst hs
          obtain ⟨st1, h1, h2⟩ := writeSentence_total (cols := withHead columns) (text := d.text)
            (T := (· ∈ d.tokens)) (fun t ht => hT d (by simp) t ht) hst (hs s (by simp))
          obtain ⟨st2, h3⟩ := ih2 st1 h2 (fun x hx => hs x (by simp [hx]))
          exact ⟨st2, by simp only [forM', h1, h3]⟩
      obtain ⟨st', hst'⟩ := hd (d.sentences.map d.sentenceTokens) { out := o } (by intro i f g e; cases e) (by
        intro s hs t ht
        obtain ⟨x, _, rfl⟩ := List.mem_map.mp hs
        exact sentenceTokens_mem ht)
      obtain ⟨out, hout⟩ := ih st'.out (fun x hx => hb x (by simp [hx])) (fun x hx => hT x (by simp [hx]))
      refine ⟨out, ?_⟩
      simp only [forM']
      rw [writeDocument_eq (hb d (by simp)), hst']
      exact hout
  exact key docs [] hb hT

/-- C22, the true part: if FEATS is selected or no token has a part of speech, writing succeeds, and
every line has `_` in each of LEMMA, UPOS, XPOS, DEPREL that is not selected and always in DEPS.
Missing: FEATS left out with parts of speech present, and HEAD left out (both false, see above). -/
theorem C22_selection_partial {columns : Cols} {docs : List Document} (hb : ∀ d ∈ docs, Built d)
    (hT : ∀ d ∈ docs, ∀ t ∈ d.tokens, t.pos = none ∨ colFEATS ∈ columns) :
    ∃ out, writeToStr columns docs = .ok out ∧
      ∃ ls : List (Option (List Str)), out = ls.flatMap lineText ∧ ∀ r, some r ∈ ls →
        r.length = 10 ∧ r[colDEPS]? = some underscore ∧
        ∀ c ∈ [colLEMMA, colUPOS, colXPOS, colDEPREL], c ∉ columns → r[c]? = some underscore := by
  have hsub : ∀ c, c ∈ columns → c ∈ withHead columns := by
    intro c hc; unfold withHead; split <;> simp [hc]
  have hsup : ∀ c, c ≠ colHEAD → c ∈ withHead columns → c ∈ columns := by
    intro c hne hc
    unfold withHead at hc
    split at hc
    · rcases List.mem_cons.mp hc with rfl | hc
      · exact absurd rfl hne
      · exact hc
    · exact hc
  obtain ⟨out, hout⟩ := writeToStr_total hb (fun d hd t ht => (hT d hd t ht).imp id (hsub _))
  refine ⟨out, hout, writeToStr_lines hb ?_ ?_ hout⟩
  · intro d hd k t ht b r hr
    obtain ⟨_, rfl⟩ := isRow_iff.mp hr
    refine ⟨rfl, rfl, ?_⟩
    have hx : ∀ (α : Type) (c : Nat) (v : Option α), c ≠ colHEAD → c ∉ columns → extract (withHead columns) c v = none := by
      intro α c v hne hc
      unfold extract
      rw [if_neg (fun h => hc (hsup c hne h))]
    intro c hc hn
    simp only [List.mem_cons, List.not_mem_nil, or_false] at hc
    rcases hc with rfl | rfl | rfl | rfl
    · simp [rowFields, hx Str colLEMMA t.lemma' (by decide) hn, shield]
    · cases hp : t.pos with
      | none => simp [rowFields, hp]
      | some p => simp [rowFields, hp, hx Str colUPOS p.upos (by decide) hn, shield]
    · cases hp : t.pos with
      | none => simp [rowFields, hp]
      | some p => simp [rowFields, hp, hx Str colXPOS p.xpos (by decide) hn, shield]
    · cases he : extract (withHead columns) colHEAD t.headSent with
      | none => simp [rowFields, he]
      | some v => simp [rowFields, he, hx Str colDEPREL t.deprel (by decide) hn, shield]
  · intro d hd i j t ht
    refine ⟨rfl, rfl, ?_⟩
    intro c hc hn
    simp only [List.mem_cons, List.not_mem_nil, or_false] at hc
    rcases hc with rfl | rfl | rfl | rfl <;> rfl

example : Built Demo.wdoc ∧ (∀ t ∈ Demo.wdoc.tokens, t.pos = none ∨ colFEATS ∈ [colFEATS, colUPOS]) :=
  ⟨Demo.wdocBuilt, fun _ _ => .inr (by decide)⟩

end Verif
