import Verif.Proofs.RoundTrip3

/-!
# Property C19: writing a document and reading it back
-/

namespace Verif

/-- The lines of one sentence block as the reader sees them. -/
def blockLines (rows : List (List Str)) : List Str := rows.map (joinWith '\t') ++ [[]]

theorem contentLines_blocks {blocks : List (List (List Str))} (h : ∀ rows ∈ blocks, ∀ r ∈ rows, GoodRow r) :
    contentLines (blocks.flatMap blockText) = blocks.flatMap blockLines := by
  have e1 : blocks.flatMap blockText =
      (blocks.flatMap fun rows => rows.map some ++ [none]).flatMap lineText := by
    rw [List.flatMap_assoc]
    congr 1
    funext rows
    simp [blockText, lineText, List.flatMap_append, List.flatMap_map]
  have hgood : ∀ r, some r ∈ (blocks.flatMap fun rows => rows.map some ++ [none]) → GoodRow r := by
    intro r hr
    obtain ⟨rows, hrows, hr⟩ := List.mem_flatMap.mp hr
    simp at hr
    exact h rows hrows r hr
  unfold contentLines
  rw [e1, fileLines_rows hgood, List.map_map]
  have e2 : ∀ ls : List (Option (List Str)), (∀ r, some r ∈ ls → GoodRow r) →
      (ls.map (stripBy isEol ∘ lineText)).filter (fun l => l.head? != some '#') =
      ls.map (fun | some r => joinWith '\t' r | none => []) := by
    intro ls
    induction ls with
    | nil => intro _; rfl
    | cons l ls ih =>
      intro hls
      have ih := ih (fun r hr => hls r (by simp [hr]))
      cases l with
      | none =>
        rw [List.map_cons, List.map_cons, List.filter_cons_of_pos (by decide), ih]
        rfl
      | some r =>
        have hr := hls r (by simp)
        have hs : (stripBy isEol ∘ lineText) (some r) = joinWith '\t' r := hr.strip
        rw [List.map_cons, List.map_cons, hs, List.filter_cons_of_pos (by simpa using hr.not_comment), ih]
  rw [e2 _ hgood, List.map_flatMap]
  congr 1
  funext rows
  simp [blockLines, List.map_map, Function.comp_def]

theorem sentLines_blocks {cols : Cols} {blocks : List (List (List Str))} {sents : List (List Item)}
    (h : List.Forall₂ (fun rows its => ItemLines cols (rows.map (joinWith '\t')) its ∧ its ≠ []) blocks sents) :
    SentLines cols (blocks.flatMap blockLines) sents := by
  induction h with
  | nil => exact .nil .nil
  | cons h1 _ ih =>
    rw [List.flatMap_cons, blockLines, List.append_assoc]
    exact .cons h1.1 h1.2 ih

theorem fullCols_withHead {columns : Cols} (h : ∀ c ∈ defaultCols, c ∈ columns) : FullCols (withHead columns) := by
  have h7 := h colDEPREL (by decide)
  unfold withHead
  rw [if_pos h7]
  intro c hc
  by_cases e : c = colHEAD
  · simp [e]
  · right
    refine h c ?_
    simp only [defaultCols, List.mem_cons, List.not_mem_nil, or_false] at hc ⊢
    tauto

theorem forall₂_exists {α β : Type} {R : α → β → Prop} {l : List α} (h : ∀ a ∈ l, ∃ b, R a b) :
    ∃ m, List.Forall₂ R l m := by
  induction l with
  | nil => exact ⟨[], .nil⟩
  | cons a l ih =>
    obtain ⟨b, hb⟩ := h a (by simp)
    obtain ⟨m, hm⟩ := ih (fun x hx => h x (by simp [hx]))
    exact ⟨b :: m, .cons hb hm⟩

/-- The blocks of one written document and what is read for them. -/
structure WrittenAs (cols : Cols) (d : Document) (blocks : List (List (List Str))) (sents : List (List Item))
    (d' : Document) : Prop where
  rows : ∀ rows ∈ blocks, ∀ r ∈ rows, GoodRow r
  lines : List.Forall₂ (fun rows its => ItemLines cols (rows.map (joinWith '\t')) its ∧ its ≠ []) blocks sents
  spelled : List.Forall₂ (Spelled d.text) (d.sentences.map d.sentenceTokens) sents
  raw : DocRaw sents d'
  back : ReadBack d d'

theorem written_document {columns : Cols} (hcols : ∀ c ∈ defaultCols, c ∈ columns) {d : Document}
    (hb : BuiltValid d) (hw : Writable d) {out out' : Str}
    (h : writeDocument (withHead columns) out d = .ok out') :
    ∃ blocks sents d', out' = out ++ blocks.flatMap blockText ∧ WrittenAs (withHead columns) d blocks sents d' := by
  obtain ⟨blocks, h1, h2⟩ := writeDocument_blocks hb.built hw.ends h
  have hfull := fullCols_withHead hcols
  have hmem : ∀ s ∈ d.sentences.map d.sentenceTokens, ∀ t ∈ s, TokenWritable d.text t := by
    intro s hs t ht
    obtain ⟨x, _, rfl⟩ := List.mem_map.mp hs
    exact hw.token t (sentenceTokens_mem ht)
  have hne : ∀ s ∈ d.sentences.map d.sentenceTokens, s ≠ [] := by
    intro s hs
    obtain ⟨x, hx, rfl⟩ := List.mem_map.mp hs
    have := hb.built.docOk.tiles.mem hx
    have hlt := x.lt
    intro e
    have := congrArg List.length e
    simp [Document.sentenceTokens] at this
    omega
  have key : ∀ (ss : List (List Token)) (blocks : List (List (List Str))),
      List.Forall₂ (Block d.text (IsRow (withHead columns) d.text) 0) ss blocks →
      (∀ s ∈ ss, ∀ t ∈ s, TokenWritable d.text t) → (∀ s ∈ ss, s ≠ []) →
      (∀ rows ∈ blocks, ∀ r ∈ rows, GoodRow r) ∧ ∃ sents,
      List.Forall₂ (fun rows its => ItemLines (withHead columns) (rows.map (joinWith '\t')) its ∧ its ≠ []) blocks sents ∧
      List.Forall₂ (Spelled d.text) ss sents := by
    intro ss blocks hF
    induction hF with
    | nil => exact fun _ _ => ⟨by simp, [], .nil, .nil⟩
    | @cons s rows ss blocks hB _ ih =>
      intro h1 h2
      obtain ⟨g1, sents, g2, g3⟩ := ih (fun x hx => h1 x (by simp [hx])) (fun x hx => h2 x (by simp [hx]))
      obtain ⟨k1, its, k2, k3⟩ := block_items hfull (h1 s (by simp)) hB
      refine ⟨?_, its :: sents, .cons ⟨k2, ?_⟩ g2, .cons k3 g3⟩
      · intro r hr
        rcases List.mem_cons.mp hr with rfl | hr
        · exact k1
        · exact g1 r hr
      · rintro rfl
        cases k3
        exact h2 [] (by simp) rfl
  obtain ⟨k1, sents, k2, k3⟩ := key _ _ h1 hmem hne
  obtain ⟨d', k4, k5⟩ := doc_readBack (cols := withHead columns) hb hw (lines := blocks.map fun rows => rows.map (joinWith '\t'))
    (by rw [List.forall₂_map_left_iff]; exact k2.imp fun _ _ h => h.1) k3
  exact ⟨blocks, sents, d', h2, k1, k2, k3, k4, k5⟩

theorem written_documents {columns : Cols} (hcols : ∀ c ∈ defaultCols, c ∈ columns) {docs : List Document}
    (hb : ∀ d ∈ docs, BuiltValid d ∧ Writable d) {out out' : Str}
    (h : forM' (writeDocument (withHead columns)) out docs = .ok out') :
    ∃ (blocks : List (List (List Str))) (chunks : List (List (List Item))) (docs' : List Document),
      out' = out ++ blocks.flatMap blockText ∧
      (∀ rows ∈ blocks, ∀ r ∈ rows, GoodRow r) ∧
      List.Forall₂ (fun rows its => ItemLines (withHead columns) (rows.map (joinWith '\t')) its ∧ its ≠ []) blocks chunks.flatten ∧
      List.Forall₂ DocRaw chunks docs' ∧
      List.Forall₂ (fun d c => List.Forall₂ (Spelled d.text) (d.sentences.map d.sentenceTokens) c) docs chunks ∧
      List.Forall₂ ReadBack docs docs' := by
  induction docs generalizing out with
  | nil =>
    cases h
    exact ⟨[], [], [], by simp, by simp, .nil, .nil, .nil, .nil⟩
  | cons d docs ih =>
    simp only [forM'] at h
    split at h
    · rename_i out1 h1
      obtain ⟨b, c, d', e, hW⟩ := written_document hcols (hb d (by simp)).1 (hb d (by simp)).2 h1
      obtain ⟨bs, cs, ds, e2, g1, g2, g3, g4, g5⟩ := ih (fun x hx => hb x (by simp [hx])) h
      refine ⟨b ++ bs, c :: cs, d' :: ds, by rw [e2, e]; simp, ?_, ?_, .cons hW.raw g3, .cons hW.spelled g4, .cons hW.back g5⟩
      · intro rows hr
        rcases List.mem_append.mp hr with hr | hr
        · exact hW.rows rows hr
        · exact g1 rows hr
      · exact List.rel_append hW.lines g2
    · cases h

theorem Writable.sentences_ne {d : Document} (h : Writable d) (hb : Built d) : d.sentences ≠ [] := by
  intro e
  have := hb.docOk.tiles
  rw [e] at this
  simp only [Tiles] at this
  exact h.ne (List.length_eq_zero_iff.mp this.symm)

theorem round_trip {columns : Cols} (hcols : ∀ c ∈ defaultCols, c ∈ columns) {limit : Int} (hpos : 0 < limit)
    {docs : List Document} (hb : ∀ d ∈ docs, BuiltValid d ∧ Writable d)
    (hsize : ∀ d ∈ docs, (d.sentences.length : Int) ≤ limit)
    (hfull : ∀ d ∈ docs.dropLast, (d.sentences.length : Int) = limit) :
    ∃ out docs', writeToStr columns docs = .ok out ∧ readFromStr limit columns out = .ok (docs', none) ∧
      List.Forall₂ ReadBack docs docs' ∧ ∃ chunks, List.Forall₂ DocRaw chunks docs' ∧
      List.Forall₂ (fun (d : Document) c => List.Forall₂ (Spelled d.text) (d.sentences.map d.sentenceTokens) c) docs chunks := by
  have hF : colFEATS ∈ withHead columns := fullCols_withHead hcols _ (by decide)
  obtain ⟨out, hout⟩ := writeToStr_total (columns := columns) (docs := docs) (fun d hd => (hb d hd).1.built)
    (fun _ _ _ _ => .inr hF)
  obtain ⟨blocks, chunks, docs', e, g1, g2, g3, g4, g5⟩ := written_documents hcols hb hout
  refine ⟨out, docs', hout, ?_, g5, chunks, g3, g4⟩
  have hlen : List.Forall₂ (fun (d : Document) c => d.sentences.length = c.length) docs chunks :=
    g4.imp fun d c h => by simpa using h.length_eq
  refine C16_accepts_iff.mpr ⟨hpos, chunks.flatten, chunks, ?_, ⟨rfl, ?_, ?_⟩, g3⟩
  · rw [e, List.nil_append, contentLines_blocks g1]
    exact sentLines_blocks g2
  · intro c hc
    obtain ⟨d, hd, hl⟩ := forall₂_exists_left hlen hc
    have h1 := List.length_pos_iff.mpr ((hb d hd).2.sentences_ne (hb d hd).1.built)
    have h2 := hsize d hd
    exact ⟨fun e => by rw [e, List.length_nil] at hl; omega, by omega⟩
  · intro c hc
    obtain ⟨d, hd, hl⟩ := forall₂_exists_left (forall₂_dropLast hlen) hc
    have := hfull d hd
    omega

/-- C19, first half: reading what was written gives as many documents, with the same sentences and the
same words in everything CoNLL-U expresses.  All documents but the last must have as many sentences as
the reader puts into one document (with one document this is only the upper limit). -/
theorem C19_round_trip {columns : Cols} (hcols : ∀ c ∈ defaultCols, c ∈ columns) {limit : Int} (hpos : 0 < limit)
    {docs : List Document} (hb : ∀ d ∈ docs, BuiltValid d ∧ Writable d)
    (hsize : ∀ d ∈ docs, (d.sentences.length : Int) ≤ limit)
    (hfull : ∀ d ∈ docs.dropLast, (d.sentences.length : Int) = limit) :
    ∃ out docs', writeToStr columns docs = .ok out ∧ readFromStr limit columns out = .ok (docs', none) ∧
      List.Forall₂ (fun (d d' : Document) => d'.sentences = d.sentences ∧
        List.Forall₂ (SameWord d.text d'.text) d.tokens d'.tokens) docs docs' := by
  obtain ⟨out, docs', h1, h2, h3, _⟩ := round_trip hcols hpos hb hsize hfull
  exact ⟨out, docs', h1, h2, h3.imp fun _ _ h => ⟨h.sentences, h.words⟩⟩

/-! ### canonically spaced text -/

theorem spaceIf_get (b : Bool) : (spaceIf b).length ≤ 1 := by cases b <;> simp [spaceIf]

theorem take_docText {text : Str} {t : Token} (h : t.stop ≤ text.length) :
    (docText text t).length = t.stop - t.start := by
  have := t.lt
  simp [docText, slice_length]; omega

theorem spaced_skip {text : Str} {g rest : List Token} (h : ∀ u ∈ g, u.sub ≠ 0) {pos : Nat} :
    Spaced text pos (g ++ rest) ↔ Spaced text pos rest := by
  induction g with
  | nil => rfl
  | cons t g ih =>
    rw [List.cons_append, Spaced, if_neg (h t (by simp))]
    exact ih (fun u hu => h u (by simp [hu]))

theorem spelled_spaced {text : Str} {toks : List Token} {its : List Item} (h : Spelled text toks its)
    (hN : toks.IsChain NumberedAfter) (hB : toks.Pairwise Before) (h0 : ∀ t, toks.head? = some t → t.sub = 0)
    (hin : ∀ t ∈ toks, t.stop ≤ text.length)
    {pos : Nat} {rest : List Token} (hs : Spaced text pos (toks ++ rest)) {toks' : List Token}
    (ht : ItemsTokens pos its toks') :
    List.Forall₂ (fun t t' : Token => t.start = t'.start ∧ t.stop = t'.stop) toks toks' ∧
    Spaced text (pos + (surfaceText its).length) rest ∧
    slice text pos (pos + (surfaceText its).length) = surfaceText its := by
  induction h generalizing pos toks' with
  | nil =>
    cases ht
    exact ⟨.nil, by simpa [surfaceText] using hs, by simp [surfaceText, slice]⟩
  | @word t p toks its h1 h2 h3 h4 ih =>
    obtain ⟨a, b, rfl, ⟨t', rfl, hof⟩, hb⟩ := ht
    have hrepl : t.repl = none := by simpa [Token.isMultiword] using h1
    have hdt : docText text t = p.text := by rw [h2.text, tokText_of_regular h1]
    have hlt := t.lt
    have hle := hin t (by simp)
    have hpl : p.text.length = t.stop - t.start := by rw [← hdt, take_docText hle]
    rw [List.cons_append, Spaced, if_pos (t.mwOk hrepl)] at hs
    obtain ⟨s1, s2, s3⟩ := hs
    have hpiece : (Item.piece (.word p)).length = (t.stop - t.start) + (spaceIf (spaceAfter text t)).length := by
      simp [Item.piece, Item.surface, h3, hpl]
    have hoff : pos + (Item.piece (.word p)).length = t.stop + (spaceIf (spaceAfter text t)).length := by
      rw [hpiece]; omega
    have hnext : ∀ u, toks.head? = some u → u.sub = 0 := by
      intro u hu
      cases toks with
      | nil => simp at hu
      | cons v toks =>
        simp at hu
        subst hu
        cases hv : v.repl with
        | none => exact v.mwOk hv
        | some r =>
          rw [List.isChain_cons_cons] at hN
          refine (hN.1 (by rw [hv]; rfl)).2 ?_
          rintro ⟨e, _⟩
          simp [hrepl] at e
    rw [← hoff] at s3
    obtain ⟨g1, g2, g3⟩ := ih hN.tail hB.tail hnext (fun u hu => hin u (by simp [hu])) s3 hb
    refine ⟨.cons ⟨by rw [hof.start, s1], by rw [hof.stop, hpl]; omega⟩ g1, ?_, ?_⟩
    · rw [surfaceText_cons, List.length_append, ← Nat.add_assoc]; exact g2
    · rw [surfaceText_cons, List.length_append, ← Nat.add_assoc,
        ← slice_append_slice text (b := pos + (Item.piece (.word p)).length) (by omega) (by omega), g3]
      congr 1
      rw [hoff, ← slice_append_slice text (b := t.stop) (by omega) (by omega)]
      simp only [Item.piece, Item.surface]
      congr 1
      · rw [← hdt, docText, s1]
      · rw [h3, slice, Nat.add_sub_cancel_left]; exact s2
  | @multi t g toks hd ws its h1 h2 h3 h4 h5 h6 h7 ih =>
    obtain ⟨a, b, rfl, ha, hb⟩ := ht
    obtain ⟨q1, q2, q3, q4⟩ := group_subs h1 (h0 t rfl) (by omega) h2 h3 hN hB
    have hl : (t :: g).length = a.length := h6.length_eq.trans ha.1.symm
    have hlt := t.lt
    have hle := hin t (by simp)
    have hpl : hd.text.length = t.stop - t.start := by rw [h4, take_docText hle]
    rw [List.cons_append, List.append_assoc, Spaced, if_pos (h0 t rfl)] at hs
    obtain ⟨s1, s2, s3⟩ := hs
    rw [spaced_skip (by
      intro u hu
      obtain ⟨i, hi, rfl⟩ := List.mem_iff_getElem.mp hu
      have := (q1 (i + 1) g[i] (by simp)).1
      rw [this]
      push_cast
      omega)] at s3
    have hpiece : (Item.piece (.multi hd ws)).length = (t.stop - t.start) + (spaceIf (spaceAfter text t)).length := by
      simp [Item.piece, Item.surface, h5, hpl]
    have hoff : pos + (Item.piece (.multi hd ws)).length = t.stop + (spaceIf (spaceAfter text t)).length := by
      rw [hpiece]; omega
    rw [← hoff] at s3
    obtain ⟨g1, g2, g3⟩ := ih q2 q3 q4 (fun u hu => hin u (by simp [hu])) s3 hb
    refine ⟨?_, ?_, ?_⟩
    · have hgrp : List.Forall₂ (fun t t' : Token => t.start = t'.start ∧ t.stop = t'.stop) (t :: g) a := ?_
      · exact List.rel_append hgrp g1
      rw [List.forall₂_iff_get]
      refine ⟨hl, fun i hi hi' => ?_⟩
      have hiw : i < ws.length := ha.1 ▸ hi'
      have hof := ha.2 i _ _ (List.getElem?_eq_getElem hiw) (List.getElem?_eq_getElem hi')
      obtain ⟨k1, k2, k3, k4⟩ := q1 i _ (List.getElem?_eq_getElem hi)
      simp only [List.get_eq_getElem]
      rw [hof.start, hof.stop, hpl, k3, k4, s1]
      omega
    · rw [surfaceText_cons, List.length_append, ← Nat.add_assoc]; exact g2
    · rw [surfaceText_cons, List.length_append, ← Nat.add_assoc,
        ← slice_append_slice text (b := pos + (Item.piece (.multi hd ws)).length) (by omega) (by omega), g3]
      congr 1
      rw [hoff, ← slice_append_slice text (b := t.stop) (by omega) (by omega)]
      simp only [Item.piece, Item.surface]
      congr 1
      · rw [h4, docText, s1]
      · rw [h5, slice, Nat.add_sub_cancel_left]; exact s2

theorem spelled_spaced_sents {text : Str} {ss : List (List Token)} {sents : List (List Item)}
    (h : List.Forall₂ (Spelled text) ss sents) (hN : ∀ s ∈ ss, s.IsChain NumberedAfter)
    (hB : ∀ s ∈ ss, s.Pairwise Before) (h0 : ∀ s ∈ ss, ∀ t, s.head? = some t → t.sub = 0)
    (hin : ∀ s ∈ ss, ∀ t ∈ s, t.stop ≤ text.length) {pos : Nat} (hs : Spaced text pos ss.flatten)
    {toks' : List Token} (ht : ItemsTokens pos sents.flatten toks') :
    List.Forall₂ (fun t t' : Token => t.start = t'.start ∧ t.stop = t'.stop) ss.flatten toks' ∧
    pos + (surfaceText sents.flatten).length = text.length ∧
    slice text pos text.length = surfaceText sents.flatten := by
  induction h generalizing pos toks' with
  | nil =>
    cases ht
    simp only [List.flatten_nil, Spaced] at hs
    exact ⟨.nil, by simpa [surfaceText] using hs, by rw [hs, slice_self]; rfl⟩
  | @cons s its ss sents h1 h2 ih =>
    rw [List.flatten_cons] at ht hs
    obtain ⟨x, y, rfl, hx, hy⟩ := ht.split
    obtain ⟨g1, g2, g3⟩ := spelled_spaced h1 (hN s (by simp)) (hB s (by simp)) (h0 s (by simp)) (hin s (by simp)) hs hx
    obtain ⟨k1, k2, k3⟩ := ih (fun s hs => hN s (by simp [hs])) (fun s hs => hB s (by simp [hs]))
      (fun s hs => h0 s (by simp [hs])) (fun s hs => hin s (by simp [hs])) g2 hy
    refine ⟨List.rel_append g1 k1, by rw [List.flatten_cons, surfaceText_append, List.length_append]; omega, ?_⟩
    rw [List.flatten_cons, surfaceText_append,
      ← slice_append_slice text (b := pos + (surfaceText its).length) (by omega) (by omega), g3, k3]

/-- C19, second half: if moreover the text is canonically spaced, the tokens carry no extras and roots
are recorded as such in both views, then what is read back equals what was written (`==`). -/
theorem C19_round_trip_equal {columns : Cols} (hcols : ∀ c ∈ defaultCols, c ∈ columns) {limit : Int} (hpos : 0 < limit)
    {docs : List Document} (hb : ∀ d ∈ docs, BuiltValid d ∧ Writable d)
    (hsize : ∀ d ∈ docs, (d.sentences.length : Int) ≤ limit)
    (hfull : ∀ d ∈ docs.dropLast, (d.sentences.length : Int) = limit)
    (hspaced : ∀ d ∈ docs, Spaced d.text 0 d.tokens)
    (hextras : ∀ d ∈ docs, ∀ t ∈ d.tokens, t.extras.entries = [])
    (hroots : ∀ d ∈ docs, ∀ t ∈ d.tokens, t.isRoot = true → t.headDoc = some (-1)) :
    ∃ out docs', writeToStr columns docs = .ok out ∧ readFromStr limit columns out = .ok (docs', none) ∧
      List.Forall₂ (fun (d d' : Document) => d.pyEq d' = true) docs docs' := by
  obtain ⟨out, docs', h1, h2, h3, chunks, h4, h5⟩ := round_trip hcols hpos hb hsize hfull
  refine ⟨out, docs', h1, h2, ?_⟩
  rw [List.forall₂_iff_get] at *
  refine ⟨h3.1, fun i hi hi' => ?_⟩
  have hic : i < chunks.length := by omega
  have hback := h3.2 i hi hi'
  have hraw := h4.2 i hic hi'
  have hsp := h5.2 i hi hic
  have hmem : docs.get ⟨i, hi⟩ ∈ docs := List.get_mem _ _
  generalize docs.get ⟨i, hi⟩ = d at *
  generalize docs'.get ⟨i, hi'⟩ = d' at *
  generalize chunks.get ⟨i, hic⟩ = c at *
  obtain ⟨hbv, hw⟩ := hb d hmem
  have hd := hbv.built.docOk
  have hcne : c ≠ [] := by
    rintro rfl
    have := hsp.length_eq
    simp at this
    exact hw.sentences_ne hbv.built this
  have hdoc := hraw.docOf hcne
  have hflat : (d.sentences.map d.sentenceTokens).flatten = d.tokens := by
    have := tiles_flatten d.tokens hd.tiles
    rw [slice_zero_length] at this
    exact this
  obtain ⟨f1, f2, f3⟩ := hw.sentence_facts hd
  obtain ⟨g1, g2, g3⟩ := spelled_spaced_sents hsp f1 f2 f3 (by
    intro s hs t ht
    obtain ⟨x, _, rfl⟩ := List.mem_map.mp hs
    exact (hw.token t (sentenceTokens_mem ht)).inside) (by rw [hflat]; exact hspaced d hmem) hdoc.tokens
  rw [hflat] at g1
  rw [slice_zero_length] at g3
  refine Document.pyEq_iff.mpr ⟨by rw [g3, hdoc.text], ?_, hback.sentences.symm⟩
  rw [List.forall₂_iff_get] at g1 ⊢
  refine ⟨g1.1, fun j hj hj' => ?_⟩
  have a1 := g1.2 j hj hj'
  have a2 := (List.forall₂_iff_get.mp hback.words).2 j hj hj'
  have a3 := (List.forall₂_iff_get.mp hback.headDoc).2 j hj hj'
  have m : d.tokens.get ⟨j, hj⟩ ∈ d.tokens := List.get_mem _ _
  have m' : d'.tokens.get ⟨j, hj'⟩ ∈ d'.tokens := List.get_mem _ _
  refine ⟨a1.1, a1.2, a2.pos, a2.lemma', a2.deprel, a2.sub, a2.repl, a3 (hroots d hmem _ m), ?_⟩
  intro k
  rw [hback.extras _ m']
  unfold Dict.get?
  rw [hextras d hmem _ m]
  rfl

/-! ### a document to which all of this applies -/

theorem Demo.wdocWritable : Writable Demo.wdoc := by
  have h1 : ∀ t ∈ Demo.wdoc.tokens, Plain (tokText Demo.wdoc.text t) ∧ Plain (docText Demo.wdoc.text t) ∧
      t.lemma'.all (fun s => decide (Plain s)) = true ∧ t.deprel.all (fun s => decide (Plain s)) = true ∧
      t.pos = some Demo.wpos ∧ t.stop ≤ Demo.wdoc.text.length ∧ t.headSent ≠ none ∧
      t.lemma' ≠ some underscore ∧ t.deprel ≠ some underscore := by decide +kernel
  have h2 : Demo.wpos.upos.all (fun s => decide (Plain s)) = true ∧
      Demo.wpos.xpos.all (fun s => decide (Plain s)) = true ∧
      (∀ e ∈ Demo.wpos.feats.entries, Plain e.1 ∧ Plain e.2) ∧ Demo.wpos.upos ≠ some underscore ∧
      Demo.wpos.xpos ≠ some underscore ∧ ∀ e ∈ Demo.wpos.feats.entries, FeatOk e := by decide
  obtain ⟨b1, b2, b3, b4, b5, b6⟩ := h2
  refine ⟨by decide, ?_, by decide +kernel, Demo.wdocEnds⟩
  intro t ht
  obtain ⟨a1, a2, a3, a4, a5, a6, a7, a8, a9⟩ := h1 t ht
  refine ⟨⟨a1, a2, ?_, ?_, ?_, ?_, ?_⟩, a6, a7, a8, a9, _, a5, b4, b5, b6⟩
  · intro s hs; rw [hs] at a3; simpa using a3
  · intro s hs; rw [hs] at a4; simpa using a4
  · intro p s hp hs; rw [a5] at hp; cases hp; rw [hs] at b1; simpa using b1
  · intro p s hp hs; rw [a5] at hp; cases hp; rw [hs] at b2; simpa using b2
  · intro p hp; rw [a5] at hp; cases hp; exact b3

/-- The hypotheses of `C19_round_trip` are met by one document with a multiword token. -/
example : (∀ d ∈ [Demo.wdoc], BuiltValid d ∧ Writable d) ∧
    (∀ d ∈ [Demo.wdoc], (d.sentences.length : Int) ≤ 50) :=
  ⟨by simpa using ⟨⟨_, _, _, Demo.wbuilt⟩, Demo.wdocWritable⟩, by decide⟩

namespace Demo

/-- "ab cd ": a multiword token "ab" and "cd", with one space after each. -/
def sdoc : Document :=
  { text := "ab cd ".toList
    tokens := wdoc.tokens.take 3
    sentences := [{ start := 0, stop := 3 }] }

theorem sbuilt : Document.new sdoc.text [w0, w1, w2] (some sdoc.sentences) true = .ok sdoc := by decide +kernel

end Demo

/-- The hypotheses of `C19_round_trip_equal` are met, too. -/
example : BuiltValid Demo.sdoc ∧ Writable Demo.sdoc ∧ Spaced Demo.sdoc.text 0 Demo.sdoc.tokens ∧
    (∀ t ∈ Demo.sdoc.tokens, t.extras.entries = []) ∧
    (∀ t ∈ Demo.sdoc.tokens, t.isRoot = true → t.headDoc = some (-1)) := by
  refine ⟨⟨_, _, _, Demo.sbuilt⟩, ⟨by decide, ?_, by decide +kernel, by decide +kernel⟩, by decide +kernel, by decide +kernel, by decide +kernel⟩
  intro t ht
  have hw := Demo.wdocWritable.token t (List.mem_of_mem_take ht)
  have h : ∀ t ∈ Demo.sdoc.tokens, tokText Demo.sdoc.text t = tokText Demo.wdoc.text t ∧
    docText Demo.sdoc.text t = docText Demo.wdoc.text t ∧ t.stop ≤ Demo.sdoc.text.length := by decide +kernel
  obtain ⟨h1, h2, h3⟩ := h t ht
  obtain ⟨p, _, k2, k3, k4, k5⟩ := hw
  obtain ⟨p1, p2, p3, p4, p5, p6, p7⟩ := p
  exact ⟨⟨h1 ▸ p1, h2 ▸ p2, p3, p4, p5, p6, p7⟩, h3, k2, k3, k4, k5⟩

/-- Without canonical spacing the text changes: here the last word begins with a space. -/
theorem C19_spacing_needed : ¬ Spaced Demo.wdoc.text 0 Demo.wdoc.tokens ∧
    ∃ out docs', writeToStr defaultCols [Demo.wdoc] = .ok out ∧ readFromStr 50 defaultCols out = .ok (docs', none) ∧
      docs'.map Document.text ≠ [Demo.wdoc.text] :=
  ⟨by decide +kernel, _, _, (by rfl : _ = Except.ok _), (by rfl : _ = Except.ok (_, none)), by decide +kernel⟩

end Verif
