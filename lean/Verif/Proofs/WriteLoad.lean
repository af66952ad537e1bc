import Verif.Spec.WriteLoad
import Verif.Props.Conllu3
import Verif.Props.UdLoad

/-! # Written documents are loaded by the evaluation script -/

namespace Verif

theorem rstripEol_snoc {s : Str} (h : ∀ c, s.getLast? = some c → isEol c = false) :
    rstripEol (s ++ ['\n']) = s := by
  unfold rstripEol
  rw [List.reverse_append, List.reverse_singleton, List.singleton_append, List.dropWhile_cons_of_pos (by decide)]
  have : List.dropWhile isEol s.reverse = s.reverse := by
    cases hs : s.reverse with
    | nil => rfl
    | cons c cs =>
      rw [List.dropWhile_cons_of_neg]
      have := h c (by rw [List.getLast?_eq_head?_reverse, hs]; rfl)
      simp [this]
  rw [this, List.reverse_reverse]

theorem GoodRow.rstrip {r : List Str} (h : GoodRow r) : rstripEol (formatLine r) = joinWith '\t' r := by
  unfold formatLine
  refine rstripEol_snoc ?_
  intro c hc
  obtain ⟨init, h1 | h1⟩ := h.last
  · rw [joinWith_getLast? (c := '_') (by rfl) init h1] at hc
    injection hc with hc
    subst hc; decide
  · rw [joinWith_getLast? (c := 'o') (by rfl) init h1] at hc
    injection hc with hc
    subst hc; decide

theorem udFileLines_blocks {blocks : List (List (List Str))} (h : ∀ rows ∈ blocks, ∀ r ∈ rows, GoodRow r) :
    udFileLines (blocks.flatMap blockText) = blocks.flatMap blockLines := by
  have e1 : blocks.flatMap blockText =
      (blocks.flatMap fun rows => rows.map some ++ [none]).flatMap lineText := by
    rw [List.flatMap_assoc]
    congr 1
    funext rows
    simp [blockText, lineText, List.flatMap_append, List.flatMap_map]
  have hgood : ∀ r, some r ∈ (blocks.flatMap fun rows => rows.map some ++ [none]) → GoodRow r := by
    intro r hr
    obtain ⟨rows, hrows, hr⟩ := List.mem_flatMap.mp hr
    simp at hr
    exact h rows hrows r hr
  unfold udFileLines
  rw [e1, fileLines_rows hgood, List.map_map]
  have e2 : ∀ ls : List (Option (List Str)), (∀ r, some r ∈ ls → GoodRow r) →
      ls.map (rstripEol ∘ lineText) = ls.map (fun | some r => joinWith '\t' r | none => []) := by
    intro ls hls
    apply List.map_congr_left
    intro l hl
    cases l with
    | none => rfl
    | some r => exact (hls r hl).rstrip
  rw [e2 _ hgood, List.map_flatMap]
  congr 1
  funext rows
  simp [blockLines, List.map_map, Function.comp_def]

theorem written_eq (cols : Cols) (c : Nat) (v : Option Str) : shield (extract cols c v) = written cols c v := by
  unfold shield extract written
  split <;> rfl

theorem loadedRow_of_row {cols : Cols} {text : Str} {k : Nat} {t : Token} {b : Bool} (m : Bool) :
    LoadedRow cols text m k t (cutDeprel
      (if m then rowFields cols text k t b else withForm (rowFields cols text k t b) (noSpaces (tokText text t)))) := by
  refine ⟨?_, ?_, ?_, ?_, ?_, ?_, ?_, ?_, ?_⟩
  · cases m <;> rfl
  · cases m <;> rfl
  · cases m <;> exact written_eq _ _ _
  · cases m
    all_goals
      show (match t.pos with | none => underscore | some p => shield (extract cols colUPOS p.upos)) = _
      cases t.pos with
      | none => simp [written]
      | some p => exact written_eq _ _ _
  · cases m
    all_goals
      show (match t.pos with | none => underscore | some p => shield (extract cols colXPOS p.xpos)) = _
      cases t.pos with
      | none => simp [written]
      | some p => exact written_eq _ _ _
  · intro p hp
    cases m
    all_goals
      show (match t.pos with | none => underscore | some p => featsField p.feats) = _
      rw [hp]; rfl
  · intro hp
    cases m
    all_goals
      show (match t.pos with | none => underscore | some p => featsField p.feats) = _
      rw [hp]
  · have : pyInt (match extract cols colHEAD t.headSent with | some v => normIndex v | none => natStr k) =
        .ok (writtenHead cols k t) := by
      unfold extract writtenHead
      by_cases hc : colHEAD ∈ cols
      · simp only [hc, if_true]
        cases t.headSent with
        | none => exact pyInt_natStr k
        | some v => exact pyInt_normIndex v
      · simp only [hc, if_false]
        exact pyInt_natStr k
    cases m <;> exact this
  · have : (match extract cols colHEAD t.headSent with
        | some _ => shield (extract cols colDEPREL t.deprel) | none => underscore).takeWhile (· ≠ ':') =
        writtenRelation cols t := by
      rw [written_eq]
      unfold extract writtenRelation
      by_cases hc : colHEAD ∈ cols
      · simp only [hc, if_true, true_and]
        cases t.headSent with
        | none => simp [underscore]
        | some v => simp
      · simp [hc, underscore]
    cases m <;> exact this

theorem writtenHeads_append (cols : Cols) (k : Nat) (a b : List Token) :
    writtenHeads cols k (a ++ b) = writtenHeads cols k a ++ writtenHeads cols (k + a.length) b := by
  induction a generalizing k with
  | nil => rfl
  | cons t a ih =>
    simp only [List.cons_append, writtenHeads, ih, List.length_cons]
    rw [show k + 1 + a.length = k + (a.length + 1) by omega]

theorem writtenHeads_length (cols : Cols) (k : Nat) (a : List Token) : (writtenHeads cols k a).length = a.length := by
  induction a generalizing k with
  | nil => rfl
  | cons t a ih => simp [writtenHeads, ih]

theorem writtenHeads_get (cols : Cols) (k : Nat) (a : List Token) (i : Nat) :
    (writtenHeads cols k a)[i]? = (a[i]?).map (writtenHead cols (k + i)) := by
  induction a generalizing k i with
  | nil => rfl
  | cons t a ih =>
    cases i with
    | zero => rfl
    | succ i =>
      simp only [writtenHeads, List.getElem?_cons_succ, ih]
      rw [show k + 1 + i = k + (i + 1) by omega]

theorem headsOf_append {a b : List (List Str)} {x y : List Int} (h1 : HeadsOf a x) (h2 : HeadsOf b y) :
    HeadsOf (a ++ b) (x ++ y) := List.rel_append h1 h2

theorem wordRows_heads {cols : Cols} {text : Str} {m : Bool} {k : Nat} {toks : List Token} {rs : List (List Str)}
    (h : WordRows (fun k t _ r => LoadedRow cols text m k t r) k toks rs) : HeadsOf rs (writtenHeads cols k toks) := by
  unfold HeadsOf
  rw [List.forall₂_iff_get]
  refine ⟨by rw [writtenHeads_length, h.1], ?_⟩
  intro i h1 h2
  have hi : i < toks.length := h.1 ▸ h1
  have := (h.2 i toks[i] rs[i] (List.getElem?_eq_getElem hi) (List.getElem?_eq_getElem h1)).head
  have e := writtenHeads_get cols k toks i
  rw [List.getElem?_eq_getElem h2, List.getElem?_eq_getElem hi] at e
  simp only [Option.map_some, Option.some.injEq] at e
  simp only [List.get_eq_getElem, e]
  exact this

theorem LoadsAs.heads {cols : Cols} {text : Str} {k : Nat} {toks : List Token} {us : List UdToken}
    (h : LoadsAs cols text k toks us) : HeadsOf (rowsOf us) (writtenHeads cols k toks) := by
  induction h with
  | nil => exact .nil
  | word _ h1 _ ih => exact .cons h1.head ih
  | @multi k t g toks rs us _ _ _ h4 _ ih =>
    have e : t :: (g ++ toks) = (t :: g) ++ toks := rfl
    rw [e, writtenHeads_append]
    exact headsOf_append (wordRows_heads h4) ih

/-- The block of a sentence is understood by the loader. -/
theorem block_loads {cols : Cols} {text : Str} {k : Nat} {toks : List Token} {rows : List (List Str)}
    (hp : ∀ t ∈ toks, TokenPlain text t) (hf : ∀ t ∈ toks, noSpaces (docText text t) ≠ [])
    (hpos : ∀ h ∈ writtenHeads cols k toks, 0 ≤ h)
    (h : Block text (IsRow cols text) k toks rows) :
    (∀ r ∈ rows, GoodRow r) ∧ ∃ us, UdLines k (rows.map (joinWith '\t')) us ∧ LoadsAs cols text k toks us := by
  induction h with
  | nil k => exact ⟨by simp, [], .nil k, .nil k⟩
  | @word k t toks r rs h1 h2 h3 ih =>
    obtain ⟨g, us, h4, h5⟩ := ih (fun x hx => hp x (by simp [hx])) (fun x hx => hf x (by simp [hx]))
      (fun x hx => hpos x (by simp [writtenHeads, hx]))
    obtain ⟨_, rfl⟩ := isRow_iff.mp h2
    have hg := rowFields_good cols k true (hp t (by simp))
    have hrow := loadedRow_of_row (cols := cols) (text := text) (k := k) (t := t) (b := true) false
    simp only [Bool.false_eq_true, if_false] at hrow
    rw [tokText_of_regular h1] at hrow
    refine ⟨by simpa using ⟨hg, g⟩, ⟨noSpaces (docText text t), false, [_]⟩ :: us, ?_, .word h1 hrow h5⟩
    rw [List.map_cons]
    refine .word hg.split rfl (natStr_not_mem (by decide)) (natStr_not_mem (by decide)) ?_ (hf t (by simp))
      ?_ (h := writtenHead cols k t) ?_ (hpos _ (by simp [writtenHeads])) h4
    · show noSpaces (tokText text t) = _
      rw [tokText_of_regular h1]
    · have := pyInt_natStr (k + 1)
      push_cast at this
      exact this
    · exact hrow.head
  | @multi k t g toks ws rs h1 h2 h3 h4 h5 ih =>
    have e : t :: (g ++ toks) = (t :: g) ++ toks := rfl
    rw [e, writtenHeads_append] at hpos
    obtain ⟨hg, us, h6, h7⟩ := ih (fun x hx => hp x (by simp [hx])) (fun x hx => hf x (by simp [hx]))
      (fun x hx => hpos x (List.mem_append_right _ hx))
    have hgh : GoodRow (headerRow text k (g.length + 1) t) := rangeRow_good _ _ (hp t (by simp))
    have hpg : ∀ u ∈ t :: g, TokenPlain text u := fun u hu => hp u (by
      rcases List.mem_cons.mp hu with rfl | hu
      · simp
      · simp [hu])
    have hws : ∀ (i : Nat) (hi : i < (t :: g).length) (hi' : i < ws.length),
        ws[i] = rowFields cols text (k + i) (t :: g)[i] false := by
      intro i hi hi'
      have := h4.2 i _ _ (List.getElem?_eq_getElem hi) (List.getElem?_eq_getElem hi')
      exact (isRow_iff.mp this).2
    have hgw : ∀ r ∈ ws, GoodRow r := by
      intro r hr
      obtain ⟨i, hi, rfl⟩ := List.mem_iff_getElem.mp hr
      have hi' : i < (t :: g).length := h4.1 ▸ hi
      rw [hws i hi' hi]
      exact rowFields_good _ _ _ (hpg _ (List.getElem_mem hi'))
    have hlen : ws.length = g.length + 1 := h4.1
    have hmap : (ws.map (joinWith '\t')).map (fun w => cutDeprel (splitOn1 '\t' w)) = ws.map cutDeprel := by
      rw [List.map_map]
      apply List.map_congr_left
      intro r hr
      simp only [Function.comp, (hgw r hr).split]
    refine ⟨?_, ⟨noSpaces (docText text t), true, ws.map cutDeprel⟩ :: us, ?_, .multi h1 h2 h3 ⟨by simp [hlen], ?_⟩ h7⟩
    · intro r hr
      rcases List.mem_cons.mp hr with rfl | hr
      · exact hgh
      · rcases List.mem_append.mp hr with hr | hr
        · exact hgw r hr
        · exact hg r hr
    · rw [List.map_cons, List.map_append, ← hmap]
      refine .multi hgh.split rfl ?_ (a := natStr (k + 1)) (b := natStr (k + (g.length + 1))) ?_ rfl (hf t (by simp))
        (pyInt_natStr (k + 1)) (pyInt_natStr (k + (g.length + 1))) ?_ ?_ ?_
      · show '.' ∉ natStr (k + 1) ++ '-' :: natStr (k + (g.length + 1))
        simp only [List.mem_append, List.mem_cons, not_or]
        exact ⟨natStr_not_mem (by decide), by decide, natStr_not_mem (by decide)⟩
      · show splitOn1 '-' (natStr (k + 1) ++ '-' :: natStr (k + (g.length + 1))) = _
        rw [splitOn1_append (natStr_not_mem (by decide)), splitOn1_of_not_mem (natStr_not_mem (by decide))]
      · rw [List.length_map, hlen]; push_cast; omega
      · intro w hw
        obtain ⟨r, hr, rfl⟩ := List.mem_map.mp hw
        rw [(hgw r hr).split]
        obtain ⟨i, hi, rfl⟩ := List.mem_iff_getElem.mp hr
        rw [hws i (h4.1 ▸ hi) hi]
        rfl
      · rw [List.length_map, hlen]; exact h6
    · intro i u r hu hr
      rw [List.getElem?_map, Option.map_eq_some_iff] at hr
      obtain ⟨r', hr', rfl⟩ := hr
      obtain ⟨hi, rfl⟩ := List.getElem?_eq_some_iff.1 hu
      obtain ⟨hi', rfl⟩ := List.getElem?_eq_some_iff.1 hr'
      rw [hws i hi hi']
      have := loadedRow_of_row (cols := cols) (text := text) (k := k + i) (t := (t :: g)[i]) (b := false) true
      simpa using this

theorem udSents_blocks {blocks : List (List (List Str))} {sents : List (List UdToken)}
    (hg : ∀ rows ∈ blocks, ∀ r ∈ rows, GoodRow r)
    (h : List.Forall₂ (fun rows us => UdLines 0 (rows.map (joinWith '\t')) us) blocks sents) :
    UdSents (blocks.flatMap blockLines) sents := by
  induction h with
  | nil => exact .nil (by simp)
  | @cons rows us blocks sents h1 _ ih =>
    rw [List.flatMap_cons, blockLines, List.append_assoc, List.singleton_append]
    have := UdSents.cons (cs := []) (body := rows.map (joinWith '\t')) (by simp) (by
      intro l hl
      cases rows with
      | nil => simp at hl
      | cons r rows =>
        simp only [List.map_cons, List.head?_cons, Option.some.injEq] at hl
        subst hl
        exact (hg (r :: rows) (by simp) r (by simp)).not_comment) h1 (ih (fun rows hr => hg rows (by simp [hr])))
    simpa using this

theorem write_blocks {cols : Cols} {docs : List Document} {o out : Str}
    (hb : ∀ d ∈ docs, Built d) (hl : ∀ d ∈ docs, Loadable d)
    (h : forM' (writeDocument cols) o docs = .ok out) :
    ∃ blocks, List.Forall₂ (fun (p : Str × List Token) rows => Block p.1 (IsRow cols p.1) 0 p.2 rows)
      (sentencesOf docs) blocks ∧ out = o ++ blocks.flatMap blockText := by
  induction docs generalizing o with
  | nil => cases h; exact ⟨[], .nil, by simp⟩
  | cons d docs ih =>
    simp only [forM'] at h
    split at h
    · rename_i o1 h1
      obtain ⟨blocks, b1, b2⟩ := writeDocument_blocks (hb d (by simp)) (hl d (by simp)).ends h1
      obtain ⟨blocks', c1, c2⟩ := ih (fun x hx => hb x (by simp [hx])) (fun x hx => hl x (by simp [hx])) h
      refine ⟨blocks ++ blocks', ?_, by simp [c2, b2]⟩
      refine List.rel_append ?_ c1
      rw [List.forall₂_map_left_iff] at b1 ⊢
      exact b1
    · cases h

theorem sentence_token_mem {d : Document} {s : Sentence} {t : Token} (h : t ∈ d.sentenceTokens s) : t ∈ d.tokens :=
  List.mem_of_mem_drop (List.mem_of_mem_take h)

/-- Documents written and loaded again. -/
theorem write_load {columns : Cols} {docs : List Document} {out : Str} {depth : Nat}
    (hb : ∀ d ∈ docs, Built d) (hl : ∀ d ∈ docs, Loadable d)
    (ht : ∀ p ∈ sentencesOf docs, HeadTree (writtenHeads (withHead columns) 0 p.2) ∧
      Shallow depth (writtenHeads (withHead columns) 0 p.2))
    (h : writeToStr columns docs = .ok out) :
    ∃ ud sents, loadConllu depth out = .ok ud ∧ UdOf sents ud ∧
      List.Forall₂ (fun (p : Str × List Token) us => LoadsAs (withHead columns) p.1 0 p.2 us) (sentencesOf docs) sents := by
  obtain ⟨blocks, h1, h2⟩ := write_blocks (o := []) hb hl h
  rw [List.nil_append] at h2
  subst h2
  have hall : List.Forall₂ (fun (p : Str × List Token) rows => (∀ r ∈ rows, GoodRow r) ∧
      ∃ us, UdLines 0 (rows.map (joinWith '\t')) us ∧ LoadsAs (withHead columns) p.1 0 p.2 us) (sentencesOf docs) blocks := by
    have hmem : ∀ p ∈ sentencesOf docs, (∀ t ∈ p.2, TokenPlain p.1 t) ∧ (∀ t ∈ p.2, noSpaces (docText p.1 t) ≠ []) := by
      intro p hp
      obtain ⟨d, hd, hp⟩ := List.mem_flatMap.mp hp
      obtain ⟨s, hs, rfl⟩ := List.mem_map.mp hp
      exact ⟨fun t ht => (hl d hd).plain t (sentence_token_mem ht), fun t ht => (hl d hd).form t (sentence_token_mem ht)⟩
    generalize sentencesOf docs = ps at *
    clear hb hl h
    induction h1 with
    | nil => exact .nil
    | cons a _ ih =>
      refine .cons ?_ (ih (fun p hp => ht p (by simp [hp])) (fun p hp => hmem p (by simp [hp])))
      exact block_loads (hmem _ (by simp)).1 (hmem _ (by simp)).2
        (fun x hx => ((ht _ (by simp)).1.range x hx).1) a
  have hex : ∃ sents : List (List UdToken),
      List.Forall₂ (fun (p : Str × List Token) us => LoadsAs (withHead columns) p.1 0 p.2 us) (sentencesOf docs) sents ∧
      List.Forall₂ (fun rows us => UdLines 0 (rows.map (joinWith '\t')) us) blocks sents ∧
      (∀ rows ∈ blocks, ∀ r ∈ rows, GoodRow r) := by
    clear h h1 hb hl ht
    generalize sentencesOf docs = ps at *
    induction hall with
    | nil => exact ⟨[], .nil, .nil, by simp⟩
    | cons a _ ih =>
      obtain ⟨sents, q1, q2, q3⟩ := ih
      obtain ⟨g, us, a1, a2⟩ := a
      exact ⟨us :: sents, .cons a2 q1, .cons a1 q2, by
        intro rows hr
        rcases List.mem_cons.mp hr with rfl | hr
        · exact g
        · exact q3 rows hr⟩
  obtain ⟨sents, q1, q2, q3⟩ := hex
  have hu := udSents_blocks q3 q2
  rw [← udFileLines_blocks q3] at hu
  have htree : ∀ us ∈ sents, ∃ hs, HeadsOf (rowsOf us) hs ∧ HeadTree hs ∧ Shallow depth hs := by
    intro us hus
    obtain ⟨i, hi, rfl⟩ := List.mem_iff_getElem.mp hus
    rw [List.forall₂_iff_get] at q1
    have hi' : i < (sentencesOf docs).length := q1.1 ▸ hi
    have := q1.2 i hi' hi
    simp only [List.get_eq_getElem] at this
    exact ⟨_, this.heads, ht _ (List.getElem_mem hi')⟩
  have := file_complete (d := depth) hu htree [] {} closed_start
  obtain ⟨ud, e1, e2⟩ := this
  exact ⟨ud, sents, by rw [loadConllu_eq]; exact e1, by simpa using e2, q1⟩

end Verif
