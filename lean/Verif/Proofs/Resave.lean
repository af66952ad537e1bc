import Verif.Proofs.FileOracle
import Verif.Props.Conllu3

/-! # Documents that were read from a file can be written and read again -/

namespace Verif

/-! ### Lines of a file -/

theorem itemLines_all {cols : Cols} {Q : PTok → Prop} (hQ : ∀ l p, LineOf cols l p → Q p) {ls : List Str} {its : List Item}
    (h : ItemLines cols ls its) : ∀ it ∈ its, Q it.surface ∧ ∀ p ∈ it.words, Q p := by
  induction h with
  | nil => simp
  | skip _ _ _ _ ih => exact ih
  | word h1 _ _ _ _ _ ih =>
    intro it hit
    rcases List.mem_cons.mp hit with rfl | hit
    · exact ⟨hQ _ _ h1, by simpa [Item.words] using hQ _ _ h1⟩
    · exact ih it hit
  | multi h1 _ _ _ _ _ _ _ _ hw _ ih =>
    intro it hit
    rcases List.mem_cons.mp hit with rfl | hit
    · refine ⟨hQ _ _ h1, ?_⟩
      intro p hpw
      rw [Item.words] at hpw
      obtain ⟨l, _, hl⟩ := forall₂_exists_left hw hpw
      exact hQ _ _ hl
    · exact ih it hit

theorem sentLines_all {cols : Cols} {Q : PTok → Prop} (hQ : ∀ l p, LineOf cols l p → Q p) {ls : List Str}
    {sents : List (List Item)} (h : SentLines cols ls sents) :
    ∀ it ∈ sents.flatten, Q it.surface ∧ ∀ p ∈ it.words, Q p := by
  induction h with
  | nil => simp
  | cons h1 _ _ ih =>
    intro it hit
    rw [List.flatten_cons, List.mem_append] at hit
    rcases hit with hit | hit
    · exact itemLines_all hQ h1 it hit
    · exact ih it hit

theorem SentLines.words_ne {cols : Cols} {ls : List Str} {sents : List (List Item)}
    (h : SentLines cols ls sents) : ∀ it ∈ sents.flatten, it.words ≠ [] := by
  induction h with
  | nil => simp
  | cons h1 _ _ ih =>
    intro it hit
    rw [List.flatten_cons, List.mem_append] at hit
    rcases hit with hit | hit
    · exact h1.words_ne it hit
    · exact ih it hit

theorem stripBy_newline {l : Str} (h : '\n' ∉ l.dropLast) : '\n' ∉ stripBy isEol l := by
  have hd : '\n' ∉ (l.dropWhile isEol).dropLast := by
    intro hc
    apply h
    obtain ⟨a, e⟩ := List.dropWhile_suffix (l := l) isEol
    have hne : l.dropWhile isEol ≠ [] := by rintro e; rw [e] at hc; simp at hc
    rw [← e, List.dropLast_append_of_ne_nil hne]
    exact List.mem_append_right _ hc
  exact rstripEol_newline hd

theorem contentLines_newline {text : Str} : ∀ l ∈ contentLines text, '\n' ∉ l := by
  intro l hl
  obtain ⟨x, hx, rfl⟩ := List.mem_map.mp (List.mem_filter.mp hl).1
  exact stripBy_newline (fileLines_newline x hx)

/-- The values of a line that survive being written. -/
structure LineFine (p : PTok) : Prop where
  lemma' : p.lemma' ≠ some underscore
  deprel : p.deprel ≠ some underscore
  pos : ∃ q, p.pos = some q ∧ q.upos ≠ some underscore ∧ q.xpos ≠ some underscore ∧ ∀ e ∈ q.feats.entries, FeatOk e

theorem selCell_underscore {cols : Cols} {r : List Str} {c : Nat} {v : Option Str} (h : SelCell cols r c v) :
    v ≠ some underscore := by
  rintro rfl
  rcases h with ⟨_, x, _, ⟨_, h⟩ | ⟨h1, h2⟩⟩ | ⟨_, h⟩
  · cases h
  · injection h2 with h2; exact h1 h2.symm
  · cases h

theorem attrs_featOk {f : Option Str} {d : Dict Str Str} (h : Attrs f d) : ∀ e ∈ d.entries, FeatOk e := by
  intro e he
  have hg : d.get? e.1 = some e.2 := (Dict.get?_mem ..).mpr he
  cases f with
  | none => rw [h] at hg; cases hg
  | some f =>
    obtain ⟨parts, pairs, _, h2, h3, h4, h5⟩ := h
    rw [h5, Option.map_eq_some_iff] at hg
    obtain ⟨x, hx, h6⟩ := hg
    have hk := List.find?_some hx
    simp only [decide_eq_true_eq] at hk
    have hm := List.mem_reverse.mp (List.mem_of_find?_eq_some hx)
    obtain ⟨part, hpart, hp⟩ := forall₂_exists_left h4 hm
    obtain ⟨s1, s2⟩ := isAttr_sub hp
    have hb := h2 part hpart
    unfold FeatOk
    rw [← hk, ← h6]
    exact ⟨hp.1, fun hc => hb (s1 _ hc), hp.2.1, fun hc => hb (s2 _ hc)⟩

theorem lineOf_fine {cols : Cols} (hu : colUPOS ∈ cols) {l : Str} {p : PTok} (h : LineOf cols l p) : LineFine p := by
  have hm := C80_line_content h.2
  obtain ⟨q, f, g1, g2, g3, _, g5⟩ := hm.pos (.inl hu)
  exact ⟨selCell_underscore hm.lemma', selCell_underscore hm.deprel, q, g1, selCell_underscore g2, selCell_underscore g3,
    attrs_featOk g5⟩

/-! ### The tokens spell the lines they come from -/

/-- After every surface unit without a space the text goes on, and not with a space. -/
def GoesOn (post : Str) : List Item → Prop
  | [] => True
  | it :: its => (it.surface.spaceAfter = false → ∃ c, (surfaceText its ++ post).head? = some c ∧ isSpace c = false) ∧
      GoesOn post its

theorem goesOn_append {post : Str} {a b : List Item} : GoesOn post (a ++ b) ↔ GoesOn (surfaceText b ++ post) a ∧ GoesOn post b := by
  induction a with
  | nil => simp [GoesOn]
  | cons it a ih =>
    rw [List.cons_append, GoesOn, GoesOn, ih, surfaceText_append, List.append_assoc, and_assoc]

theorem spaceAfter_piece {pre rest : Str} {s : Str} {b : Bool} {t : Token} (ht : t.stop = pre.length + s.length)
    (h : b = false → ∃ c, rest.head? = some c ∧ isSpace c = false) :
    spaceAfter (pre ++ (s ++ spaceIf b ++ rest)) t = b := by
  have hg : (pre ++ (s ++ spaceIf b ++ rest))[t.stop]? = (spaceIf b ++ rest).head? := by
    rw [ht, List.append_assoc, List.getElem?_append_right (by omega), Nat.add_sub_cancel_left,
      List.getElem?_append_right (by omega), Nat.sub_self, List.head?_eq_getElem?]
  unfold spaceAfter
  rw [hg]
  cases b with
  | true =>
    rw [Bool.or_eq_true]
    right
    simp only [spaceIf, if_true, List.singleton_append, List.head?_cons]
    decide
  | false =>
    obtain ⟨c, hc, hs⟩ := h rfl
    cases rest with
    | nil => simp at hc
    | cons x rest =>
      simp only [List.head?_cons, Option.some.injEq] at hc
      subst hc
      simp only [spaceIf, Bool.false_eq_true, if_false, List.nil_append, List.head?_cons, hs, Bool.or_false, beq_eq_false_iff_ne, List.append_nil,
        List.length_append, List.length_cons, ht]
      omega

theorem TokenOf.docText {pre rest s : Str} {b : Bool} {off stop sub : Nat} {repl : Option Str} {p : PTok} {t : Token}
    (h : TokenOf off stop sub repl p t) (hoff : pre.length = off) (hstop : stop = off + s.length) :
    docText (pre ++ (s ++ spaceIf b ++ rest)) t = s := by
  unfold Verif.docText slice
  rw [h.start, h.stop, hstop, ← hoff]
  simp

theorem samePos_refl (p : Option Pos) : Option.Rel SamePos p p := by
  cases p with
  | none => exact .none
  | some p => exact .some ⟨rfl, rfl, fun _ => rfl⟩

theorem head_back (h : Option Int) : h = (h.map (· - 1)).map (· + 1) := by cases h <;> simp

theorem items_spelled {its : List Item} (hw : ∀ it ∈ its, it.words ≠ []) (hs : ∀ it ∈ its, it.surface.text ≠ [])
    {pre post : Str} (hg : GoesOn post its) {off : Nat} (hoff : pre.length = off) {toks : List Token}
    (h : ItemsTokens off its toks) : Spelled (pre ++ (surfaceText its ++ post)) toks its := by
  induction its generalizing pre off toks with
  | nil => cases h; exact .nil
  | cons it its ih =>
    obtain ⟨a, b, rfl, h1, h2⟩ := h
    have hb := ih (fun x hx => hw x (by simp [hx])) (fun x hx => hs x (by simp [hx])) hg.2
      (pre := pre ++ it.piece) (off := off + it.piece.length) (by simp [hoff]) h2
    have etext : pre ++ (surfaceText (it :: its) ++ post) = pre ++ it.piece ++ (surfaceText its ++ post) := by
      rw [surfaceText_cons]; simp
    have etext2 : pre ++ it.piece ++ (surfaceText its ++ post) =
        pre ++ (it.surface.text ++ spaceIf it.surface.spaceAfter ++ (surfaceText its ++ post)) := by
      simp [Item.piece]
    rw [etext]
    cases it with
    | word p =>
      obtain ⟨t, rfl, ht⟩ := h1
      have hrepl : t.isMultiword = false := by simp [Token.isMultiword, ht.repl]
      refine .word hrepl ⟨?_, ht.pos ▸ samePos_refl _, ht.lemma'.symm, ht.deprel.symm, ?_⟩ ?_ hb
      · rw [tokText_of_regular hrepl, etext2]
        exact (ht.docText hoff rfl).symm
      · rw [ht.headSent]; exact head_back _
      · rw [etext2]
        exact (spaceAfter_piece (by rw [ht.stop, hoff]; rfl) hg.1).symm
    | multi hd ws =>
      obtain ⟨hl, ht⟩ := h1
      have hne := hw (.multi hd ws) (by simp)
      rw [Item.words] at hne
      cases a with
      | nil => exact absurd (List.length_eq_zero_iff.mp hl.symm) hne
      | cons t g =>
        have hall : ∀ (i : Nat) (hi : i < (t :: g).length), TokenOf off (off + hd.text.length) i
            (some (ws[i]'(hl ▸ hi)).text) (ws[i]'(hl ▸ hi)) ((t :: g)[i]) := fun i hi =>
          ht i _ _ (List.getElem?_eq_getElem (hl ▸ hi)) (List.getElem?_eq_getElem hi)
        have h0 := hall 0 (by simp)
        simp only [List.getElem_cons_zero] at h0
        refine .multi (by simp [Token.isMultiword, h0.repl]) ?_ ?_ ?_ ?_ ?_ hb
        · intro u hu
          obtain ⟨i, hi, rfl⟩ := List.mem_iff_getElem.mp hu
          have := hall (i + 1) (by simpa using hi)
          simp only [List.getElem_cons_succ] at this
          rw [coincides_iff, h0.start, h0.stop, this.start, this.stop]
          exact ⟨rfl, rfl⟩
        · intro u hu
          have := h2.before.2 u (List.mem_of_head? hu)
          have hlen := List.length_pos_iff.mpr (hs (.multi hd ws) (by simp))
          rw [← Bool.not_eq_true, coincides_iff, h0.start]
          simp only [Item.piece, List.length_append] at this
          omega
        · rw [etext2]
          exact (h0.docText hoff rfl).symm
        · rw [etext2]
          exact (spaceAfter_piece (by rw [h0.stop, hoff]; rfl) hg.1).symm
        · rw [List.forall₂_iff_get]
          refine ⟨hl, fun i hi hi' => ?_⟩
          simp only [List.get_eq_getElem]
          have := hall i hi
          refine ⟨?_, this.pos ▸ samePos_refl _, this.lemma'.symm, this.deprel.symm, ?_⟩
          · unfold tokText; rw [this.repl]; rfl
          · rw [this.headSent]; exact head_back _

/-- All sentences of a document that was read. -/
theorem doc_spelled {c : List (List Item)} {d : Document} (h : DocOf c d) (hw : ∀ it ∈ c.flatten, it.words ≠ [])
    (hs : ∀ it ∈ c.flatten, it.surface.text ≠ []) (hg : GoesOn [] c.flatten) :
    List.Forall₂ (Spelled d.text) (d.sentences.map d.sentenceTokens) c := by
  have key : ∀ (c : List (List Item)) (ss : List Sentence) (pre : Str) (ptoks toks : List Token),
      (∀ it ∈ c.flatten, it.words ≠ []) → (∀ it ∈ c.flatten, it.surface.text ≠ []) → GoesOn [] c.flatten →
      ItemsTokens pre.length c.flatten toks → Bounds ptoks.length c ss →
      List.Forall₂ (Spelled (pre ++ surfaceText c.flatten)) (ss.map fun s => slice (ptoks ++ toks) s.start s.stop) c := by
    intro c
    induction c with
    | nil => intro ss pre ptoks toks _ _ _ _ hb; cases hb; exact .nil
    | cons its c ih =>
      intro ss pre ptoks toks hw hs hg ht hb
      obtain ⟨s, rest, rfl, b1, b2, b3⟩ := hb
      rw [List.flatten_cons] at ht hg hw hs
      obtain ⟨x, y, rfl, hx, hy⟩ := ht.split
      obtain ⟨g1, g2⟩ := goesOn_append.mp hg
      rw [List.flatten_cons, surfaceText_append]
      have h1 := items_spelled (fun it hit => hw it (by simp [hit])) (fun it hit => hs it (by simp [hit])) g1
        (pre := pre) rfl hx
      have h2 := ih rest (pre ++ surfaceText its) (ptoks ++ x) y (fun it hit => hw it (by simp [hit]))
        (fun it hit => hs it (by simp [hit])) g2 (by simpa using hy) (by
          rw [List.length_append, hx.length, ← b2]; exact b3)
      rw [List.map_cons]
      refine .cons ?_ ?_
      · rw [b1, b2, ← hx.length, slice_mid]
        simpa using h1
      · simpa [List.append_assoc] using h2
  have := key c d.sentences [] [] d.tokens hw hs hg h.tokens h.bounds
  rw [h.text]
  exact this

/-! ### The rows are determined by the lines they say -/

theorem featsField_congr {d e : Dict Str Str} (h : SameMap d e) : featsField d = featsField e := by
  have hp : d.entries.Perm e.entries := Dict.pyEq_perm.mp (Dict.pyEq_iff.mpr h)
  unfold featsField
  have h1 : d.entries.isEmpty = e.entries.isEmpty := by
    rw [Bool.eq_iff_iff, List.isEmpty_iff, List.isEmpty_iff, ← List.length_eq_zero_iff, ← List.length_eq_zero_iff,
      hp.length_eq]
  rw [h1, pySorted_eq_of_perm (· ≤ ·) (fun a b => le_total a b) (fun a b c => le_trans) (fun a b _ _ => le_antisymm)
    (hp.map featStr)]

theorem optPos_congr {a b c : Option Pos} (h1 : Option.Rel SamePos a c) (h2 : Option.Rel SamePos b c) :
    Option.Rel SamePos a b := by
  cases h1 with
  | none => cases h2; exact .none
  | some h1 =>
    cases h2 with
    | some h2 => exact .some ⟨h1.1.trans h2.1.symm, h1.2.1.trans h2.2.1.symm, fun k => (h1.2.2 k).trans (h2.2.2 k).symm⟩

theorem rowFields_congr {cols : Cols} {text text' : Str} {k : Nat} {t t' : Token} {p : PTok} {b : Bool}
    (h : LineSays text t p) (h' : LineSays text' t' p) (hs : b = true → spaceAfter text t = spaceAfter text' t') :
    rowFields cols text k t b = rowFields cols text' k t' b := by
  have hh : t.headSent = t'.headSent := by
    have := h.head.symm.trans h'.head
    cases ha : t.headSent <;> cases hb : t'.headSent <;> simp_all
  have hsp : (b && !spaceAfter text t) = (b && !spaceAfter text' t') := by
    cases b with
    | false => rfl
    | true => rw [hs rfl]
  have hp := optPos_congr h.pos h'.pos
  unfold rowFields
  rw [← h.text, h'.text, ← h.lemma', h'.lemma', ← h.deprel, h'.deprel, hh, hsp]
  generalize t.pos = x at hp
  generalize t'.pos = y at hp
  cases hp with
  | none => rfl
  | some hp =>
    simp only [hp.1, hp.2.1, featsField_congr hp.2.2]

theorem wordRows_congr {cols : Cols} {text text' : Str} {k : Nat} {toks toks' : List Token} {ps : List PTok}
    {rows rows' : List (List Str)} (h : List.Forall₂ (LineSays text) toks ps) (h' : List.Forall₂ (LineSays text') toks' ps)
    (hr : WordRows (IsRow cols text) k toks rows) (hr' : WordRows (IsRow cols text') k toks' rows') : rows = rows' := by
  have l1 := h.length_eq
  have l2 := h'.length_eq
  apply List.ext_getElem
  · rw [hr.1, hr'.1, l1, l2]
  · intro i hi hi'
    have a1 : i < toks.length := hr.1 ▸ hi
    have a2 : i < toks'.length := hr'.1 ▸ hi'
    have e1 := (isRow_iff.mp (hr.2 i _ _ (List.getElem?_eq_getElem a1) (List.getElem?_eq_getElem hi))).2
    have e2 := (isRow_iff.mp (hr'.2 i _ _ (List.getElem?_eq_getElem a2) (List.getElem?_eq_getElem hi'))).2
    have b1 := (List.forall₂_iff_get.mp h).2 i a1 (by omega)
    have b2 := (List.forall₂_iff_get.mp h').2 i a2 (by omega)
    simp only [List.get_eq_getElem] at b1 b2
    rw [e1, e2]
    exact rowFields_congr b1 b2 (by simp)

theorem group_split {α : Type} {p : α → Bool} {g g' r r' : List α} (h : g ++ r = g' ++ r') (hg : ∀ u ∈ g, p u = true)
    (hg' : ∀ u ∈ g', p u = true) (hr : ∀ u, r.head? = some u → p u = false) (hr' : ∀ u, r'.head? = some u → p u = false) :
    g = g' ∧ r = r' := by
  have key : ∀ {g r : List α}, (∀ u ∈ g, p u = true) → (∀ u, r.head? = some u → p u = false) →
      (g ++ r).takeWhile p = g := by
    intro g r h1 h2
    rw [List.takeWhile_append_of_pos h1]
    cases r with
    | nil => simp
    | cons x r => rw [List.takeWhile_cons_of_neg (by rw [h2 x rfl]; simp)]; simp
  have e : g = g' := by rw [← key hg hr, h, key hg' hr']
  subst e
  exact ⟨rfl, List.append_cancel_left h⟩

theorem block_head {text : Str} {P : Nat → Token → Bool → List Str → Prop} {k : Nat} {l : List Token} {rows : List (List Str)}
    (h : Block text P k l rows) : (l = [] ∧ rows = []) ∨
    (∃ t toks r rs, l = t :: toks ∧ rows = r :: rs ∧ t.isMultiword = false ∧ P k t true r ∧ Block text P (k + 1) toks rs) ∨
    ∃ t g toks ws rs, l = t :: (g ++ toks) ∧ rows = headerRow text k (g.length + 1) t :: (ws ++ rs) ∧
      t.isMultiword = true ∧ (∀ u ∈ g, t.coincides u = true) ∧ (∀ u, toks.head? = some u → t.coincides u = false) ∧
      WordRows P k (t :: g) ws ∧ Block text P (k + (g.length + 1)) toks rs := by
  cases h with
  | nil => exact .inl ⟨rfl, rfl⟩
  | word h1 h2 h3 => exact .inr (.inl ⟨_, _, _, _, rfl, rfl, h1, h2, h3⟩)
  | multi h1 h2 h3 h4 h5 => exact .inr (.inr ⟨_, _, _, _, _, rfl, rfl, h1, h2, h3, h4, h5⟩)

theorem block_word {text : Str} {P : Nat → Token → Bool → List Str → Prop} {k : Nat} {t : Token} {toks : List Token}
    {rows : List (List Str)} (h : Block text P k (t :: toks) rows) (hm : t.isMultiword = false) :
    ∃ r rs, rows = r :: rs ∧ P k t true r ∧ Block text P (k + 1) toks rs := by
  rcases block_head h with ⟨e, _⟩ | ⟨t', toks', r, rs, e, e2, _, h2, h3⟩ | ⟨t', g', toks', ws, rs, e, _, h1, _⟩
  · cases e
  · injection e with e1 e3
    subst e1 e3
    exact ⟨r, rs, e2, h2, h3⟩
  · injection e with e1 _
    subst e1
    rw [hm] at h1; cases h1

theorem block_multi {text : Str} {P : Nat → Token → Bool → List Str → Prop} {k : Nat} {t : Token} {g toks : List Token}
    {rows : List (List Str)} (h : Block text P k (t :: (g ++ toks)) rows) (hm : t.isMultiword = true)
    (hg : ∀ u ∈ g, t.coincides u = true) (hn : ∀ u, toks.head? = some u → t.coincides u = false) :
    ∃ ws rs, rows = headerRow text k (g.length + 1) t :: (ws ++ rs) ∧ WordRows P k (t :: g) ws ∧
      Block text P (k + (g.length + 1)) toks rs := by
  rcases block_head h with ⟨e, _⟩ | ⟨t', toks', r, rs, e, e2, h1, _⟩ | ⟨t', g', toks', ws, rs, e, e2, _, h2, h3, h4, h5⟩
  · cases e
  · injection e with e1 _
    subst e1
    rw [hm] at h1; cases h1
  · injection e with e1 e3
    subst e1
    obtain ⟨e4, e5⟩ := group_split (p := t.coincides) e3 hg h2 hn h3
    subst e4 e5
    exact ⟨ws, rs, e2, h4, h5⟩

theorem spelled_rows {cols : Cols} {text text' : Str} {toks : List Token} {its : List Item} (h : Spelled text toks its) :
    ∀ {toks' : List Token} {k : Nat} {rows rows' : List (List Str)}, Spelled text' toks' its →
      Block text (IsRow cols text) k toks rows → Block text' (IsRow cols text') k toks' rows' → rows = rows' := by
  induction h with
  | nil =>
    intro toks' k rows rows' h' hb hb'
    cases h'
    cases hb
    cases hb'
    rfl
  | @word t p toks its h1 h2 h3 _ ih =>
    intro toks' k rows rows' h' hb hb'
    cases h' with
    | @word t' _ toks' _ g1 g2 g3 g4 =>
      obtain ⟨r, rs, rfl, b1, b2⟩ := block_word hb h1
      obtain ⟨r', rs', rfl, b1', b2'⟩ := block_word hb' g1
      rw [ih g4 b2 b2', (isRow_iff.mp b1).2, (isRow_iff.mp b1').2, rowFields_congr h2 g2 (fun _ => h3.symm.trans g3)]
  | @multi t g toks hd ws its h1 h2 h3 h4 h5 h6 _ ih =>
    intro toks' k rows rows' h' hb hb'
    cases h' with
    | @multi t' g' toks' _ _ _ g1 g2 g3 g4 g5 g6 g7 =>
      obtain ⟨vs, rs, rfl, b1, b2⟩ := block_multi hb h1 h2 h3
      obtain ⟨vs', rs', rfl, b1', b2'⟩ := block_multi hb' g1 g2 g3
      have hl : g.length = g'.length := by
        have a := h6.length_eq
        have b := g6.length_eq
        simp only [List.length_cons] at a b
        omega
      rw [← hl] at b2'
      rw [ih g7 b2 b2', wordRows_congr h6 g6 b1 b1']
      congr 1
      unfold headerRow
      rw [hl, ← h4, ← g4, ← h5, ← g5]

/-- Two documents spelled by the same lines are written alike. -/
theorem spelled_written {cols : Cols} {text text' : Str} {ss ss' : List (List Token)} {c : List (List Item)}
    {blocks blocks' : List (List (List Str))} (h : List.Forall₂ (Spelled text) ss c) (h' : List.Forall₂ (Spelled text') ss' c)
    (hb : List.Forall₂ (Block text (IsRow cols text) 0) ss blocks)
    (hb' : List.Forall₂ (Block text' (IsRow cols text') 0) ss' blocks') : blocks = blocks' := by
  induction h generalizing ss' blocks blocks' with
  | nil => cases h'; cases hb; cases hb'; rfl
  | cons h1 _ ih =>
    cases h' with
    | cons h1' h2' =>
      cases hb with
      | cons b1 b2 =>
        cases hb' with
        | cons b1' b2' => rw [ih h2' b2 b2', spelled_rows h1 h1' b1 b1']

end Verif
