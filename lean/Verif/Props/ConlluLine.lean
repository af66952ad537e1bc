import Verif.Spec.ConlluLine
import Verif.Proofs.Text
import Verif.Proofs.PyLemmas

/-! # Property C80: what the reader takes from a line -/

namespace Verif

theorem bind_ok {α β : Type} {x : Res α} {f : α → Res β} {b : β} (h : (x >>= f) = .ok b) : ∃ a, x = .ok a ∧ f a = .ok b := by
  cases x with
  | error e => cases h
  | ok a => exact ⟨a, rfl, h⟩

theorem splitOn1_mem {sep : Char} {s : Str} : ∀ p ∈ splitOn1 sep s, sep ∉ p := by
  induction s with
  | nil => simp [splitOn1]
  | cons c cs ih =>
    simp only [splitOn1]
    split
    · intro p hp
      rcases List.mem_cons.mp hp with rfl | hp
      · simp
      · exact ih p hp
    · rename_i hc
      split
      · simp [Ne.symm hc]
      · rename_i w ws hw
        rw [hw] at ih
        intro p hp
        rcases List.mem_cons.mp hp with rfl | hp
        · simpa [Ne.symm hc] using ih w (by simp)
        · exact ih p (by simp [hp])

theorem cell_iff {fields : List Str} {c : Nat} {v : Option Str} :
    rowGet (fields.map unshield) c = .ok v ↔ Cell fields c v := by
  unfold rowGet Cell
  rw [List.getElem?_map]
  cases fields[c]? with
  | none => simp
  | some s =>
    simp only [Option.map_some, unshield, underscore, Except.ok.injEq, Option.some.injEq, exists_eq_left']
    constructor
    · rintro rfl
      by_cases h : s = ['_']
      · exact .inl ⟨h, by simp [h]⟩
      · exact .inr ⟨h, by simp [h]⟩
    · rintro (⟨h, rfl⟩ | ⟨h, rfl⟩)
      · exact if_pos h
      · exact if_neg h

theorem selCell_iff {cols : Cols} {fields : List Str} {c : Nat} {v : Option Str} :
    colGet cols (fields.map unshield) c = .ok v ↔ SelCell cols fields c v := by
  unfold colGet SelCell
  by_cases h : c ∈ cols
  · simp [h, cell_iff]
  · simp [h, eq_comm]

theorem Cell.unique {fields : List Str} {c : Nat} {v w : Option Str} (h1 : Cell fields c v) (h2 : Cell fields c w) : v = w := by
  rw [← cell_iff] at h1 h2
  rw [h1] at h2; injection h2

theorem SelCell.unique {cols : Cols} {fields : List Str} {c : Nat} {v w : Option Str} (h1 : SelCell cols fields c v)
    (h2 : SelCell cols fields c w) : v = w := by
  rw [← selCell_iff] at h1 h2
  rw [h1] at h2; injection h2

theorem isAttr_iff {p a b : Str} : parseEntry p = .ok (a, b) ↔ IsAttr p a b := by
  unfold IsAttr
  constructor
  · intro h
    unfold parseEntry at h
    have hj := joinWith_splitOn1 '=' p
    have hm := splitOn1_mem (sep := '=') (s := p)
    cases hs : splitOn1 '=' p with
    | nil => rw [hs] at h; cases h
    | cons x l =>
      cases l with
      | nil => rw [hs] at h; cases h
      | cons y l =>
        rw [hs] at h hj hm
        simp only [Except.ok.injEq, Prod.mk.injEq] at h
        obtain ⟨rfl, rfl⟩ := h
        refine ⟨hm _ (by simp), hm _ (by simp), ?_⟩
        cases l with
        | nil => exact .inl (by rw [← hj]; rfl)
        | cons z l => exact .inr ⟨joinWith '=' (z :: l), by rw [← hj]; rfl⟩
  · rintro ⟨ha, hb, rfl | ⟨r, rfl⟩⟩
    · unfold parseEntry
      rw [splitOn1_append ha, splitOn1_of_not_mem hb]
    · unfold parseEntry
      rw [splitOn1_append ha, splitOn1_append hb]

theorem updateList_get? {K V : Type} [DecidableEq K] (l : List (K × V)) (d : Dict K V) (k : K) :
    (d.updateList l).get? k = ((l.reverse.find? (fun e => e.1 = k)).map Prod.snd).or (d.get? k) := by
  induction l generalizing d with
  | nil => simp [Dict.updateList]
  | cons e l ih =>
    simp only [Dict.updateList, List.foldl_cons] at ih ⊢
    rw [ih, List.reverse_cons, List.find?_append]
    cases List.find? (fun e => decide (e.1 = k)) l.reverse with
    | some x => simp
    | none =>
      rw [Dict.get?_set]
      by_cases h : e.1 = k
      · simp [h]
      · simp [h, Ne.symm h]

theorem attrs_of {f : Option Str} {d : Dict Str Str} (h : parseToDict f = .ok d) : Attrs f d := by
  cases f with
  | none =>
    simp only [parseToDict, Except.ok.injEq] at h
    subst h
    intro k; rfl
  | some f =>
    simp only [parseToDict] at h
    split at h
    · cases h
    · rename_i l hl
      simp only [Except.ok.injEq] at h
      subst h
      refine ⟨splitOn1 '|' f, l, splitOn1_ne_nil _ _, splitOn1_mem, (joinWith_splitOn1 _ _).symm, ?_, ?_⟩
      · rw [mapM'_ok_iff] at hl
        exact hl.imp fun _ _ h => isAttr_iff.1 h
      · intro k
        unfold Dict.ofList
        rw [updateList_get?]
        cases (l.reverse.find? (fun e => e.1 = k)).map Prod.snd <;> rfl

theorem of_attrs {f : Option Str} {d : Dict Str Str} (h : Attrs f d) : ∃ d', parseToDict f = .ok d' := by
  cases f with
  | none => exact ⟨_, rfl⟩
  | some f =>
    obtain ⟨parts, pairs, h1, h2, rfl, h4, _⟩ := h
    simp only [parseToDict]
    rw [splitOn1_joinWith h1 h2, mapM'_ok_iff.2 (h4.imp fun _ _ h => isAttr_iff.2 h)]
    exact ⟨_, rfl⟩

/-- The attributes of a column value are determined. -/
theorem Attrs.unique {f : Option Str} {d d' : Dict Str Str} (h : Attrs f d) (h' : Attrs f d') (k : Str) :
    d.get? k = d'.get? k := by
  cases f with
  | none => rw [h k, h' k]
  | some f =>
    obtain ⟨parts, pairs, h1, h2, h3, h4, h5⟩ := h
    obtain ⟨parts', pairs', h1', h2', h3', h4', h5'⟩ := h'
    have e1 : parts = parts' := by
      rw [← splitOn1_joinWith h1 h2, ← splitOn1_joinWith h1' h2', ← h3, ← h3']
    subst e1
    have e2 := mapM'_ok_iff.2 (h4.imp fun _ _ h => isAttr_iff.2 h)
    have e3 := mapM'_ok_iff.2 (h4'.imp fun _ _ h => isAttr_iff.2 h)
    rw [e2] at e3
    injection e3 with e3
    rw [h5, h5', e3]

theorem parsePos_ok {cols : Cols} {fields : List Str} {q : Option Pos} (h : parsePos cols (fields.map unshield) = .ok q) :
    ((colUPOS ∈ cols ∨ colXPOS ∈ cols ∨ colFEATS ∈ cols) → ∃ (x : Pos) (f : Option Str), q = some x ∧
      SelCell cols fields colUPOS x.upos ∧ SelCell cols fields colXPOS x.xpos ∧ SelCell cols fields colFEATS f ∧ Attrs f x.feats) ∧
    (¬ (colUPOS ∈ cols ∨ colXPOS ∈ cols ∨ colFEATS ∈ cols) → q = none) := by
  unfold parsePos at h
  by_cases hc : colUPOS ∈ cols ∨ colXPOS ∈ cols ∨ colFEATS ∈ cols
  · rw [if_pos hc] at h
    refine ⟨fun _ => ?_, fun hn => absurd hc hn⟩
    obtain ⟨u, hu, h⟩ := bind_ok h
    obtain ⟨x, hx, h⟩ := bind_ok h
    obtain ⟨f, hf, h⟩ := bind_ok h
    obtain ⟨d, hd, h⟩ := bind_ok h
    injection h with h
    exact ⟨⟨u, x, d⟩, f, h.symm, selCell_iff.1 hu, selCell_iff.1 hx, selCell_iff.1 hf, attrs_of hd⟩
  · rw [if_neg hc] at h
    injection h with h
    exact ⟨fun hn => absurd hn hc, fun _ => h.symm⟩

/-- C80: if the reader accepts a line, the line has ten columns and the reader takes from it what the
selected columns say: `_` is a missing value (but a form), FEATS and MISC are lists of attributes. -/
theorem C80_line_content {cols : Cols} {fields : List Str} {p : PTok} (h : parseLine cols fields = .ok p) :
    LineMeans cols fields p := by
  unfold parseLine at h
  obtain ⟨id, h1, h⟩ := bind_ok h
  obtain ⟨form, h2, h⟩ := bind_ok h
  obtain ⟨pos, h3, h⟩ := bind_ok h
  obtain ⟨lem, h4, h⟩ := bind_ok h
  obtain ⟨head, h5, h⟩ := bind_ok h
  obtain ⟨deprel, h6, h⟩ := bind_ok h
  obtain ⟨misc, h7, h⟩ := bind_ok h
  obtain ⟨md, h8, h⟩ := bind_ok h
  obtain ⟨head', h9, h⟩ := bind_ok h
  injection h with h
  subst h
  rw [cell_iff] at h1 h2 h7
  rw [selCell_iff] at h4 h5 h6
  have hp := parsePos_ok h3
  refine ⟨?_, h1, ?_, h4, h6, ⟨head, h5, ?_, ?_⟩, hp.1, hp.2, misc, md, h7, attrs_of h8, by simp⟩
  · obtain ⟨s, hs, _⟩ := h7
    exact (List.getElem?_eq_some_iff.1 hs).1
  · obtain ⟨s, hs, ⟨rfl, rfl⟩ | ⟨_, rfl⟩⟩ := h2
    · exact hs
    · exact hs
  · rintro rfl
    simp only [parseHead, Except.ok.injEq] at h9
    exact h9.symm
  · rintro s rfl
    simp only [parseHead] at h9
    split at h9
    · rename_i i hi
      injection h9 with h9
      exact ⟨i, hi, h9.symm⟩
    · cases h9

/-- C80: the reader accepts every line that has a meaning. -/
theorem C80_accepts {cols : Cols} {fields : List Str} {p : PTok} (h : LineMeans cols fields p) :
    ∃ q, parseLine cols fields = .ok q := by
  obtain ⟨v, e5, hn, hsome⟩ := h.head
  obtain ⟨f, d, e7, e8, _⟩ := h.space
  obtain ⟨md, e8⟩ := of_attrs e8
  have e1 := cell_iff.2 h.id
  obtain ⟨form, e2⟩ : ∃ form, rowGet (fields.map unshield) colFORM = .ok form := by
    unfold rowGet; rw [List.getElem?_map, h.text]; exact ⟨_, rfl⟩
  have e4 := selCell_iff.2 h.lemma'
  have e5 := selCell_iff.2 e5
  have e6 := selCell_iff.2 h.deprel
  have e7 := cell_iff.2 e7
  obtain ⟨pos, e3⟩ : ∃ pos, parsePos cols (fields.map unshield) = .ok pos := by
    unfold parsePos
    by_cases hc : colUPOS ∈ cols ∨ colXPOS ∈ cols ∨ colFEATS ∈ cols
    · obtain ⟨q, f, _, a1, a2, a3, a4⟩ := h.pos hc
      obtain ⟨d, a4⟩ := of_attrs a4
      rw [if_pos hc, selCell_iff.2 a1, selCell_iff.2 a2, selCell_iff.2 a3]
      exact ⟨some ⟨q.upos, q.xpos, d⟩, by simp [bind, Except.bind, a4, pure, Except.pure]⟩
    · rw [if_neg hc]; exact ⟨_, rfl⟩
  obtain ⟨head', e9⟩ : ∃ i, parseHead v = .ok i := by
    cases v with
    | none => exact ⟨_, rfl⟩
    | some s =>
      obtain ⟨i, hi, _⟩ := hsome s rfl
      exact ⟨some i, by simp [parseHead, hi]⟩
  unfold parseLine
  exact ⟨{ id := p.id, text := form.getD underscore, pos, lemma' := p.lemma', head := head', deprel := p.deprel, spaceAfter := (md.get? "SpaceAfter".toList).isNone }, by
    simp [bind, Except.bind, e1, e2, e3, e4, e5, e6, e7, e8, e9, pure, Except.pure]⟩

/-- C80: the meaning of a line is unique up to the order of the features. -/
theorem C80_unique {cols : Cols} {fields : List Str} {p q : PTok} (hp : LineMeans cols fields p)
    (hq : LineMeans cols fields q) : SameLine p q := by
  obtain ⟨v, a1, a2, a3⟩ := hp.head
  obtain ⟨v', b1, b2, b3⟩ := hq.head
  obtain rfl := a1.unique b1
  obtain ⟨f, d, c1, c2, c3⟩ := hp.space
  obtain ⟨f', d', c1', c2', c3'⟩ := hq.space
  obtain rfl := c1.unique c1'
  have hpos : p.pos.map Pos.upos = q.pos.map Pos.upos ∧ p.pos.map Pos.xpos = q.pos.map Pos.xpos ∧
      ∀ k, p.pos.map (fun x => x.feats.get? k) = q.pos.map (fun x => x.feats.get? k) := by
    by_cases hc : colUPOS ∈ cols ∨ colXPOS ∈ cols ∨ colFEATS ∈ cols
    · obtain ⟨x, f, e1, e2, e3, e4, e5⟩ := hp.pos hc
      obtain ⟨x', f', e1', e2', e3', e4', e5'⟩ := hq.pos hc
      obtain rfl := e4.unique e4'
      rw [e1, e1']
      refine ⟨by simp [e2.unique e2'], by simp [e3.unique e3'], fun k => by simp [e5.unique e5' k]⟩
    · rw [hp.noPos hc, hq.noPos hc]; simp
  refine ⟨hp.id.unique hq.id, ?_, hp.lemma'.unique hq.lemma', hp.deprel.unique hq.deprel, ?_, ?_, hpos⟩
  · have := hp.text
    rw [hq.text] at this
    injection this with this
    exact this.symm
  · cases v with
    | none => rw [a2 rfl, b2 rfl]
    | some s =>
      obtain ⟨i, hi, e⟩ := a3 s rfl
      obtain ⟨j, hj, e'⟩ := b3 s rfl
      rw [hi] at hj
      injection hj with hj
      rw [e, e', hj]
  · rw [Bool.eq_iff_iff, c3, c3', c2.unique c2']

/-- A line with repeated and unusual attributes. -/
example : (match parseLine (withHead defaultCols)
      (["3", "_", "_", "X", "_", "a=1|b=2=3|a=4", "2", "dep", "_", "SpaceAfter=Yes"].map String.toList) with
    | .error _ => false
    | .ok p => p.text = "_".toList ∧ p.lemma' = none ∧ p.head = some 2 ∧ p.spaceAfter = false ∧
        p.pos.map (fun q => q.feats.entries) = some [("a".toList, "4".toList), ("b".toList, "2".toList)]) = true := by
  decide +kernel

/-- An attribute without `=` is an error, in MISC even if nothing is selected. -/
example : (parseLine [] (["3", "a", "_", "_", "_", "_", "_", "_", "_", "Typo"].map String.toList)).map PTok.text =
    .error .index := by decide +kernel

end Verif
