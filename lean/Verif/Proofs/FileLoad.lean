import Verif.Spec.FileScore
import Verif.Props.ConlluLine
import Verif.Proofs.Score

/-! # One file, read as documents and loaded for evaluation -/

namespace Verif

/-! ### Lines -/

theorem fileLines_shape {text : Str} (hr : '\r' ∉ text) :
    ∀ l ∈ fileLines text, l = ['\n'] ∨ ∃ c cs, l = c :: cs ∧ isEol c = false := by
  induction text with
  | nil => simp [fileLines]
  | cons c cs ih =>
    have hc : c ≠ '\r' := fun e => hr (by simp [e])
    have ih := ih (fun h => hr (by simp [h]))
    intro l hl
    rw [fileLines] at hl
    split at hl
    · rcases List.mem_cons.mp hl with rfl | hl
      · exact .inl rfl
      · exact ih l hl
    · rename_i hn
      have he : isEol c = false := by simp [isEol, hc, hn]
      split at hl
      · rw [List.mem_singleton.mp hl]; exact .inr ⟨_, _, rfl, he⟩
      · rename_i w ws e
        rcases List.mem_cons.mp hl with rfl | hl
        · exact .inr ⟨_, _, rfl, he⟩
        · exact ih l (by rw [e]; simp [hl])

theorem contentLines_eq {text : Str} (hr : '\r' ∉ text) :
    contentLines text = (udFileLines text).filter fun l => l.head? != some '#' := by
  unfold contentLines udFileLines
  congr 1
  apply List.map_congr_left
  intro l hl
  rcases fileLines_shape hr l hl with rfl | ⟨c, cs, rfl, hc⟩
  · rfl
  · unfold stripBy rstripEol
    rw [List.dropWhile_cons_of_neg (by simp [hc])]

/-- `r` is the row that is loaded for a line with the content `p`. -/
def RowFor (cols : Cols) (m : Bool) (p : PTok) (r : List Str) : Prop :=
  ∃ r0, parseLine cols r0 = .ok p ∧ r0.length = 10 ∧ r = cutDeprel (if m then r0 else withForm r0 (noSpaces p.text))

/-- The token `u` is loaded for the surface unit. -/
def ItemAs (cols : Cols) : Item → UdToken → Prop
  | .word p, u => ∃ r, u = ⟨noSpaces p.text, false, [r]⟩ ∧ RowFor cols false p r
  | .multi h ws, u => ∃ rs, u = ⟨noSpaces h.text, true, rs⟩ ∧ List.Forall₂ (RowFor cols true) ws rs

theorem colOf_eq {r : List Str} {c : Nat} {s : Str} (h : r[c]? = some s) : colOf r c = s := by
  unfold colOf; rw [List.getD_eq_getElem?_getD, h]; rfl

theorem parse_id {cols : Cols} {r : List Str} {p : PTok} {id : Str} (h : parseLine cols r = .ok p)
    (hid : p.id = some id) : colOf r colID = id := by
  obtain ⟨s, h1, h2 | h2⟩ := (C80_line_content h).id
  · rw [h2.2] at hid; cases hid
  · rw [h2.2] at hid; injection hid with hid; subst hid
    exact colOf_eq h1

theorem parse_text {cols : Cols} {r : List Str} {p : PTok} (h : parseLine cols r = .ok p) :
    colOf r colFORM = p.text := colOf_eq (C80_line_content h).text

theorem items_of_lines {cols : Cols} {k : Nat} {ls : List Str} {us : List UdToken} (h : UdLines k ls us) :
    ∀ {its : List Item}, ItemLines cols ls its → List.Forall₂ (ItemAs cols) its us := by
  induction h with
  | nil k => intro its hi; cases hi; exact .nil
  | skip e hl hd _ ih =>
    subst e
    intro its hi
    generalize hg : _ :: _ = gl at hi
    cases hi with
    | nil => cases hg
    | skip q1 q2 q3 q4 => injection hg with g1 g2; subst g1 g2; exact ih q4
    | word q1 q2 q3 q4 q5 q6 =>
      injection hg with g1 g2; subst g1 g2
      rw [parse_id q1.2 q2] at hd; exact absurd hd q3
    | multi q1 q2 q3 q4 q5 q6 q7 q8 q9 q10 q11 =>
      injection hg with g1 g2; subst g1
      rw [parse_id q1.2 q2] at hd; exact absurd hd q3
  | word e hl hd hm hf hne hid hh h0 _ ih =>
    subst e
    intro its hi
    generalize hg : _ :: _ = gl at hi
    cases hi with
    | nil => cases hg
    | skip q1 q2 q3 q4 =>
      injection hg with g1 g2; subst g1
      rw [parse_id q1.2 q2] at hd; exact absurd q3 hd
    | word q1 q2 q3 q4 q5 q6 =>
      injection hg with g1 g2; subst g1 g2
      rw [parse_text q1.2] at hf
      subst hf
      exact .cons ⟨_, rfl, _, q1.2, hl, rfl⟩ (ih q6)
    | multi q1 q2 q3 q4 q5 q6 q7 q8 q9 q10 q11 =>
      injection hg with g1 g2; subst g1
      rw [parse_id q1.2 q2] at hm; exact absurd (dash_of_split q4) hm
  | multi e hl hd hs hf hne ha hb hlen hw _ ih =>
    subst e
    intro its hi
    generalize hg : _ :: _ = gl at hi
    cases hi with
    | nil => cases hg
    | skip q1 q2 q3 q4 =>
      injection hg with g1 g2; subst g1
      rw [parse_id q1.2 q2] at hd; exact absurd q3 hd
    | word q1 q2 q3 q4 q5 q6 =>
      injection hg with g1 g2; subst g1
      rw [parse_id q1.2 q2] at hs; exact absurd (dash_of_split hs) q4
    | multi q1 q2 q3 q4 q5 q6 q7 q8 q9 q10 q11 =>
      injection hg with g1 g2; subst g1
      rw [parse_id q1.2 q2, q4] at hs
      injection hs with s1 s2
      injection s2 with s2 _
      subst s1 s2
      rw [q5] at ha; rw [q6] at hb
      injection ha with ha; injection hb with hb
      subst ha hb
      have hll := q10.length_eq
      obtain ⟨e1, e2⟩ := List.append_inj g2 (by omega)
      subst e1 e2
      rw [parse_text q1.2] at hf
      subst hf
      refine .cons ⟨_, rfl, ?_⟩ (ih q11)
      rw [List.forall₂_map_right_iff]
      refine (List.Forall₂.flip ?_)
      rw [List.forall₂_iff_get] at q10 ⊢
      refine ⟨q10.1, fun i h1 h2 => ?_⟩
      exact ⟨_, (q10.2 i h1 h2).2, hw _ (List.get_mem _ _), rfl⟩

theorem udLines_cols {k : Nat} {ls : List Str} {us : List UdToken} (h : UdLines k ls us) :
    ∀ l ∈ ls, (splitOn1 '\t' l).length = 10 := by
  induction h with
  | nil => simp
  | skip e hl _ _ ih => subst e; simpa using ⟨hl, ih⟩
  | word e hl _ _ _ _ _ _ _ _ ih => subst e; simpa using ⟨hl, ih⟩
  | multi e hl _ _ _ _ _ _ _ hw _ ih =>
    subst e
    intro l h
    rcases List.mem_cons.mp h with rfl | h
    · exact hl
    · rcases List.mem_append.mp h with h | h
      · exact hw l h
      · exact ih l h

theorem itemLines_ne {cols : Cols} {ls : List Str} {its : List Item} (h : ItemLines cols ls its) : [] ∉ ls := by
  induction h with
  | nil => simp
  | skip h1 _ _ _ ih => simpa using ⟨fun e => h1.1 e, ih⟩
  | word h1 _ _ _ _ _ ih => simpa using ⟨fun e => h1.1 e, ih⟩
  | multi h1 _ _ _ _ _ _ _ _ hw _ ih =>
    simp only [List.mem_cons, List.mem_append, not_or]
    refine ⟨fun e => h1.1 e.symm, ?_, ih⟩
    intro hm
    obtain ⟨i, hi, e⟩ := List.getElem_of_mem hm
    rw [List.forall₂_iff_get] at hw
    exact (hw.2 i hi (hw.1 ▸ hi)).1 e

theorem split_at_blank {α : Type} {x : α} : ∀ {a b c d : List α}, x ∉ a → x ∉ c → a ++ x :: b = c ++ x :: d → a = c ∧ b = d
  | [], _, [], _, _, _, h => by injection h with _ h; exact ⟨rfl, h⟩
  | [], _, y :: c, _, _, h2, h => by injection h with h _; exact absurd (by simp [h]) h2
  | y :: a, _, [], _, h1, _, h => by injection h with h _; exact absurd (by simp [h]) h1
  | y :: a, _, z :: c, _, h1, h2, h => by
    injection h with h h'
    have := split_at_blank (fun e => h1 (by simp [e])) (fun e => h2 (by simp [e])) h'
    exact ⟨by rw [h, this.1], this.2⟩

theorem items_of_sents {cols : Cols} {ls : List Str} {sents : List (List UdToken)} (h : UdSents ls sents)
    (hc : ∀ l ∈ ls, l.head? = some '#' → (splitOn1 '\t' l).length ≠ 10) :
    ∀ {items : List (List Item)}, SentLines cols (ls.filter fun l => l.head? != some '#') items →
      List.Forall₂ (List.Forall₂ (ItemAs cols)) items sents := by
  induction h with
  | nil hcs =>
    rename_i cs
    intro items hi
    rw [List.filter_eq_nil_iff.mpr (fun l hl => by simp [hcs l hl])] at hi
    generalize hg : ([] : List Str) = gl at hi
    cases hi with
    | nil _ => exact .nil
    | cons => simp at hg
  | cons hcs _ hb _ ih =>
    rename_i cs body rest us sents _ _
    intro items hi
    have e1 : cs.filter (fun l : Str => l.head? != some '#') = [] :=
      List.filter_eq_nil_iff.mpr (fun l hl => by simp [hcs l hl])
    have hcols := udLines_cols hb
    have e2 : body.filter (fun l : Str => l.head? != some '#') = body := by
      rw [List.filter_eq_self]
      intro l hl
      have := hcols l hl
      simp only [bne_iff_ne, ne_eq]
      intro h1
      exact hc l (by simp [hl]) h1 this
    have hnb : ([] : Str) ∉ body := fun h => by have := hcols [] h; simp [splitOn1] at this
    rw [List.filter_append, List.filter_append, e1, e2, List.nil_append, List.filter_cons_of_pos (by simp)] at hi
    generalize hg : body ++ [] :: _ = gl at hi
    cases hi with
    | nil h1 =>
      subst hg
      exact absurd (by simp) (itemLines_ne h1)
    | cons h1 h2 h3 =>
      obtain ⟨a, b⟩ := split_at_blank hnb (itemLines_ne h1) hg
      subst a
      rw [← b] at h3
      exact .cons (items_of_lines hb h1) (ih (fun l hl => hc l (by simp [hl])) h3)

/-! ### Rows -/

theorem colOf_cut_ne {r : List Str} {c : Nat} (h : c ≠ colDEPREL) : colOf (cutDeprel r) c = colOf r c := by
  unfold colOf cutDeprel
  rw [List.getD_eq_getElem?_getD, List.getD_eq_getElem?_getD, List.getElem?_modify]
  simp only [if_neg (Ne.symm h)]
  cases r[c]? <;> rfl

theorem colOf_cut (r : List Str) : colOf (cutDeprel r) colDEPREL = (colOf r colDEPREL).takeWhile (· ≠ ':') := by
  unfold colOf cutDeprel
  rw [List.getD_eq_getElem?_getD, List.getD_eq_getElem?_getD, List.getElem?_modify]
  cases r[colDEPREL]? <;> simp

theorem colOf_withForm_ne {r : List Str} {f : Str} {c : Nat} (h : c ≠ colFORM) : colOf (withForm r f) c = colOf r c := by
  unfold colOf withForm
  rw [List.getD_eq_getElem?_getD, List.getD_eq_getElem?_getD, List.getElem?_set_ne (Ne.symm h)]

theorem colOf_withForm {r : List Str} {f : Str} (h : r.length = 10) : colOf (withForm r f) colFORM = f := by
  unfold colOf withForm
  rw [List.getD_eq_getElem?_getD, List.getElem?_set_self (by rw [h]; decide)]
  rfl

theorem cell_colOf {r : List Str} {c : Nat} {v : Option Str} (h : Cell r c v) : colOf r c = v.getD underscore := by
  obtain ⟨s, h1, ⟨rfl, rfl⟩ | ⟨_, rfl⟩⟩ := h
  · exact colOf_eq h1
  · exact colOf_eq h1

theorem selCell_mem {cols : Cols} {r : List Str} {c : Nat} {v : Option Str} (hc : c ∈ cols) (h : SelCell cols r c v) :
    Cell r c v := by
  rcases h with h | h
  · exact h.2
  · exact absurd hc h.1

theorem rowFor_col {cols : Cols} {m : Bool} {p : PTok} {r r0 : List Str} {c : Nat} (h1 : c ≠ colDEPREL) (h2 : c ≠ colFORM)
    (e : r = cutDeprel (if m then r0 else withForm r0 (noSpaces p.text))) : colOf r c = colOf r0 c := by
  rw [e, colOf_cut_ne h1]
  cases m
  · exact colOf_withForm_ne h2
  · rfl

theorem rowFor_get {m : Bool} {f : Str} {r r0 : List Str} {c : Nat} (h1 : c ≠ colDEPREL) (h2 : c ≠ colFORM)
    (e : r = cutDeprel (if m then r0 else withForm r0 f)) : r[c]? = r0[c]? := by
  rw [e]
  unfold cutDeprel
  rw [List.getElem?_modify]
  simp only [if_neg (Ne.symm h1)]
  cases m
  · simp only [Bool.false_eq_true, if_false, withForm, List.getElem?_set_ne (Ne.symm h2)]
    cases r0[c]? <;> rfl
  · simp only [if_true]
    cases r0[c]? <;> rfl

theorem fileRow_of {text : Str} {m : Bool} {k : Nat} {p : PTok} {t : Token} {r : List Str}
    {a b sub : Nat} {repl : Option Str} (h : RowFor (withHead defaultCols) m p r) (ht : TokenOf a b sub repl p t)
    (htext : tokText text t = p.text) (hh : ∃ h, pyInt (colOf r colHEAD) = .ok h) : FileRow text m k t r := by
  obtain ⟨r0, h1, h2, e⟩ := h
  have hm := C80_line_content h1
  obtain ⟨q, f, g1, g2, g3, g4, g5⟩ := hm.pos (.inl (by decide))
  have hform : colOf r0 colFORM = p.text := colOf_eq hm.text
  have hpos : t.pos = some q := ht.pos.trans g1
  refine ⟨?_, ?_, ?_, ?_, ?_, ⟨q, f, hpos, ?_, g5⟩, ?_, ?_⟩
  · rw [e, cutDeprel, List.length_modify]
    cases m
    · simp [withForm, h2]
    · simpa using h2
  · rw [htext, e, colOf_cut_ne (by decide)]
    cases m
    · exact colOf_withForm h2
    · exact hform
  · rw [rowFor_col (cols := []) (by decide) (by decide) e, ht.lemma']
    exact cell_colOf (selCell_mem (by decide) hm.lemma')
  · rw [rowFor_col (cols := []) (by decide) (by decide) e, hpos]
    exact cell_colOf (selCell_mem (by decide) g2)
  · rw [rowFor_col (cols := []) (by decide) (by decide) e, hpos]
    exact cell_colOf (selCell_mem (by decide) g3)
  · obtain ⟨s, s1, s2⟩ := selCell_mem (by decide) g4
    exact ⟨s, by rw [rowFor_get (by decide) (by decide) e]; exact s1, s2⟩
  · obtain ⟨i, hi⟩ := hh
    refine ⟨i, hi, ?_⟩
    rw [rowFor_col (cols := []) (by decide) (by decide) e] at hi
    obtain ⟨v, v1, v2, v3⟩ := hm.head
    have hc := cell_colOf (selCell_mem (by decide) v1)
    cases v with
    | none =>
      rw [hc] at hi
      have : pyInt underscore = .error .value := by rfl
      rw [Option.getD_none, this] at hi
      cases hi
    | some s =>
      obtain ⟨j, j1, j2⟩ := v3 s rfl
      rw [hc] at hi
      simp only [Option.getD_some] at hi
      rw [j1] at hi
      injection hi with hi
      rw [ht.headSent, j2, ← hi]; rfl
  · rw [e, colOf_cut]
    have : colOf (if m then r0 else withForm r0 (noSpaces p.text)) colDEPREL = colOf r0 colDEPREL := by
      cases m
      · exact colOf_withForm_ne (by decide)
      · rfl
    rw [this, ht.deprel, cell_colOf (selCell_mem (by decide) hm.deprel)]

/-! ### Tokens -/

theorem tokensAs_of_items {text post : Str} {its : List Item} {us : List UdToken}
    (h : List.Forall₂ (ItemAs (withHead defaultCols)) its us) : ∀ {pre : Str} {toks : List Token} {k : Nat},
    text = pre ++ (surfaceText its ++ post) → ItemsTokens pre.length its toks →
    (∀ it ∈ its, it.surface.text ≠ [] ∧ it.words ≠ []) →
    (∀ r ∈ rowsOf us, ∃ h, pyInt (colOf r colHEAD) = .ok h) → TokensAs (FileRow text) text k toks us := by
  induction h with
  | nil =>
    intro pre toks k _ ht _ _
    cases ht
    exact .nil k
  | @cons it u its us hu _ ih =>
    intro pre toks k htext ht hne hh
    obtain ⟨a, b, rfl, h1, h2⟩ := ht
    rw [surfaceText_cons, Item.piece] at htext
    have hslice : ∀ t : Token, t.start = pre.length → t.stop = pre.length + it.surface.text.length →
        docText text t = it.surface.text := by
      intro t t1 t2
      unfold docText
      rw [t1, t2, htext]
      simp only [List.append_assoc]
      exact slice_mid _ _ _
    have hrest : ∀ k, TokensAs (FileRow text) text k b us := by
      intro k
      refine ih (pre := pre ++ it.piece) ?_ ?_ (fun x hx => hne x (by simp [hx])) (fun r hr => hh r ?_)
      · rw [htext]; simp [Item.piece]
      · rw [List.length_append]; exact h2
      · rw [rowsOf, List.flatMap_cons]; exact List.mem_append_right _ hr
    have hb : ∀ v, b.head? = some v → pre.length + it.piece.length ≤ v.start := by
      intro v hv
      clear hrest ih hh hu
      cases its with
      | nil => cases h2; cases hv
      | cons it2 its =>
        obtain ⟨c, d, rfl, c1, c2⟩ := h2
        cases it2 with
        | word p =>
          obtain ⟨x, rfl, hx⟩ := c1
          simp at hv; subst hv
          rw [hx.start]
        | multi hd ws =>
          have hw := (hne _ (List.mem_cons_of_mem _ List.mem_cons_self)).2
          simp only [Item.words] at hw
          cases ws with
          | nil => exact absurd rfl hw
          | cons w ws =>
            cases c with
            | nil => have := c1.1; simp at this
            | cons x c =>
              simp at hv; subst hv
              have := c1.2 0 w x rfl rfl
              rw [this.start]
    have hlt : it.piece.length ≥ it.surface.text.length ∧ 0 < it.surface.text.length :=
      ⟨by simp [Item.piece], List.length_pos_iff.mpr (hne it (by simp)).1⟩
    cases it with
    | word p =>
      obtain ⟨t, rfl, ht⟩ := h1
      obtain ⟨r, rfl, hr⟩ := hu
      have hd := hslice t ht.start ht.stop
      have hm : t.isMultiword = false := by unfold Token.isMultiword; rw [ht.repl]; rfl
      have htt : tokText text t = p.text := by unfold tokText; rw [ht.repl, hd]; rfl
      have := TokensAs.word (R := FileRow text) (text := text) (k := k) (t := t) (toks := b) (r := r) (us := us) hm
        (fileRow_of hr ht htt (hh r (by simp [rowsOf]))) (hrest _)
      rw [hd] at this
      exact this
    | multi hd ws =>
      obtain ⟨rs, rfl, hr⟩ := hu
      have hw := (hne _ List.mem_cons_self).2
      simp only [Item.words] at hw
      obtain ⟨l1, l2⟩ := h1
      cases ws with
      | nil => exact absurd rfl hw
      | cons w ws =>
        cases a with
        | nil => simp at l1
        | cons t g =>
          have h0 := l2 0 w t rfl rfl
          have hd0 := hslice t h0.start h0.stop
          have hspan : ∀ v ∈ t :: g, v.start = pre.length ∧ v.stop = pre.length + hd.text.length := by
            intro v hv
            obtain ⟨i, hi, e⟩ := List.getElem_of_mem hv
            have hi' : i < (w :: ws).length := l1 ▸ hi
            have := l2 i _ v (List.getElem?_eq_getElem hi') (by rw [List.getElem?_eq_getElem hi, e])
            exact ⟨this.start, this.stop⟩
          have := TokensAs.multi (R := FileRow text) (text := text) (k := k) (t := t) (g := g) (toks := b) (rs := rs) (us := us)
            (by unfold Token.isMultiword; rw [h0.repl]; rfl)
            (by
              intro v hv
              have := hspan v (by simp [hv])
              unfold Token.coincides
              rw [this.1, this.2, h0.start, h0.stop]
              simp)
            (by
              intro v hv
              have := hb v hv
              unfold Token.coincides
              rw [h0.start]
              have : (pre.length == v.start) = false := by rw [beq_eq_false_iff_ne]; omega
              rw [this]; rfl)
            (by
              refine ⟨by rw [← hr.length_eq, l1], ?_⟩
              intro i v r hv hr'
              obtain ⟨hi, e⟩ := List.getElem?_eq_some_iff.mp hv
              have hi' : i < (w :: ws).length := l1 ▸ hi
              obtain ⟨hi2, e2⟩ := List.getElem?_eq_some_iff.mp hr'
              have hof := l2 i _ v (List.getElem?_eq_getElem hi') hv
              have hrow := (List.forall₂_iff_get.mp hr).2 i hi' hi2
              simp only [List.get_eq_getElem] at hrow
              rw [e2] at hrow
              refine fileRow_of hrow hof ?_ (hh r ?_)
              · unfold tokText; rw [hof.repl]; rfl
              · rw [rowsOf, List.flatMap_cons]
                exact List.mem_append_left _ (List.mem_of_getElem? hr'))
            (hrest _)
          rw [hd0] at this
          exact this

/-! ### Documents -/

/-- The tokens of a sentence are those of the surface units, which stand in the text. -/
def Laid (p : Str × List Token) (its : List Item) : Prop :=
  ∃ pre post, p.1 = pre ++ (surfaceText its ++ post) ∧ ItemsTokens pre.length its p.2

theorem laid_sentences {text : Str} {tokens : List Token} : ∀ {c : List (List Item)} {ss : List Sentence} {pre : Str} {k : Nat},
    text = pre ++ surfaceText c.flatten → ItemsTokens pre.length c.flatten (tokens.drop k) → Bounds k c ss →
    List.Forall₂ (fun s its => Laid (text, (tokens.drop s.start).take (s.stop - s.start)) its) ss c
  | [], _, _, _, _, _, h => by cases h; exact .nil
  | its :: c, ss, pre, k, h1, h2, h3 => by
    obtain ⟨s, rest, rfl, b1, b2, b3⟩ := h3
    rw [List.flatten_cons] at h1 h2
    rw [surfaceText_append] at h1
    obtain ⟨x, y, e, x1, y1⟩ := h2.split
    have hx := x1.length
    have hy : tokens.drop s.stop = y := by
      rw [b2, ← hx, ← List.drop_drop, e, List.drop_left]
    refine .cons ⟨pre, _, h1, ?_⟩ (laid_sentences (pre := pre ++ surfaceText its) ?_ ?_ b3)
    · show ItemsTokens _ _ (List.take _ (List.drop _ tokens))
      rw [b1, b2, e, show k + wordCount its - k = x.length by omega, List.take_left]
      exact x1
    · rw [h1, List.append_assoc]
    · rw [List.length_append, hy]; exact y1

theorem laid_docs {chunks : List (List (List Item))} {docs : List Document} (h : List.Forall₂ DocRaw chunks docs)
    (hne : ∀ c ∈ chunks, c ≠ []) : List.Forall₂ Laid (sentencesOf docs) chunks.flatten := by
  induction h with
  | nil => exact .nil
  | @cons c d chunks docs a _ ih =>
    have hd := a.docOf (hne c (by simp))
    rw [sentencesOf, List.flatMap_cons, List.flatten_cons]
    refine List.rel_append ?_ (ih (fun x hx => hne x (by simp [hx])))
    rw [List.forall₂_map_left_iff]
    exact laid_sentences (pre := []) (k := 0) hd.text hd.tokens hd.bounds

theorem itemLines_words {cols : Cols} {ls : List Str} {its : List Item} (h : ItemLines cols ls its) :
    ∀ it ∈ its, it.surface.text ≠ [] ∧ it.words ≠ [] := by
  induction h with
  | nil => simp
  | skip _ _ _ _ ih => exact ih
  | word _ _ _ _ h5 _ ih => simpa [Item.surface, Item.words] using ⟨h5, ih⟩
  | multi _ _ _ _ _ _ h7 h8 _ _ _ ih => simpa [Item.surface, Item.words] using ⟨⟨h7, h8⟩, ih⟩

theorem sentLines_words {cols : Cols} {ls : List Str} {items : List (List Item)} (h : SentLines cols ls items) :
    ∀ its ∈ items, ∀ it ∈ its, it.surface.text ≠ [] ∧ it.words ≠ [] := by
  induction h with
  | nil => simp
  | cons h1 _ _ ih =>
    intro its hi
    rcases List.mem_cons.mp hi with rfl | hi
    · exact itemLines_words h1
    · exact ih its hi

/-- What the reader and the evaluation script make of the same text. -/
theorem read_load {limit : Int} {text : Str} {docs : List Document} {depth : Nat} {ud : UD} (hr : '\r' ∉ text)
    (hc : CommentsPlain text) (h1 : readFromStr limit defaultCols text = .ok (docs, none))
    (h2 : loadConllu depth text = .ok ud) : ∃ sents, UdSents (udFileLines text) sents ∧ UdOf sents ud ∧
      List.Forall₂ (fun (p : Str × List Token) us => TokensAs (FileRow p.1) p.1 0 p.2 us) (sentencesOf docs) sents := by
  obtain ⟨_, items, chunks, g1, g2, g3⟩ := C16_accepts_iff.mp h1
  obtain ⟨sents, k1, k2, k3⟩ := C24_loaded_trees h2
  rw [contentLines_eq hr] at g1
  have hi := items_of_sents k1 hc g1
  have hl := laid_docs g3 (fun c hc => (g2.size c hc).1)
  rw [g2.flatten] at hl
  have hw := sentLines_words g1
  refine ⟨sents, k1, k2, ?_⟩
  rw [List.forall₂_iff_get] at hi hl ⊢
  refine ⟨hl.1.trans hi.1, fun i a b => ?_⟩
  have ha : i < items.length := hl.1 ▸ a
  obtain ⟨pre, post, t1, t2⟩ := hl.2 i a ha
  refine tokensAs_of_items (hi.2 i ha b) t1 t2 (hw _ (List.get_mem _ _)) ?_
  intro r hr
  obtain ⟨hs, q1, _⟩ := k3 _ (List.get_mem sents ⟨i, b⟩)
  obtain ⟨j, hj, e⟩ := List.getElem_of_mem hr
  have := (List.forall₂_iff_get.mp q1).2 j hj (q1.length_eq ▸ hj)
  simp only [List.get_eq_getElem] at this e
  rw [e] at this
  exact ⟨_, this⟩

end Verif
