import Verif.Spec.Unscored
import Verif.Proofs.UdLoad
import Verif.Proofs.UdSame

/-! # Proofs about parts of CoNLL-U files that are not evaluated -/

namespace Verif

/-- Words that differ in ID, DEPS and MISC only. -/
structure WordLike (a b : UDWord) : Prop where
  span : a.span = b.span
  multi : a.multi = b.multi
  parent : a.parent = b.parent
  cols : ∀ c, 1 ≤ c → c ≤ 7 → a.col c = b.col c

theorem WordLike.rfl {a : UDWord} : WordLike a a := ⟨_root_.rfl, _root_.rfl, _root_.rfl, fun _ _ _ => _root_.rfl⟩

/-- Treebanks whose words differ in ID, DEPS and MISC only. -/
structure UDLike (a b : UD) : Prop where
  characters : a.characters = b.characters
  tokens : a.tokens = b.tokens
  sentences : a.sentences = b.sentences
  words : List.Forall₂ WordLike a.words b.words

/-- States of the loader. -/
structure StateLike (s t : LState) : Prop where
  ud : UDLike s.ud t.ud
  index : s.index = t.index
  sentStart : s.sentStart = t.sentStart
  pending : s.pending = t.pending

/-- Related values, or the same exception. -/
inductive ResLike {α β : Type} (R : α → β → Prop) : Res α → Res β → Prop where
  | ok {a : α} {b : β} : R a b → ResLike R (.ok a) (.ok b)
  | error (e : Err) : ResLike R (.error e) (.error e)

theorem ResLike.forM {σ σ' α : Type} {R : σ → σ' → Prop} {f : σ → α → Res σ} {g : σ' → α → Res σ'}
    (hf : ∀ s s' a, R s s' → ResLike R (f s a) (g s' a)) : ∀ (l : List α) (s : σ) (s' : σ'), R s s' →
    ResLike R (forM' f s l) (forM' g s' l)
  | [], _, _, h => .ok h
  | a :: l, s, s', h => by
    have := hf s s' a h
    rw [forM', forM']
    generalize f s a = x at this
    generalize g s' a = y at this
    cases this with
    | ok h => exact ResLike.forM hf l _ _ h
    | error e => exact .error e

theorem wordLike_get {ws vs : List UDWord} (h : List.Forall₂ WordLike ws vs) (i : Nat) :
    (ws[i]? = none ∧ vs[i]? = none) ∨ ∃ a b, ws[i]? = some a ∧ vs[i]? = some b ∧ WordLike a b := by
  induction h generalizing i with
  | nil => exact .inl ⟨rfl, rfl⟩
  | cons h _ ih =>
    cases i with
    | zero => exact .inr ⟨_, _, rfl, rfl, h⟩
    | succ i => exact ih i

theorem forall₂_set {α β : Type} {R : α → β → Prop} {l : List α} {m : List β} (h : List.Forall₂ R l m) {a : α} {b : β} (hab : R a b) :
    ∀ i : Nat, List.Forall₂ R (l.set i a) (m.set i b) := by
  induction h with
  | nil => intro i; exact .nil
  | cons h t ih =>
    intro i
    cases i with
    | zero => exact .cons hab t
    | succ i => exact .cons h (ih i)

theorem processWord_like (s : Nat) : ∀ (depth : Nat) (ws vs : List UDWord) (i : Nat), List.Forall₂ WordLike ws vs →
    ResLike (List.Forall₂ WordLike) (processWord s depth ws i) (processWord s depth vs i)
  | 0, _, _, _, _ => .error _
  | depth + 1, ws, vs, i, h => by
    rw [processWord, processWord]
    rcases wordLike_get h i with ⟨h1, h2⟩ | ⟨a, b, h1, h2, h3⟩
    · rw [h1, h2]; exact .error _
    · rw [h1, h2]
      simp only
      rw [h3.parent]
      cases b.parent with
      | remapping => exact .error _
      | word j => exact .ok h
      | none =>
        simp only
        rw [h3.cols colHEAD (by decide) (by decide), h.length_eq]
        cases pyInt (b.col colHEAD) with
        | error e => exact .error _
        | ok head =>
          simp only
          split
          · exact .error _
          · split
            · exact .ok h
            · cases headTarget s vs.length head with
              | none => exact .error _
              | some p =>
                simp only
                have := processWord_like s depth (ws.set i { a with parent := .remapping }) (vs.set i { b with parent := .remapping }) p
                  (forall₂_set h (a := { a with parent := .remapping }) (b := { b with parent := .remapping }) ⟨h3.span, h3.multi, rfl, h3.cols⟩ i)
                generalize processWord s depth (ws.set i { a with parent := .remapping }) p = x at this
                generalize processWord s depth (vs.set i { b with parent := .remapping }) p = y at this
                cases this with
                | error e => exact .error e
                | ok k => exact .ok (forall₂_set k (a := { a with parent := .word p }) (b := { b with parent := .word p }) ⟨h3.span, h3.multi, rfl, h3.cols⟩ i)

theorem rootless_like {ws vs : List UDWord} (h : List.Forall₂ WordLike ws vs) :
    (ws.filter (fun w => decide (w.parent = .none))).length = (vs.filter (fun w => decide (w.parent = .none))).length := by
  induction h with
  | nil => rfl
  | cons h _ ih =>
    rw [List.filter_cons, List.filter_cons, h.parent]
    split
    · rw [List.length_cons, List.length_cons, ih]
    · exact ih

theorem loadBlank_like {st tt : LState} (h : StateLike st tt) (depth s : Nat) :
    ResLike (fun s t => StateLike s t ∧ s.pending = st.pending ∧ s.sentStart = none) (loadBlank depth st s) (loadBlank depth tt s) := by
  unfold loadBlank
  rw [h.ud.words.length_eq]
  have := ResLike.forM (fun ws vs i hw => processWord_like s depth ws vs i hw)
    ((List.range (tt.ud.words.length - s)).map (s + ·)) _ _ h.ud.words
  generalize forM' (processWord s depth) st.ud.words _ = x at this
  generalize forM' (processWord s depth) tt.ud.words _ = y at this
  cases this with
  | error e => exact .error e
  | ok k =>
    simp only
    rw [rootless_like (List.forall₂_drop s k)]
    split
    · exact .error _
    · refine .ok ⟨⟨⟨h.ud.characters, h.ud.tokens, ?_, k⟩, h.index, rfl, h.pending⟩, rfl, rfl⟩
      simp only [h.ud.sentences, h.index]

theorem addSurface_like {st tt : LState} (h : StateLike st tt) (form : Str) : StateLike (addSurface st form) (addSurface tt form) :=
  ⟨⟨by simp only [addSurface, h.ud.characters], by simp only [addSurface, h.ud.tokens, h.index], h.ud.sentences, h.ud.words⟩,
    by simp only [addSurface, h.index], h.sentStart, h.pending⟩

theorem forall₂_snoc {α β : Type} {R : α → β → Prop} {l : List α} {m : List β} (h : List.Forall₂ R l m) {a : α} {b : β} (hab : R a b) :
    List.Forall₂ R (l ++ [a]) (m ++ [b]) := List.rel_append h (.cons hab .nil)

/-- The columns of a new word. -/
theorem new_col (tok : Span) (r : List Str) (multi : Bool) (c : Nat) :
    (UDWord.new tok r multi).col c = if c = colDEPREL then (colOf r c).takeWhile (· ≠ ':') else colOf r c := by
  rw [UDWord.new_eq]
  simp only [UDWord.col, mkWord, cutDeprel, colOf, List.getD_eq_getElem?_getD, List.getElem?_modify]
  by_cases h : c = colDEPREL
  · subst h
    simp only [if_true]
    cases r[colDEPREL]? <;> simp
  · have h' : ¬ colDEPREL = c := fun e => h e.symm
    simp only [if_neg h, if_neg h']
    simp

theorem new_like {l l' : Str} {r r' : List Str} (tok : Span) (multi : Bool) (hs : SameScored l l')
    (hr : ∀ c, c ≠ colFORM → colOf r c = colOf (rowOf l) c) (hr' : ∀ c, c ≠ colFORM → colOf r' c = colOf (rowOf l') c)
    (hf : colOf r colFORM = colOf r' colFORM) : WordLike (UDWord.new tok r multi) (UDWord.new tok r' multi) := by
  refine ⟨rfl, rfl, rfl, ?_⟩
  intro c h1 h7
  rw [new_col, new_col]
  by_cases hc : c = colDEPREL
  · subst hc
    rw [if_pos rfl, if_pos rfl, hr _ (by decide), hr' _ (by decide)]
    exact hs.relation
  · rw [if_neg hc, if_neg hc]
    by_cases hc1 : c = colFORM
    · subst hc1; exact hf
    · rw [hr c hc1, hr' c hc1]
      refine hs.same c ?_
      simp only [colFORM, colDEPREL] at hc hc1
      simp only [colLEMMA, colUPOS, colXPOS, colFEATS, colHEAD, List.mem_cons, List.not_mem_nil, or_false]
      omega

theorem set_form_other {r : List Str} {f : Str} {c : Nat} (hc : c ≠ colFORM) : colOf (r.set colFORM f) c = colOf r c := by
  simp only [colOf, List.getD_eq_getElem?_getD]
  rw [List.getElem?_set_ne (fun e => hc e.symm)]

theorem set_form_self {r : List Str} {f : Str} (h : r.length = 10) : colOf (r.set colFORM f) colFORM = f := by
  simp only [colOf, List.getD_eq_getElem?_getD]
  rw [List.getElem?_set_self (by rw [h]; decide)]
  rfl

theorem loadRow_word_like {st tt : LState} (h : StateLike st tt) (s : Nat) {l l' : Str} (hs : SameSurface l l')
    (hd : '-' ∉ colOf (rowOf l) colID) (hc : SameScored l l') :
    ResLike (fun s t => StateLike s t ∧ s.pending = st.pending ∧ s.sentStart = st.sentStart) (loadRow st s (rowOf l))
      (loadRow tt s (rowOf l')) := by
  have e1 : (rowOf l).getD colID [] = (rowOf l').getD colID [] := hs.id
  have e2 : surfaceForm (rowOf l) = surfaceForm (rowOf l') := hs.form
  unfold loadRow
  rw [e1, e2, ← e1, if_neg hs.real, if_neg hs.real]
  split
  · exact .error _
  · unfold loadWord
    have i1 : ((rowOf l).set colFORM (surfaceForm (rowOf l'))).getD colID [] =
        ((rowOf l').set colFORM (surfaceForm (rowOf l'))).getD colID [] := by
      rw [show ∀ r : List Str, r.getD colID [] = colOf r colID from fun _ => rfl, set_form_other (by decide),
        show ∀ r : List Str, r.getD colID [] = colOf r colID from fun _ => rfl, set_form_other (by decide)]
      exact hs.id
    have i2 : ((rowOf l).set colFORM (surfaceForm (rowOf l'))).getD colHEAD [] =
        ((rowOf l').set colFORM (surfaceForm (rowOf l'))).getD colHEAD [] := by
      rw [show ∀ r : List Str, r.getD colHEAD [] = colOf r colHEAD from fun _ => rfl, set_form_other (by decide),
        show ∀ r : List Str, r.getD colHEAD [] = colOf r colHEAD from fun _ => rfl, set_form_other (by decide)]
      exact hc.same colHEAD (by simp)
    rw [i1, i2]
    have hl : (addSurface st (surfaceForm (rowOf l'))).ud.words.length = (addSurface tt (surfaceForm (rowOf l'))).ud.words.length :=
      h.ud.words.length_eq
    rw [hl]
    have ha := addSurface_like h (surfaceForm (rowOf l'))
    split
    · exact .error _
    · split
      · exact .error _
      · split
        · exact .error _
        · split
          · exact .error _
          · refine .ok ⟨⟨⟨ha.ud.characters, ha.ud.tokens, ha.ud.sentences, forall₂_snoc ha.ud.words ?_⟩, ha.index, ha.sentStart, ha.pending⟩, rfl, rfl⟩
            rw [h.index]
            exact new_like _ _ hc (fun c h => set_form_other h) (fun c h => set_form_other h)
              (by rw [set_form_self hs.columns.1, set_form_self hs.columns.2])

theorem loadRow_multi_like {st tt : LState} (h : StateLike st tt) (s : Nat) {l l' a b : Str} {x y : Int} (hs : SameSurface l l')
    (hd : splitOn1 '-' (colOf (rowOf l) colID) = [a, b]) (ha : pyInt a = .ok x) (hb : pyInt b = .ok y) :
    ResLike (fun s t => StateLike s t ∧ s.pending = (y + 1 - x).toNat ∧ s.sentStart = st.sentStart) (loadRow st s (rowOf l)) (loadRow tt s (rowOf l')) := by
  have e1 : (rowOf l).getD colID [] = (rowOf l').getD colID [] := hs.id
  have e2 : surfaceForm (rowOf l) = surfaceForm (rowOf l') := hs.form
  have hm : '-' ∈ (rowOf l).getD colID [] := by
    by_contra hno
    rw [show (rowOf l).getD colID [] = colOf (rowOf l) colID from rfl] at hno
    have := splitOn1_of_not_mem hno
    rw [hd] at this
    cases this
  unfold loadRow
  rw [e1, e2, ← e1, if_neg hs.real, if_neg hs.real]
  split
  · exact .error _
  · unfold loadRange
    rw [show (rowOf l).getD colID [] = colOf (rowOf l) colID from rfl, hd]
    simp only [ha, hb]
    have ha := addSurface_like h (surfaceForm (rowOf l'))
    exact .ok ⟨⟨ha.ud, ha.index, ha.sentStart, rfl⟩, rfl, rfl⟩

theorem loadPending_like {st tt : LState} (h : StateLike st tt) {l l' : Str} (hc : SameScored l l')
    (hf : colOf (rowOf l) colFORM = colOf (rowOf l') colFORM) :
    ResLike (fun s t => StateLike s t ∧ s.pending = st.pending - 1 ∧ s.sentStart = st.sentStart) (loadPending st l) (loadPending tt l') := by
  unfold loadPending
  rw [if_neg (not_not.2 hc.columns.1), if_neg (not_not.2 hc.columns.2), h.ud.tokens]
  cases tt.ud.tokens.getLast? with
  | none => exact .error _
  | some tok =>
    refine .ok ⟨⟨⟨h.ud.characters, h.ud.tokens, h.ud.sentences, forall₂_snoc h.ud.words ?_⟩, h.index, h.sentStart, ?_⟩, rfl, rfl⟩
    · exact new_like _ _ hc (fun _ _ => rfl) (fun _ _ => rfl) hf
    · simp only [h.pending]

theorem startSentence_like {st tt : LState} (h : StateLike st tt) : StateLike (startSentence st) (startSentence tt) :=
  ⟨⟨h.ud.characters, h.ud.tokens, by simp only [startSentence, h.ud.sentences, h.index], h.ud.words⟩, h.index,
    by simp only [startSentence, h.ud.words.length_eq], h.pending⟩

theorem ResLike.mono {α β : Type} {R S : α → β → Prop} (h : ∀ a b, R a b → S a b) {x : Res α} {y : Res β} (hx : ResLike R x y) :
    ResLike S x y := by
  cases hx with
  | ok k => exact .ok (h _ _ k)
  | error e => exact .error e

/-- The same line for both. -/
theorem loadRow_same {st tt : LState} (h : StateLike st tt) (s : Nat) (r : List Str) :
    ResLike StateLike (loadRow st s r) (loadRow tt s r) := by
  unfold loadRow
  split
  · exact .ok h
  · split
    · exact .error _
    · have ha := addSurface_like h (surfaceForm r)
      split
      · unfold loadRange
        split
        · split
          · exact .ok ⟨ha.ud, ha.index, ha.sentStart, rfl⟩
          · exact .error _
        · exact .error _
      · unfold loadWord
        have hl : (addSurface st (surfaceForm r)).ud.words.length = (addSurface tt (surfaceForm r)).ud.words.length :=
          h.ud.words.length_eq
        rw [hl]
        split
        · exact .error _
        · split
          · exact .error _
          · split
            · exact .error _
            · split
              · exact .error _
              · refine .ok ⟨⟨ha.ud.characters, ha.ud.tokens, ha.ud.sentences, forall₂_snoc ha.ud.words ?_⟩, ha.index, ha.sentStart, ha.pending⟩
                rw [h.index]
                exact .rfl

theorem loadLine_same {st tt : LState} (h : StateLike st tt) (d s : Nat) (l : Str) :
    ResLike StateLike (loadLine d st s l) (loadLine d tt s l) := by
  unfold loadLine
  split
  · exact (loadBlank_like h d s).mono (fun _ _ k => k.1)
  · unfold loadToken
    split
    · exact .error _
    · exact loadRow_same h s _

theorem loadStep_same {st tt : LState} (h : StateLike st tt) (d : Nat) (l : Str) :
    ResLike StateLike (loadStep d st l) (loadStep d tt l) := by
  unfold loadStep
  rw [← h.pending, ← h.sentStart]
  split
  · unfold loadPending
    rw [h.ud.tokens]
    split
    · exact .error _
    · split
      · exact .error _
      · refine .ok ⟨⟨h.ud.characters, h.ud.tokens, h.ud.sentences, forall₂_snoc h.ud.words .rfl⟩, h.index, h.sentStart, ?_⟩
        simp only [h.pending]
  · split
    · exact loadLine_same h d _ l
    · split
      · exact .ok h
      · rw [h.ud.words.length_eq]
        exact loadLine_same (startSentence_like h) d _ l

theorem loadEnd_like {st tt : LState} (h : StateLike st tt) : ResLike UDLike (loadEnd st) (loadEnd tt) := by
  unfold loadEnd
  rw [h.pending, h.sentStart]
  split
  · exact .error _
  · split
    · exact .error _
    · exact .ok h.ud

theorem udRun_step {R : LState → LState → Prop} {d : Nat} {st tt : LState} {l l' : Str} {ls ls' : List Str}
    (h : ResLike R (loadStep d st l) (loadStep d tt l')) (hr : ∀ s t, R s t → ResLike UDLike (udRun d s ls) (udRun d t ls')) :
    ResLike UDLike (udRun d st (l :: ls)) (udRun d tt (l' :: ls')) := by
  rw [udRun_cons, udRun_cons]
  generalize loadStep d st l = x at h
  generalize loadStep d tt l' = y at h
  cases h with
  | ok k => exact hr _ _ k
  | error e => exact .error e

theorem udRun_same {d : Nat} : ∀ (ls : List Str) {st tt : LState}, StateLike st tt → ResLike UDLike (udRun d st ls) (udRun d tt ls)
  | [], _, _, h => by rw [udRun_nil, udRun_nil]; exact loadEnd_like h
  | l :: ls, _, _, h => udRun_step (loadStep_same h d l) (fun _ _ k => udRun_same ls k)

/-- The state after a sentence has begun. -/
def opened (st : LState) : LState := if st.sentStart = none then startSentence st else st

/-- The number of words before the current sentence. -/
def openedAt (st : LState) : Nat := st.sentStart.getD st.ud.words.length

theorem opened_start (st : LState) : (opened st).sentStart = some (openedAt st) := by
  unfold opened openedAt
  cases h : st.sentStart with
  | none => simp [startSentence]
  | some n => simp [h]

theorem opened_pending (st : LState) : (opened st).pending = st.pending := by
  unfold opened
  split <;> rfl

theorem opened_idem (st : LState) : opened (opened st) = opened st := by
  have := opened_start st
  rw [opened, if_neg (by rw [this]; simp)]

theorem loadStep_open {d : Nat} {st : LState} {l : Str} (hp : st.pending = 0) (hl : ¬ CommentLine l) :
    loadStep d st l = loadLine d (opened st) (openedAt st) l := by
  unfold loadStep opened openedAt
  rw [if_neg (by omega)]
  cases h : st.sentStart with
  | none =>
    simp only [if_true, Option.getD_none]
    exact if_neg hl
  | some n => simp

/-- What the states of the two runs have in common. -/
def StandingLike : Standing → LState → LState → Prop
  | .between, st, tt => StateLike st tt ∧ st.pending = 0 ∧ st.sentStart = none
  | .opening, st, tt => StateLike (opened st) (opened tt) ∧ st.pending = 0 ∧ tt.pending = 0
  | .inside n, st, tt => StateLike st tt ∧ st.pending = n ∧ ∃ s, st.sentStart = some s

theorem node_step {d : Nat} {st : LState} {l : Str} (hp : st.pending = 0) (hl : ¬ CommentLine l ∨ ∃ s, st.sentStart = some s)
    (hn : NodeLine l) : loadStep d st l = .ok (opened st) := by
  have h1 : loadStep d st l = loadLine d (opened st) (openedAt st) l := by
    rcases hl with hl | ⟨s, hs⟩
    · exact loadStep_open hp hl
    · rw [loadStep_in hp hs]
      unfold opened openedAt
      simp [hs]
  rw [h1, loadLine_cols hn.1, loadRow_skip hn.2]

theorem opened_in {st : LState} {s : Nat} (h : st.sentStart = some s) : opened st = st := by
  unfold opened
  rw [if_neg (by rw [h]; simp)]

theorem openedAt_like {st tt : LState} (h : StateLike (opened st) (opened tt)) : openedAt st = openedAt tt := by
  have := h.sentStart
  rw [opened_start, opened_start] at this
  injection this

theorem unscored_run {d : Nat} {p : Standing} {ls ls' : List Str} (h : Unscored p ls ls') : ∀ {st tt : LState},
    StandingLike p st tt → ResLike UDLike (udRun d st ls) (udRun d tt ls') := by
  induction h with
  | same => intro st tt k; exact udRun_same _ k.1
  | sameInside => intro st tt k; exact udRun_same _ k.1
  | @commentLeft l _ _ hc _ ih =>
    intro st tt k
    rw [udRun_cons]
    have : loadStep d st l = .ok st := by
      unfold loadStep
      rw [if_neg (by rw [k.2.1]; omega), k.2.2]
      simp only
      exact if_pos hc
    rw [this]
    exact ih k
  | @commentRight l _ _ hc _ ih =>
    intro st tt k
    rw [udRun_cons]
    have : loadStep d tt l = .ok tt := by
      unfold loadStep
      rw [if_neg (by rw [← k.1.pending, k.2.1]; omega), ← k.1.sentStart, k.2.2]
      simp only
      exact if_pos hc
    rw [this]
    exact ih k
  | enter _ ih =>
    intro st tt k
    refine ih ⟨?_, k.2.1, k.1.pending ▸ k.2.1⟩
    have h2 : tt.sentStart = none := k.1.sentStart ▸ k.2.2
    unfold opened
    rw [if_pos k.2.2, if_pos h2]
    exact startSentence_like k.1
  | openLeft hn hc _ ih =>
    intro st tt k
    rw [udRun_cons, node_step k.2.1 (.inl hc) hn]
    exact ih ⟨by rw [opened_idem]; exact k.1, by rw [opened_pending]; exact k.2.1, k.2.2⟩
  | openRight hn hc _ ih =>
    intro st tt k
    rw [udRun_cons, node_step k.2.2 (.inl hc) hn]
    exact ih ⟨by rw [opened_idem]; exact k.1, k.2.1, by rw [opened_pending]; exact k.2.2⟩
  | openWord hs hd hc _ ih =>
    intro st tt k
    refine udRun_step (R := StandingLike (.inside 0)) ?_ (fun _ _ => ih)
    rw [loadStep_open k.2.1 hs.notComment.1, loadStep_open k.2.2 hs.notComment.2, loadLine_cols hs.columns.1, loadLine_cols hs.columns.2,
      openedAt_like k.1]
    refine (loadRow_word_like k.1 _ hs hd hc).mono (fun a b r => ⟨r.1, ?_, ?_⟩)
    · rw [r.2.1, opened_pending, k.2.1]
    · exact ⟨_, r.2.2.trans (opened_start st)⟩
  | openMulti hs hd ha hb _ ih =>
    intro st tt k
    refine udRun_step (R := StandingLike (.inside _)) ?_ (fun _ _ => ih)
    rw [loadStep_open k.2.1 hs.notComment.1, loadStep_open k.2.2 hs.notComment.2, loadLine_cols hs.columns.1, loadLine_cols hs.columns.2,
      openedAt_like k.1]
    exact (loadRow_multi_like k.1 _ hs hd ha hb).mono (fun a b r => ⟨r.1, r.2.1, _, r.2.2.trans (opened_start st)⟩)
  | nodeLeft hn _ ih =>
    intro st tt k
    obtain ⟨s, hs⟩ := k.2.2
    rw [udRun_cons, node_step k.2.1 (.inr k.2.2) hn, opened_in hs]
    exact ih k
  | nodeRight hn _ ih =>
    intro st tt k
    obtain ⟨s, hs⟩ := k.2.2
    have hs' : tt.sentStart = some s := k.1.sentStart ▸ hs
    rw [udRun_cons, node_step (k.1.pending ▸ k.2.1) (.inr ⟨s, hs'⟩) hn, opened_in hs']
    exact ih k
  | word hs hd hc _ ih =>
    intro st tt k
    obtain ⟨s, hst⟩ := k.2.2
    have hst' : tt.sentStart = some s := k.1.sentStart ▸ hst
    refine udRun_step (R := StandingLike (.inside 0)) ?_ (fun _ _ => ih)
    rw [loadStep_in k.2.1 hst, loadStep_in (k.1.pending ▸ k.2.1) hst', loadLine_cols hs.columns.1, loadLine_cols hs.columns.2]
    exact (loadRow_word_like k.1 _ hs hd hc).mono (fun a b r => ⟨r.1, r.2.1.trans k.2.1, s, r.2.2.trans hst⟩)
  | multi hs hd ha hb _ ih =>
    intro st tt k
    obtain ⟨s, hst⟩ := k.2.2
    have hst' : tt.sentStart = some s := k.1.sentStart ▸ hst
    refine udRun_step (R := StandingLike (.inside _)) ?_ (fun _ _ => ih)
    rw [loadStep_in k.2.1 hst, loadStep_in (k.1.pending ▸ k.2.1) hst', loadLine_cols hs.columns.1, loadLine_cols hs.columns.2]
    exact (loadRow_multi_like k.1 _ hs hd ha hb).mono (fun a b r => ⟨r.1, r.2.1, s, r.2.2.trans hst⟩)
  | part hc hf _ ih =>
    intro st tt k
    obtain ⟨s, hst⟩ := k.2.2
    refine udRun_step (R := StandingLike (.inside _)) ?_ (fun _ _ => ih)
    unfold loadStep
    rw [if_pos (by rw [k.2.1]; omega), if_pos (by rw [← k.1.pending, k.2.1]; omega)]
    exact (loadPending_like k.1 hc hf).mono (fun a b r => ⟨r.1, by rw [r.2.1, k.2.1]; omega, s, r.2.2.trans hst⟩)
  | blank _ ih =>
    intro st tt k
    obtain ⟨s, hst⟩ := k.2.2
    have hst' : tt.sentStart = some s := k.1.sentStart ▸ hst
    refine udRun_step (R := StandingLike .between) ?_ (fun _ _ => ih)
    rw [loadStep_in k.2.1 hst, loadStep_in (k.1.pending ▸ k.2.1) hst']
    exact (loadBlank_like k.1 d s).mono (fun a b r => ⟨r.1, r.2.1.trans k.2.1, r.2.2⟩)

end Verif
