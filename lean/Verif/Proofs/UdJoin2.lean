import Verif.Proofs.UdJoin

/-!
# Lemmas for C106: aligning two files behind each other
-/

namespace Verif

/-! ### Enough fuel -/

theorem spanLoop_mono {gold sys : List UDWord} {k : Nat} {r : Nat × Nat} :
    ∀ {f gi si e : Nat}, spanLoop gold sys f gi si e = .ok r → spanLoop gold sys (f + k) gi si e = .ok r := by
  intro f
  induction f with
  | zero => intro gi si e h; cases h
  | succ f ih =>
    intro gi si e h
    rw [show f + 1 + k = (f + k) + 1 by omega]
    rw [spanLoop] at h ⊢
    split at h
    · rename_i hc
      rw [if_pos hc]
      cases ht : takeGold gold sys gi si with
      | error er => rw [ht] at h; cases h
      | ok b =>
        rw [ht] at h
        cases b with
        | true =>
          simp only at h ⊢
          cases hw : wordAt gold gi with
          | error er => rw [hw] at h; cases h
          | ok w => rw [hw] at h; exact ih h
        | false =>
          simp only at h ⊢
          cases hw : wordAt sys si with
          | error er => rw [hw] at h; cases h
          | ok w => rw [hw] at h; exact ih h
    · rename_i hc
      rw [if_neg hc]
      exact h

theorem alignLoop_mono {lower : Str → Str} {gold sys : List UDWord} {k : Nat} :
    ∀ {f gi si : Nat} {l : List (Nat × Nat)}, alignLoop lower gold sys f gi si = .ok l →
      alignLoop lower gold sys (f + k) gi si = .ok l := by
  intro f
  induction f with
  | zero => intro gi si l h; cases h
  | succ f ih =>
    intro gi si l h
    rw [show f + 1 + k = (f + k) + 1 by omega]
    rw [alignLoop] at h ⊢
    cases h1 : gold[gi]? with
    | none => rw [h1] at h; exact h
    | some g =>
      cases h2 : sys[si]? with
      | none => rw [h1, h2] at h; exact h
      | some s =>
        rw [h1, h2] at h
        simp only at h ⊢
        split at h
        · rename_i hc
          rw [if_pos hc]
          cases hf : findMultiwordSpan gold sys gi si with
          | error er => rw [hf] at h; cases h
          | ok r =>
            obtain ⟨gs, ss, gi', si'⟩ := r
            rw [hf] at h
            simp only at h ⊢
            cases ha : alignSpan lower gold sys gs ss gi' si' with
            | error er => rw [ha] at h; cases h
            | ok l' =>
              rw [ha] at h
              simp only at h ⊢
              cases hr : alignLoop lower gold sys f gi' si' with
              | error er => rw [hr] at h; cases h
              | ok rest => rw [hr] at h; rw [ih hr]; exact h
        · rename_i hc
          rw [if_neg hc]
          split at h
          · rename_i hc'
            rw [if_pos hc']
            cases hr : alignLoop lower gold sys f (gi + 1) (si + 1) with
            | error er => rw [hr] at h; cases h
            | ok rest => rw [hr] at h; rw [ih hr]; exact h
          · rename_i hc'
            rw [if_neg hc']
            split at h
            · rename_i hc2; rw [if_pos hc2]; exact ih h
            · rename_i hc2; rw [if_neg hc2]; exact ih h

/-! ### The second file -/

theorem wordAt_shift (A : List UDWord) (B : List UDWord) (c k i : Nat) :
    wordAt (A ++ B.map (UDWord.shift c k)) (A.length + i) = (wordAt B i).map (UDWord.shift c k) := by
  unfold wordAt
  rw [List.getElem?_append_right (by omega), Nat.add_sub_cancel_left, List.getElem?_map]
  cases B[i]? <;> rfl

theorem beyondEnd_shift (A B : List UDWord) (c k i e : Nat) :
    beyondEnd (A ++ B.map (UDWord.shift c k)) (A.length + i) (e + c) = beyondEnd B i e := by
  unfold beyondEnd
  rw [List.getElem?_append_right (by omega), Nat.add_sub_cancel_left, List.getElem?_map]
  cases B[i]? with
  | none => rfl
  | some w =>
    simp only [Option.map_some, UDWord.shift, Span.shift]
    split
    · simp
    · simp

theorem extendEnd_shift (w : UDWord) (c k e : Nat) : extendEnd (w.shift c k) (e + c) = extendEnd w e + c := by
  unfold extendEnd
  simp only [UDWord.shift, Span.shift, Bool.and_eq_true, decide_eq_true_eq, gt_iff_lt]
  have h : (w.multi = true ∧ e + c < w.span.stop + c) ↔ (w.multi = true ∧ e < w.span.stop) := by
    rw [Nat.add_lt_add_iff_right]
  by_cases hc : w.multi = true ∧ e < w.span.stop
  · rw [if_pos hc, if_pos (h.2 hc)]
  · rw [if_neg hc, if_neg (fun x => hc (h.1 x))]

section
variable (A B X Y : List UDWord) (c k l : Nat)

theorem takeGold_shift (gi si : Nat) :
    takeGold (A ++ B.map (UDWord.shift c k)) (X ++ Y.map (UDWord.shift c l)) (A.length + gi) (X.length + si) =
      takeGold B Y gi si := by
  unfold takeGold
  rw [wordAt_shift, wordAt_shift]
  simp only [List.length_append, List.length_map, Nat.add_lt_add_iff_left, ge_iff_le, Nat.add_le_add_iff_left]
  cases wordAt B gi <;> cases wordAt Y si <;> simp [Except.map, UDWord.shift, Span.shift]

theorem spanLoop_shift : ∀ (f gi si e : Nat),
    spanLoop (A ++ B.map (UDWord.shift c k)) (X ++ Y.map (UDWord.shift c l)) f (A.length + gi) (X.length + si) (e + c) =
      (spanLoop B Y f gi si e).map (fun r => (A.length + r.1, X.length + r.2)) := by
  intro f
  induction f with
  | zero => intros; rfl
  | succ f ih =>
    intro gi si e
    rw [spanLoop, spanLoop, beyondEnd_shift, beyondEnd_shift, takeGold_shift, wordAt_shift, wordAt_shift]
    split
    · cases takeGold B Y gi si with
      | error er => rfl
      | ok b =>
        cases b with
        | true =>
          cases wordAt B gi with
          | error er => rfl
          | ok w =>
            simp only [Except.map]
            rw [Nat.add_assoc, extendEnd_shift, ih]
            rfl
        | false =>
          cases wordAt Y si with
          | error er => rfl
          | ok w =>
            simp only [Except.map]
            rw [Nat.add_assoc, extendEnd_shift, ih]
            rfl
    · rfl

theorem findMultiwordSpan_shift {gi si gs ss gi' si' : Nat} (h : findMultiwordSpan B Y gi si = .ok (gs, ss, gi', si')) :
    findMultiwordSpan (A ++ B.map (UDWord.shift c k)) (X ++ Y.map (UDWord.shift c l)) (A.length + gi) (X.length + si) =
      .ok (A.length + gs, X.length + ss, A.length + gi', X.length + si') := by
  unfold findMultiwordSpan at h ⊢
  rw [wordAt_shift, wordAt_shift]
  cases h1 : wordAt B gi with
  | error er => rw [h1] at h; cases h
  | ok g =>
    cases h2 : wordAt Y si with
    | error er => rw [h1, h2] at h; cases h
    | ok s =>
      rw [h1, h2] at h
      simp only [Except.map, UDWord.shift, Span.shift, Nat.add_lt_add_iff_right] at h ⊢
      have key : ∀ a b e, (match spanLoop B Y (B.length + Y.length + 1) a b e with
            | Except.error er => Except.error er
            | Except.ok (gi', si') => Except.ok (a, b, gi', si')) = (Except.ok (gs, ss, gi', si') : Res _) →
          (match spanLoop (A ++ B.map (UDWord.shift c k)) (X ++ Y.map (UDWord.shift c l))
              ((A ++ B.map (UDWord.shift c k)).length + (X ++ Y.map (UDWord.shift c l)).length + 1)
              (A.length + a) (X.length + b) (e + c) with
            | Except.error er => Except.error er
            | Except.ok (gi', si') => Except.ok (A.length + a, X.length + b, gi', si')) =
            (Except.ok (A.length + gs, X.length + ss, A.length + gi', X.length + si') : Res _) := by
        intro a b e hh
        cases hl : spanLoop B Y (B.length + Y.length + 1) a b e with
        | error er => rw [hl] at hh; cases hh
        | ok r =>
          rw [hl] at hh
          injection hh with hh
          simp only [Prod.mk.injEq] at hh
          obtain ⟨rfl, rfl, e1, e2⟩ := hh
          have := spanLoop_shift A B X Y c k l (B.length + Y.length + 1) a b e
          rw [hl] at this
          have := spanLoop_mono (k := A.length + X.length) this
          rw [show (A ++ B.map (UDWord.shift c k)).length + (X ++ Y.map (UDWord.shift c l)).length + 1 =
            B.length + Y.length + 1 + (A.length + X.length) by simp; omega, this]
          simp only [e1, e2]
      by_cases hg : g.multi = true
      · simp only [hg, if_true] at h ⊢
        by_cases hb : (!s.multi && decide (s.span.start < g.span.start)) = true
        · simp only [hb, if_true] at h ⊢
          rw [Nat.add_assoc]
          exact key _ _ _ h
        · simp only [hb, if_false] at h ⊢
          exact key _ _ _ h
      · have hg' : g.multi = false := by simpa using hg
        simp only [hg', Bool.false_eq_true, if_false, Bool.not_false, Bool.true_and, decide_eq_true_eq] at h ⊢
        by_cases hb : g.span.start < s.span.start
        · simp only [hb, if_true] at h ⊢
          rw [Nat.add_assoc]
          exact key _ _ _ h
        · simp only [hb, if_false] at h ⊢
          exact key _ _ _ h

theorem forms_shift (lower : Str → Str) (a b : Nat) :
    forms lower (A ++ B.map (UDWord.shift c k)) (A.length + a) (A.length + b) = forms lower B a b := by
  unfold forms slice
  rw [List.drop_length_add_append, Nat.add_sub_add_left, ← List.map_drop, ← List.map_take, List.map_map]
  rfl

theorem alignSpan_shift (lower : Str → Str) {gs ss gi si : Nat} {p : List (Nat × Nat)}
    (h : alignSpan lower B Y gs ss gi si = .ok p) :
    alignSpan lower (A ++ B.map (UDWord.shift c k)) (X ++ Y.map (UDWord.shift c l)) (A.length + gs) (X.length + ss)
      (A.length + gi) (X.length + si) = .ok (p.map (fun q => (A.length + q.1, X.length + q.2))) := by
  unfold alignSpan at h ⊢
  rw [forms_shift, forms_shift]
  simp only [gt_iff_lt, Nat.add_lt_add_iff_left] at h ⊢
  split at h
  · rename_i hc
    rw [if_pos hc]
    split at h
    · cases h
    · rename_i l' hl
      injection h with h
      rw [← h, List.map_map]
      congr 1
      apply List.map_congr_left
      intro q _
      simp only [Function.comp, Nat.add_assoc]
  · rename_i hc
    rw [if_neg hc]
    injection h with h
    rw [← h]
    rfl

theorem alignLoop_shift (lower : Str → Str) : ∀ (f gi si : Nat) (p : List (Nat × Nat)),
    alignLoop lower B Y f gi si = .ok p →
    alignLoop lower (A ++ B.map (UDWord.shift c k)) (X ++ Y.map (UDWord.shift c l)) f (A.length + gi) (X.length + si) =
      .ok (p.map (fun q => (A.length + q.1, X.length + q.2))) := by
  intro f
  induction f with
  | zero => intro gi si p h; cases h
  | succ f ih =>
    intro gi si p h
    rw [alignLoop] at h ⊢
    rw [List.getElem?_append_right (by omega), Nat.add_sub_cancel_left, List.getElem?_map,
      List.getElem?_append_right (by omega), Nat.add_sub_cancel_left, List.getElem?_map]
    cases h1 : B[gi]? with
    | none => rw [h1] at h; injection h with h; subst h; rfl
    | some g =>
      cases h2 : Y[si]? with
      | none => rw [h1, h2] at h; injection h with h; subst h; rfl
      | some s =>
        rw [h1, h2] at h
        simp only [Option.map_some] at h ⊢
        have hgm : (g.shift c k).multi = g.multi := rfl
        have hsm : (s.shift c l).multi = s.multi := rfl
        rw [hgm, hsm]
        split at h
        · rename_i hc
          rw [if_pos hc]
          cases hf : findMultiwordSpan B Y gi si with
          | error er => rw [hf] at h; cases h
          | ok r =>
            obtain ⟨gs, ss, gi', si'⟩ := r
            rw [hf] at h
            rw [findMultiwordSpan_shift A B X Y c k l hf]
            simp only at h ⊢
            cases ha : alignSpan lower B Y gs ss gi' si' with
            | error er => rw [ha] at h; cases h
            | ok l' =>
              rw [ha] at h
              rw [alignSpan_shift A B X Y c k l lower ha]
              simp only at h ⊢
              cases hr : alignLoop lower B Y f gi' si' with
              | error er => rw [hr] at h; cases h
              | ok rest =>
                rw [hr] at h
                rw [ih _ _ _ hr]
                injection h with h
                rw [← h, List.map_append]
        · rename_i hc
          rw [if_neg hc]
          have e1 : ((g.shift c k).span.start = (s.shift c l).span.start ∧ (g.shift c k).span.stop = (s.shift c l).span.stop) ↔
              (g.span.start = s.span.start ∧ g.span.stop = s.span.stop) := by
            simp only [UDWord.shift, Span.shift]
            omega
          have e2 : (g.shift c k).span.start ≤ (s.shift c l).span.start ↔ g.span.start ≤ s.span.start := by
            simp only [UDWord.shift, Span.shift]
            omega
          split at h
          · rename_i hc'
            rw [if_pos (e1.2 hc')]
            cases hr : alignLoop lower B Y f (gi + 1) (si + 1) with
            | error er => rw [hr] at h; cases h
            | ok rest =>
              rw [hr] at h
              rw [Nat.add_assoc, Nat.add_assoc, ih _ _ _ hr]
              injection h with h
              rw [← h]
              rfl
          · rename_i hc'
            rw [if_neg (fun h => hc' (e1.1 h))]
            split at h
            · rename_i hc2
              rw [if_pos (e2.2 hc2), Nat.add_assoc]
              exact ih _ _ _ h
            · rename_i hc2
              rw [if_neg (fun h => hc2 (e2.1 h)), Nat.add_assoc]
              exact ih _ _ _ h

end

/-! ### The first file -/

/-- All words of `A` end at `c` or earlier, those of `B` start there or later. -/
structure PartsAt (c : Nat) (A B : List UDWord) : Prop where
  left : ∀ w ∈ A, w.span.stop ≤ c
  right : ∀ w ∈ B, c ≤ w.span.start
  leftNe : NonEmptySpans A
  rightNe : NonEmptySpans B

section
variable {A B X Y : List UDWord} {c : Nat}

theorem PartsAt.head (h : PartsAt c A B) {w : UDWord} (hw : (A ++ B)[A.length]? = some w) :
    c ≤ w.span.start ∧ w.span.start < w.span.stop := by
  rw [List.getElem?_append_right (Nat.le_refl _)] at hw
  have := List.mem_of_getElem? hw
  exact ⟨h.right w this, h.rightNe w this⟩

theorem beyondEnd_prefix (h : PartsAt c A B) {i e : Nat} (hi : i ≤ A.length) (he : e ≤ c) :
    beyondEnd (A ++ B) i e = beyondEnd A i e := by
  rcases Nat.lt_or_eq_of_le hi with hi | rfl
  · unfold beyondEnd
    rw [List.getElem?_append_left hi]
  · unfold beyondEnd
    rw [List.getElem?_eq_none (Nat.le_refl A.length)]
    cases hw : (A ++ B)[A.length]? with
    | none => rfl
    | some w =>
      obtain ⟨h1, h2⟩ := h.head hw
      simp only
      split
      · simp only [ge_iff_le, decide_eq_true_eq]; omega
      · simp only [gt_iff_lt, decide_eq_true_eq]; omega

theorem wordAt_prefix {A B : List UDWord} {i : Nat} (hi : i < A.length) : wordAt (A ++ B) i = wordAt A i := by
  unfold wordAt
  rw [List.getElem?_append_left hi]

theorem takeGold_prefix (h : PartsAt c A B) (h' : PartsAt c X Y) {gi si : Nat} (hg : gi ≤ A.length) (hs : si ≤ X.length)
    (hlt : gi < A.length ∨ si < X.length) : takeGold (A ++ B) (X ++ Y) gi si = takeGold A X gi si := by
  unfold takeGold
  simp only [List.length_append]
  rcases Nat.lt_or_eq_of_le hg with hg | rfl
  · rw [if_pos (by omega), if_pos hg]
    rcases Nat.lt_or_eq_of_le hs with hs | rfl
    · rw [if_neg (by omega), if_neg (by omega), wordAt_prefix hg, wordAt_prefix hs]
    · rw [if_pos (Nat.le_refl _)]
      split
      · rfl
      · rw [wordAt_prefix hg]
        have e1 : wordAt A gi = .ok A[gi] := by unfold wordAt; rw [List.getElem?_eq_getElem hg]
        have hlen : X.length < (X ++ Y).length := by rw [List.length_append]; omega
        have e2 : wordAt (X ++ Y) X.length = .ok (X ++ Y)[X.length] := by
          unfold wordAt; rw [List.getElem?_eq_getElem hlen]
        rw [e1, e2]
        have h1 := h'.head (List.getElem?_eq_getElem hlen)
        have h2 := h.left A[gi] (List.getElem_mem hg)
        have h3 := h.leftNe A[gi] (List.getElem_mem hg)
        simp only [Except.ok.injEq, decide_eq_true_eq]
        omega
  · have hs' : si < X.length := by omega
    rw [if_neg (Nat.lt_irrefl A.length)]
    split
    · rw [if_neg (by omega), wordAt_prefix hs']
      have hlen : A.length < (A ++ B).length := by rw [List.length_append]; omega
      have e1 : wordAt X si = .ok X[si] := by unfold wordAt; rw [List.getElem?_eq_getElem hs']
      have e2 : wordAt (A ++ B) A.length = .ok (A ++ B)[A.length] := by
        unfold wordAt; rw [List.getElem?_eq_getElem hlen]
      rw [e1, e2]
      have h1 := h.head (List.getElem?_eq_getElem hlen)
      have h2 := h'.left X[si] (List.getElem_mem hs')
      have h3 := h'.leftNe X[si] (List.getElem_mem hs')
      simp only [Except.ok.injEq, decide_eq_false_iff_not]
      omega
    · rfl

theorem wordAt_ok {A : List UDWord} {i : Nat} {w : UDWord} (h : wordAt A i = .ok w) : i < A.length ∧ w ∈ A := by
  unfold wordAt at h
  split at h
  · rename_i v hv
    injection h with h
    subst h
    exact ⟨(List.getElem?_eq_some_iff.1 hv).1, List.mem_of_getElem? hv⟩
  · cases h

theorem extendEnd_le {w : UDWord} {e c : Nat} (h : w.span.stop ≤ c) (he : e ≤ c) : extendEnd w e ≤ c := by
  unfold extendEnd
  split
  · exact h
  · exact he

theorem spanLoop_prefix (h : PartsAt c A B) (h' : PartsAt c X Y) : ∀ {f gi si e : Nat} {r : Nat × Nat}, gi ≤ A.length →
    si ≤ X.length → e ≤ c → spanLoop A X f gi si e = .ok r →
    spanLoop (A ++ B) (X ++ Y) f gi si e = .ok r ∧ r.1 ≤ A.length ∧ r.2 ≤ X.length := by
  intro f
  induction f with
  | zero => intro gi si e r _ _ _ h; cases h
  | succ f ih =>
    intro gi si e r hg hs he hr
    rw [spanLoop] at hr ⊢
    rw [beyondEnd_prefix h hg he, beyondEnd_prefix h' hs he]
    split at hr
    · rename_i hc
      rw [if_pos hc]
      have hlt : gi < A.length ∨ si < X.length := by
        by_contra hcon
        rw [not_or, Nat.not_lt, Nat.not_lt] at hcon
        simp [beyondEnd, List.getElem?_eq_none hcon.1, List.getElem?_eq_none hcon.2] at hc
      rw [takeGold_prefix h h' hg hs hlt]
      cases ht : takeGold A X gi si with
      | error er => rw [ht] at hr; cases hr
      | ok b =>
        rw [ht] at hr
        cases b with
        | true =>
          simp only at hr ⊢
          cases hw : wordAt A gi with
          | error er => rw [hw] at hr; cases hr
          | ok w =>
            rw [hw] at hr
            obtain ⟨h1, h2⟩ := wordAt_ok hw
            rw [wordAt_prefix h1, hw]
            exact ih (by omega) hs (extendEnd_le (h.left w h2) he) hr
        | false =>
          simp only at hr ⊢
          cases hw : wordAt X si with
          | error er => rw [hw] at hr; cases hr
          | ok w =>
            rw [hw] at hr
            obtain ⟨h1, h2⟩ := wordAt_ok hw
            rw [wordAt_prefix h1, hw]
            exact ih hg (by omega) (extendEnd_le (h'.left w h2) he) hr
    · rename_i hc
      rw [if_neg hc]
      injection hr with hr
      subst hr
      exact ⟨rfl, hg, hs⟩

theorem findMultiwordSpan_prefix (h : PartsAt c A B) (h' : PartsAt c X Y) {gi si gs ss gi' si' : Nat}
    (hf : findMultiwordSpan A X gi si = .ok (gs, ss, gi', si')) :
    findMultiwordSpan (A ++ B) (X ++ Y) gi si = .ok (gs, ss, gi', si') ∧ gi' ≤ A.length ∧ si' ≤ X.length := by
  unfold findMultiwordSpan at hf ⊢
  cases h1 : wordAt A gi with
  | error er => rw [h1] at hf; cases hf
  | ok g =>
    cases h2 : wordAt X si with
    | error er => rw [h1, h2] at hf; cases hf
    | ok s =>
      rw [h1, h2] at hf
      obtain ⟨l1, m1⟩ := wordAt_ok h1
      obtain ⟨l2, m2⟩ := wordAt_ok h2
      rw [wordAt_prefix l1, wordAt_prefix l2, h1, h2]
      simp only at hf ⊢
      have key : ∀ a b e, a ≤ A.length → b ≤ X.length → e ≤ c → (match spanLoop A X (A.length + X.length + 1) a b e with
            | Except.error er => Except.error er
            | Except.ok (gi', si') => Except.ok (a, b, gi', si')) = (Except.ok (gs, ss, gi', si') : Res _) →
          (match spanLoop (A ++ B) (X ++ Y) ((A ++ B).length + (X ++ Y).length + 1) a b e with
            | Except.error er => Except.error er
            | Except.ok (gi', si') => Except.ok (a, b, gi', si')) = (Except.ok (gs, ss, gi', si') : Res _) ∧
            gi' ≤ A.length ∧ si' ≤ X.length := by
        intro a b e ha hb he hh
        cases hl : spanLoop A X (A.length + X.length + 1) a b e with
        | error er => rw [hl] at hh; cases hh
        | ok r =>
          rw [hl] at hh
          injection hh with hh
          simp only [Prod.mk.injEq] at hh
          obtain ⟨rfl, rfl, e1, e2⟩ := hh
          obtain ⟨q1, q2, q3⟩ := spanLoop_prefix h h' ha hb he hl
          have := spanLoop_mono (k := B.length + Y.length) q1
          rw [show (A ++ B).length + (X ++ Y).length + 1 = A.length + X.length + 1 + (B.length + Y.length) by simp; omega, this]
          simp only [e1, e2] at q2 q3 ⊢
          exact ⟨trivial, q2, q3⟩
      by_cases hg : g.multi = true
      · simp only [hg, if_true] at hf ⊢
        by_cases hb : (!s.multi && decide (s.span.start < g.span.start)) = true
        · simp only [hb, if_true] at hf ⊢
          exact key _ _ _ (by omega) (by omega) (h.left g m1) hf
        · simp only [hb, if_false] at hf ⊢
          exact key _ _ _ (by omega) (by simp; omega) (h.left g m1) hf
      · have hg' : g.multi = false := by simpa using hg
        simp only [hg', Bool.false_eq_true, if_false, Bool.not_false, Bool.true_and, decide_eq_true_eq] at hf ⊢
        by_cases hb : g.span.start < s.span.start
        · simp only [hb, if_true] at hf ⊢
          exact key _ _ _ (by omega) (by omega) (h'.left s m2) hf
        · simp only [hb, if_false] at hf ⊢
          exact key _ _ _ (by omega) (by omega) (h'.left s m2) hf

theorem forms_prefix (lower : Str → Str) (A B : List UDWord) {a b : Nat} (hb : b ≤ A.length) :
    forms lower (A ++ B) a b = forms lower A a b := by
  unfold forms slice
  by_cases ha : a ≤ A.length
  · rw [List.drop_append_of_le_length ha, List.take_append_of_le_length (by rw [List.length_drop]; omega)]
  · rw [show b - a = 0 by omega]
    simp

theorem alignSpan_prefix (lower : Str → Str) {gs ss gi si : Nat} (hg : gi ≤ A.length) (hs : si ≤ X.length) :
    alignSpan lower (A ++ B) (X ++ Y) gs ss gi si = alignSpan lower A X gs ss gi si := by
  unfold alignSpan
  rw [forms_prefix lower A B hg, forms_prefix lower X Y hs]

/-- If the first parts have the same tokens, aligning the whole is aligning the first parts and then the rest. -/
theorem alignLoop_prefix (lower : Str → Str) {ts : List Span} (hA : WordsOf ts A) (hX : WordsOf ts X) (h : PartsAt c A B)
    (h' : PartsAt c X Y) : ∀ (f gi si d : Nat) (p : List (Nat × Nat)), gi ≤ A.length → si ≤ X.length → SplitAt A gi d →
    SplitAt X si d → alignLoop lower A X f gi si = .ok p →
    ∃ u < f, ∀ v q, alignLoop lower (A ++ B) (X ++ Y) v A.length X.length = .ok q →
      alignLoop lower (A ++ B) (X ++ Y) (u + v) gi si = .ok (p ++ q) := by
  have ended : ∀ {P Q : List UDWord} {i j d : Nat}, WordsOf ts P → WordsOf ts Q → SplitAt P i d → SplitAt Q j d →
      P.length ≤ i → Q.length ≤ j := by
    intro P Q i j d hP hQ sP sQ hi
    by_contra hj
    have hj' : j < Q.length := by omega
    have hw : Q[j]? = some Q[j] := List.getElem?_eq_getElem hj'
    obtain ⟨v, hv, he⟩ := hP.all _ (hQ.mem Q[j] (List.getElem_mem hj'))
    obtain ⟨k, hk, e⟩ := List.getElem_of_mem hv
    have h1 := sP.1 k v (by omega) (by rw [List.getElem?_eq_getElem hk, e])
    have h2 := sQ.2 j Q[j] (Nat.le_refl _) hw
    rw [he] at h1
    omega
  intro f
  induction f with
  | zero => intro gi si d p _ _ _ _ hr; cases hr
  | succ f ih =>
    intro gi si d p hg hs sg ss hr
    rw [alignLoop] at hr
    cases h1 : A[gi]? with
    | none =>
      rw [h1] at hr
      injection hr with hr
      subst hr
      have e1 : gi = A.length := by have := List.getElem?_eq_none_iff.1 h1; omega
      have e2 := ended hA hX sg ss (by omega)
      have e2 : si = X.length := by omega
      subst e1
      subst e2
      exact ⟨0, by omega, fun v q hq => by simpa using hq⟩
    | some g =>
      cases h2 : X[si]? with
      | none =>
        exfalso
        have := List.getElem?_eq_none_iff.1 h2
        have := ended hX hA ss sg this
        have := (List.getElem?_eq_some_iff.1 h1).1
        omega
      | some s =>
        have hsp := next_same hA hX sg ss h1 h2
        have hmem := hA.mem g (List.mem_of_getElem? h1)
        have l1 := (List.getElem?_eq_some_iff.1 h1).1
        have l2 := (List.getElem?_eq_some_iff.1 h2).1
        rw [h1, h2] at hr
        simp only at hr
        have hJ : ∀ u v, alignLoop lower (A ++ B) (X ++ Y) (u + 1 + v) gi si = alignLoop lower (A ++ B) (X ++ Y) (u + v + 1) gi si := by
          intro u v
          rw [show u + 1 + v = u + v + 1 by omega]
        have g1 : (A ++ B)[gi]? = some g := by rw [List.getElem?_append_left l1, h1]
        have g2 : (X ++ Y)[si]? = some s := by rw [List.getElem?_append_left l2, h2]
        by_cases hm : (g.multi || s.multi) = true
        · rw [if_pos hm] at hr
          cases hf : findMultiwordSpan A X gi si with
          | error er => rw [hf] at hr; cases hr
          | ok r =>
            obtain ⟨gs, ss', gi', si'⟩ := r
            rw [hf] at hr
            simp only at hr
            obtain ⟨rfl, rfl, q1, q2, q3, q4⟩ := findMultiwordSpan_token hA hX sg ss h1 h2 hf
            obtain ⟨w1, w2, w3⟩ := findMultiwordSpan_prefix h h' hf
            cases ha : alignSpan lower A X gs ss' gi' si' with
            | error er => rw [ha] at hr; cases hr
            | ok l =>
              rw [ha] at hr
              simp only at hr
              cases hr' : alignLoop lower A X f gi' si' with
              | error er => rw [hr'] at hr; cases hr
              | ok rest =>
                rw [hr'] at hr
                injection hr with hr
                subst hr
                obtain ⟨u, hu, hq⟩ := ih gi' si' _ rest w2 w3 q3 q4 hr'
                refine ⟨u + 1, by omega, fun v q hv => ?_⟩
                rw [hJ, alignLoop, g1, g2]
                simp only
                rw [if_pos hm, w1]
                simp only
                rw [alignSpan_prefix lower w2 w3, ha]
                simp only
                rw [hq v q hv, List.append_assoc]
        · rw [if_neg hm, if_pos (by rw [hsp]; exact ⟨rfl, rfl⟩)] at hr
          cases hr' : alignLoop lower A X f (gi + 1) (si + 1) with
          | error er => rw [hr'] at hr; cases hr
          | ok rest =>
            rw [hr'] at hr
            injection hr with hr
            subst hr
            have hgm : g.multi = false := by simp at hm; exact hm.1
            have hsm : s.multi = false := by simp at hm; exact hm.2
            have key : ∀ {ws : List UDWord} {i : Nat} {w : UDWord}, WordsOf ts ws → ws[i]? = some w → w.multi = false →
                w.span = g.span → SplitAt ws (i + 1) g.span.stop := by
              intro ws i w hw hi hwm hws
              have hne := hw.nonEmpty.get hi
              constructor
              · intro k v hk hv
                have := hw.start_mono (by omega : k ≤ i) hv hi
                rw [hws] at this hne
                omega
              · intro k v hk hv
                rcases wordBefore_get hw.ordered (by omega : i < k) hi hv with ⟨e, _⟩ | e
                · rw [hwm] at e; cases e
                · rw [hws] at e; exact e
            obtain ⟨u, hu, hq⟩ := ih (gi + 1) (si + 1) _ rest (by omega) (by omega) (key hA h1 hgm rfl) (key hX h2 hsm hsp.symm) hr'
            refine ⟨u + 1, by omega, fun v q hv => ?_⟩
            rw [hJ, alignLoop, g1, g2]
            simp only
            rw [if_neg hm, if_pos (by rw [hsp]; exact ⟨rfl, rfl⟩), hq v q hv]
            rfl

end

end Verif
