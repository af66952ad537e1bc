import Verif.Props.Conllu2

/-! When the writer fails, and with which exception. -/

namespace Verif

theorem forM'_err_kind {σ α : Type} {f : σ → α → Res σ} {x : Err} {l : List α}
    (h : ∀ s, ∀ a ∈ l, ∀ e, f s a = .error e → e = x) :
    ∀ {s e}, forM' f s l = .error e → e = x := by
  induction l with
  | nil => intro s e he; cases he
  | cons a l ih =>
    intro s e he
    simp only [forM'] at he
    cases hf : f s a with
    | error e' =>
      rw [hf] at he
      injection he with he
      exact he ▸ h s a (by simp) e' hf
    | ok s' =>
      rw [hf] at he
      exact ih (fun s a ha => h s a (by simp [ha])) he

section
variable {cols : Cols} {text : Str}

theorem toConll_err {k : Nat} {t : Token} {b : Bool} {e : Err}
    (h : toConll cols text Token.headSent k t b true = .error e) : e = .type := by
  by_cases hs : t.pos = none ∨ colFEATS ∈ cols
  · have := isRow_iff.mpr (⟨hs, rfl⟩ : _ ∧ rowFields cols text k t b = rowFields cols text k t b)
    unfold IsRow at this
    rw [this] at h
    cases h
  · rw [not_or] at hs
    obtain ⟨p, hp⟩ := Option.ne_none_iff_exists'.mp hs.1
    have hf : featsToString (extract cols colFEATS (some p.feats)) = .error .type := by
      simp [extract, hs.2, featsToString]
    unfold toConll at h
    simp only [hp, hf, bind, Except.bind] at h
    injection h with h
    exact h.symm

theorem writeRegular_err {sp : Bool} {st : WState} {t : Token} {e : Err}
    (h : writeRegular cols text sp st t = .error e) : e = .type := by
  unfold writeRegular at h
  cases hc : toConll cols text Token.headSent st.index t sp true with
  | error e' =>
    rw [hc] at h
    injection h with h
    exact h ▸ toConll_err hc
  | ok r => rw [hc] at h; cases h

theorem writeRegular_fine {sp : Bool} {st st' : WState} {t : Token}
    (h : writeRegular cols text sp st t = .ok st') :
    (t.pos = none ∨ colFEATS ∈ cols) ∧ st'.pending = st.pending := by
  unfold writeRegular at h
  cases hc : toConll cols text Token.headSent st.index t sp true with
  | error e' => rw [hc] at h; cases h
  | ok r =>
    rw [hc] at h
    injection h with h
    subst h
    exact ⟨(isRow_iff.mp hc).1, rfl⟩

theorem writeRegulars_fine {sp : Bool} {l : List Token} {st st' : WState}
    (h : forM' (writeRegular cols text sp) st l = .ok st') :
    ∀ t ∈ l, t.pos = none ∨ colFEATS ∈ cols := by
  induction l generalizing st with
  | nil => simp
  | cons t l ih =>
    simp only [forM'] at h
    cases hf : writeRegular cols text sp st t with
    | error e => rw [hf] at h; cases h
    | ok s1 =>
      rw [hf] at h
      rw [List.forall_mem_cons]
      exact ⟨(writeRegular_fine hf).1, ih h⟩

theorem writeMultiword_err {st : WState} {i : Nat} {f : Token} {g : List Token} {e : Err}
    (h : writeMultiword cols text st i f g = .error e) : e = .type :=
  forM'_err_kind (fun _ _ _ _ => writeRegular_err) h

theorem writeTokenRegular_err {st : WState} {t : Token} {e : Err}
    (h : writeTokenRegular cols text st t = .error e) : e = .type := by
  unfold writeTokenRegular at h
  split at h
  · cases h
  · exact writeRegular_err h

theorem writeToken_err {st : WState} {t : Token} {e : Err}
    (h : writeToken cols text st t = .error e) : e = .type := by
  unfold writeToken at h
  split at h
  · exact writeTokenRegular_err h
  · split at h
    · cases h
    · split at h
      · rename_i e' he
        injection h with h
        exact h ▸ writeMultiword_err he
      · exact writeTokenRegular_err h

theorem writeSentence_err {st : WState} {l : List Token} {e : Err}
    (h : writeSentence cols text st l = .error e) : e = .type := by
  unfold writeSentence at h
  split at h
  · rename_i e' he
    injection h with h
    exact h ▸ forM'_err_kind (fun _ _ _ _ => writeToken_err) he
  · unfold writeEnd at h
    split at h
    · cases h
    · split at h
      · rename_i e' he
        injection h with h
        exact h ▸ writeMultiword_err he
      · cases h

/-- The words waiting for the end of their multiword token. -/
def pendToks (st : WState) : List Token :=
  match st.pending with
  | none => []
  | some (_, _, g) => g

theorem writeTokenRegular_fine {st st' : WState} {t : Token}
    (h : writeTokenRegular cols text st t = .ok st') :
    (t.pos = none ∨ colFEATS ∈ cols) ∨ t ∈ pendToks st' := by
  unfold writeTokenRegular at h
  split at h
  · injection h with h
    subst h
    exact .inr (by simp [pendToks])
  · exact .inl (writeRegular_fine h).1

theorem writeToken_fine {st st' : WState} {t : Token} (h : writeToken cols text st t = .ok st') :
    ∀ u ∈ t :: pendToks st, (u.pos = none ∨ colFEATS ∈ cols) ∨ u ∈ pendToks st' := by
  unfold writeToken at h
  cases hp : st.pending with
  | none =>
    rw [hp] at h
    simp only [pendToks, hp, List.mem_singleton, forall_eq]
    exact writeTokenRegular_fine h
  | some q =>
    obtain ⟨i, f, g⟩ := q
    rw [hp] at h
    simp only at h
    simp only [pendToks, hp, List.forall_mem_cons]
    split at h
    · injection h with h
      subst h
      simp only
      exact ⟨.inr (by simp), fun u hu => .inr (by simp [hu])⟩
    · cases hm : writeMultiword cols text st i f g with
      | error e => rw [hm] at h; cases h
      | ok st1 =>
        rw [hm] at h
        have h1 := writeRegulars_fine hm
        exact ⟨writeTokenRegular_fine h, fun u hu => .inl (h1 u hu)⟩

theorem writeTokens_fine {l : List Token} {st st' : WState}
    (h : forM' (writeToken cols text) st l = .ok st') :
    ∀ u, u ∈ l ∨ u ∈ pendToks st → (u.pos = none ∨ colFEATS ∈ cols) ∨ u ∈ pendToks st' := by
  induction l generalizing st with
  | nil =>
    simp only [forM'] at h
    injection h with h
    subst h
    intro u hu
    exact .inr (by simpa using hu)
  | cons t l ih =>
    simp only [forM'] at h
    cases hf : writeToken cols text st t with
    | error e => rw [hf] at h; cases h
    | ok s1 =>
      rw [hf] at h
      have h1 := writeToken_fine hf
      have h2 := ih h
      intro u hu
      by_cases hul : u ∈ l
      · exact h2 u (.inl hul)
      · have : u ∈ t :: pendToks st := by
          rcases hu with hu | hu
          · rcases List.mem_cons.mp hu with rfl | hu
            · simp
            · exact absurd hu hul
          · simp [hu]
        rcases h1 u this with h3 | h3
        · exact .inl h3
        · exact h2 u (.inr h3)

theorem writeSentence_fine {l : List Token} {st st' : WState}
    (h : writeSentence cols text st l = .ok st') :
    ∀ u ∈ l, u.pos = none ∨ colFEATS ∈ cols := by
  unfold writeSentence at h
  cases hf : forM' (writeToken cols text) st l with
  | error e => rw [hf] at h; cases h
  | ok s1 =>
    rw [hf] at h
    intro u hu
    rcases writeTokens_fine hf u (.inl hu) with h1 | h1
    · exact h1
    · simp only [writeEnd] at h
      unfold pendToks at h1
      cases hp : s1.pending with
      | none => simp [hp] at h1
      | some q =>
        obtain ⟨i, f, g⟩ := q
        rw [hp] at h h1
        simp only at h h1
        cases hm : writeMultiword cols text s1 i f g with
        | error e => rw [hm] at h; cases h
        | ok st1 => exact writeRegulars_fine hm u h1

theorem forM'_ok_each {σ α : Type} {f : σ → α → Res σ} {l : List α} {s s' : σ}
    (h : forM' f s l = .ok s') : ∀ a ∈ l, ∃ s1 s2, f s1 a = .ok s2 := by
  induction l generalizing s with
  | nil => simp
  | cons a l ih =>
    simp only [forM'] at h
    cases hf : f s a with
    | error e => rw [hf] at h; cases h
    | ok s1 =>
      rw [hf] at h
      rw [List.forall_mem_cons]
      exact ⟨⟨s, s1, hf⟩, ih h⟩

theorem writeDocument_err {o : Str} {d : Document} (hd : Built d) {e : Err}
    (h : writeDocument cols o d = .error e) : e = .type := by
  rw [writeDocument_eq hd] at h
  split at h
  · rename_i e' he
    injection h with h
    exact h ▸ forM'_err_kind (fun _ _ _ _ => writeSentence_err) he
  · cases h

theorem writeDocument_fine {o o' : Str} {d : Document} (hd : Built d)
    (h : writeDocument cols o d = .ok o') : ∀ t ∈ d.tokens, t.pos = none ∨ colFEATS ∈ cols := by
  rw [writeDocument_eq hd] at h
  split at h
  · cases h
  · rename_i st hst
    intro t ht
    have hfl := (C03_sentences_partition hd).2.2.2
    rw [← hfl, List.mem_flatten] at ht
    obtain ⟨l, hl, ht⟩ := ht
    obtain ⟨s1, s2, hs⟩ := forM'_ok_each hst l hl
    exact writeSentence_fine hs t ht

end

end Verif
