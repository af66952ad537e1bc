import Verif.Proofs.UdTree
import Verif.Proofs.Text

/-! # The UD loader follows the grammar of files -/

namespace Verif

/-- The rest of a run of the loader. -/
def udRun (d : Nat) (st : LState) (lines : List Str) : Res UD :=
  match forM' (loadStep d) st lines with
  | .error e => .error e
  | .ok st => loadEnd st

theorem udRun_nil (d : Nat) (st : LState) : udRun d st [] = loadEnd st := rfl

theorem udRun_cons (d : Nat) (st : LState) (l : Str) (ls : List Str) :
    udRun d st (l :: ls) = match loadStep d st l with
      | .error e => .error e
      | .ok st' => udRun d st' ls := by
  unfold udRun
  rw [forM']
  cases loadStep d st l <;> rfl

theorem loadConllu_eq (d : Nat) (text : Str) : loadConllu d text = udRun d {} (udFileLines text) := rfl

def mkWord (span : Span) (multi : Bool) (r : List Str) : UDWord :=
  { span, columns := r, multi, parent := .none }

/-- The state after one more token. -/
def addTok (st : LState) (u : UdToken) : LState :=
  { st with
    ud := { st.ud with
      characters := st.ud.characters ++ u.form
      tokens := st.ud.tokens ++ [⟨st.index, st.index + u.form.length⟩]
      words := st.ud.words ++ u.rows.map (mkWord ⟨st.index, st.index + u.form.length⟩ u.multi) }
    index := st.index + u.form.length }

def addToks (st : LState) (us : List UdToken) : LState := us.foldl addTok st

theorem splitOn1_headD (c : Char) (s : Str) : (splitOn1 c s).headD [] = s.takeWhile (· ≠ c) := by
  induction s with
  | nil => rfl
  | cons x s ih =>
    rw [splitOn1]
    by_cases h : x = c
    · simp [h]
    · rw [if_neg h]
      cases hs : splitOn1 c s with
      | nil => rw [hs] at ih; rw [List.takeWhile_cons_of_pos (by simp [h]), ← ih]; rfl
      | cons w ws => rw [hs] at ih; rw [List.takeWhile_cons_of_pos (by simp [h]), ← ih]; rfl

theorem UDWord.new_eq (span : Span) (r : List Str) (multi : Bool) :
    UDWord.new span r multi = mkWord span multi (cutDeprel r) := by
  unfold UDWord.new mkWord cutDeprel
  congr 2
  funext d
  exact splitOn1_headD _ _

theorem addToks_fields (st : LState) (us : List UdToken) :
    (addToks st us).sentStart = st.sentStart ∧ (addToks st us).pending = st.pending ∧
    (addToks st us).ud.words.length = st.ud.words.length + (rowsOf us).length := by
  induction us generalizing st with
  | nil => simp [addToks, rowsOf]
  | cons u us ih =>
    obtain ⟨h1, h2, h3⟩ := ih (addTok st u)
    refine ⟨h1, h2, ?_⟩
    show (addToks (addTok st u) us).ud.words.length = _
    rw [h3]
    simp [addTok, rowsOf]; omega

/-- Reading the words of a multi-word token. -/
theorem run_pending (d : Nat) (st : LState) (tok : Span) (htok : st.ud.tokens.getLast? = some tok)
    (wl rest : List Str) (hp : st.pending = wl.length) (hw : ∀ w ∈ wl, (splitOn1 '\t' w).length = 10) :
    udRun d st (wl ++ rest) = udRun d { st with
      ud := { st.ud with words := st.ud.words ++ wl.map (fun w => mkWord tok true (cutDeprel (splitOn1 '\t' w))) }
      pending := 0 } rest := by
  induction wl generalizing st with
  | nil => simp at hp; simp [← hp]
  | cons w wl ih =>
    have hw0 := hw w (by simp)
    rw [List.cons_append, udRun_cons]
    have e : loadStep d st w = .ok { st with
        ud := { st.ud with words := st.ud.words ++ [mkWord tok true (cutDeprel (splitOn1 '\t' w))] }
        pending := wl.length } := by
      rw [loadStep, if_pos (by simp [hp]), loadPending, if_neg (by simp [hw0])]
      simp only [htok, UDWord.new_eq, hp, List.length_cons, Nat.add_sub_cancel]
    rw [e]
    simp only
    rw [ih { st with
        ud := { st.ud with words := st.ud.words ++ [mkWord tok true (cutDeprel (splitOn1 '\t' w))] }
        pending := wl.length } htok rfl (fun x hx => hw x (by simp [hx]))]
    simp

theorem not_nil_of_cols {l : Str} (h : (splitOn1 '\t' l).length = 10) : l ≠ [] := by
  rintro rfl
  simp [splitOn1] at h

theorem loadLine_cols {d : Nat} {st : LState} {s : Nat} {l : Str} (h : (splitOn1 '\t' l).length = 10) :
    loadLine d st s l = loadRow st s (splitOn1 '\t' l) := by
  rw [loadLine, if_neg (by simp [List.isEmpty_iff, not_nil_of_cols h]), loadToken, if_neg (by simp [h])]

theorem loadRow_skip {st : LState} {s : Nat} {r : List Str} (h : '.' ∈ colOf r colID) : loadRow st s r = .ok st :=
  if_pos h

theorem loadRow_word {st : LState} {s k : Nat} {r : List Str} {h : Int} (hd : '.' ∉ colOf r colID)
    (hm : '-' ∉ colOf r colID) (hf : noSpaces (colOf r colFORM) ≠ []) (hid : pyInt (colOf r colID) = .ok ((k : Int) + 1))
    (hh : pyInt (colOf r colHEAD) = .ok h) (h0 : 0 ≤ h) (hk : st.ud.words.length = s + k) :
    loadRow st s r = .ok (addTok st ⟨noSpaces (colOf r colFORM), false,
      [cutDeprel (withForm r (noSpaces (colOf r colFORM)))]⟩) := by
  rw [loadRow, if_neg hd, if_neg (show ¬ (surfaceForm r).isEmpty = true by rw [List.isEmpty_iff]; exact hf), if_neg hm, loadWord]
  have hid' : pyInt ((r.set colFORM (surfaceForm r)).getD colID []) = .ok ((k : Int) + 1) := by
    rw [List.getD_eq_getElem?_getD, List.getElem?_set_ne (by decide), ← List.getD_eq_getElem?_getD]
    exact hid
  have hh' : pyInt ((r.set colFORM (surfaceForm r)).getD colHEAD []) = .ok h := by
    rw [List.getD_eq_getElem?_getD, List.getElem?_set_ne (by decide), ← List.getD_eq_getElem?_getD]
    exact hh
  simp only [hid', hh']
  rw [if_neg (by simp only [addSurface]; omega), if_neg (by omega), UDWord.new_eq]
  rfl

theorem dash_of_split {id a b : Str} (h : splitOn1 '-' id = [a, b]) : '-' ∈ id := by
  by_contra hn
  rw [splitOn1_of_not_mem hn] at h
  simp at h

theorem loadRow_multi {st : LState} {s : Nat} {r : List Str} {a b : Str} {x y : Int} (hd : '.' ∉ colOf r colID)
    (hs : splitOn1 '-' (colOf r colID) = [a, b]) (hf : noSpaces (colOf r colFORM) ≠ [])
    (ha : pyInt a = .ok x) (hb : pyInt b = .ok y) :
    loadRow st s r = .ok { addTok st ⟨noSpaces (colOf r colFORM), true, []⟩ with pending := (y + 1 - x).toNat } := by
  rw [loadRow, if_neg hd, if_neg (show ¬ (surfaceForm r).isEmpty = true by rw [List.isEmpty_iff]; exact hf), if_pos (dash_of_split hs), loadRange]
  simp only [hs, ha, hb]
  simp [addTok, addSurface, noSpaces, colOf, surfaceForm]

theorem loadStep_in {d : Nat} {st : LState} {s : Nat} (h1 : st.pending = 0) (h2 : st.sentStart = some s) (l : Str) :
    loadStep d st l = loadLine d st s l := by
  rw [loadStep, if_neg (by omega), h2]

theorem body_run (d : Nat) {k : Nat} {body : List Str} {us : List UdToken} (h : UdLines k body us) :
    ∀ (st : LState) (s : Nat), st.pending = 0 → st.sentStart = some s → st.ud.words.length = s + k →
      ∀ rest, udRun d st (body ++ rest) = udRun d (addToks st us) rest := by
  induction h with
  | nil => intro st s _ _ _ rest; rfl
  | skip e hl hd _ ih =>
    subst e
    intro st s h1 h2 h3 rest
    rw [List.cons_append, udRun_cons, loadStep_in h1 h2, loadLine_cols hl, loadRow_skip hd]
    exact ih st s h1 h2 h3 rest
  | word e hl hd hm ef hf hid hh h0 _ ih =>
    subst e ef
    intro st s h1 h2 h3 rest
    rw [List.cons_append, udRun_cons, loadStep_in h1 h2, loadLine_cols hl, loadRow_word hd hm hf hid hh h0 h3]
    refine ih (addTok st _) s h1 h2 ?_ rest
    simp [addTok, h3]; omega
  | multi e hl hd hs ef hf ha hb hlen hw _ ih =>
    rename_i k l form a b r x y wl ls us _
    subst e ef
    intro st s h1 h2 h3 rest
    rw [List.cons_append, udRun_cons, List.append_assoc, loadStep_in h1 h2, loadLine_cols hl,
      loadRow_multi hd hs hf ha hb]
    simp only
    rw [run_pending d _ _ (by simp [addTok]; rfl) wl (ls ++ rest) hlen.symm hw]
    refine Eq.trans ?_ (ih (addTok st ⟨_, true, _⟩) s h1 h2 ?_ rest)
    · congr 1
      simp [addTok, h1]
    · simp [addTok, h3]; omega

theorem pending_inv {d : Nat} {st : LState} {ls : List Str} {ud : UD} (h : udRun d st ls = .ok ud) :
    ∃ wl rest, ls = wl ++ rest ∧ wl.length = st.pending ∧ ∀ w ∈ wl, (splitOn1 '\t' w).length = 10 := by
  induction ls generalizing st with
  | nil =>
    rw [udRun_nil, loadEnd] at h
    split at h
    · cases h
    · exact ⟨[], [], rfl, by simp; omega, by simp⟩
  | cons l ls ih =>
    by_cases hp : st.pending > 0
    · rw [udRun_cons, loadStep, if_pos hp, loadPending] at h
      split at h
      · cases h
      · rename_i st' hst
        split at hst
        · cases hst
        · rename_i hl
          split at hst
          · cases hst
          · injection hst with hst
            subst hst
            obtain ⟨wl, rest, h1, h2, h3⟩ := ih h
            refine ⟨l :: wl, rest, by rw [h1]; rfl, by simp [h2]; omega, ?_⟩
            intro w hw
            rcases List.mem_cons.1 hw with rfl | hw
            · simpa using hl
            · exact h3 w hw
    · exact ⟨[], l :: ls, rfl, by simp; omega, by simp⟩

theorem loadStep_multi_inv {st st' : LState} {s : Nat} {r : List Str} (h : loadRow st s r = .ok st')
    (hd : '.' ∉ colOf r colID) (hm : '-' ∈ colOf r colID) :
    ∃ a b x y, splitOn1 '-' (colOf r colID) = [a, b] ∧ noSpaces (colOf r colFORM) ≠ [] ∧
      pyInt a = .ok x ∧ pyInt b = .ok y ∧ st'.pending = (y + 1 - x).toNat := by
  rw [loadRow, if_neg hd] at h
  split at h
  · cases h
  · rename_i hf
    rw [loadRange] at h
    split at h
    · rename_i a b hs
      split at h
      · rename_i x y hx hy
        injection h with h
        subst h
        exact ⟨a, b, x, y, hs, fun e => hf (List.isEmpty_iff.2 e), hx, hy, rfl⟩
      · cases h
    · cases h

theorem loadStep_word_inv {st st' : LState} {s : Nat} {r : List Str} (h : loadRow st s r = .ok st')
    (hd : '.' ∉ colOf r colID) (hm : '-' ∉ colOf r colID) :
    ∃ h, noSpaces (colOf r colFORM) ≠ [] ∧ pyInt (colOf r colID) = .ok ((st.ud.words.length : Int) - s + 1) ∧
      pyInt (colOf r colHEAD) = .ok h ∧ 0 ≤ h := by
  rw [loadRow, if_neg hd] at h
  split at h
  · cases h
  · rename_i hf
    rw [loadWord] at h
    have e1 : (r.set colFORM (surfaceForm r)).getD colID [] = colOf r colID := by
      rw [List.getD_eq_getElem?_getD, List.getElem?_set_ne (by decide), ← List.getD_eq_getElem?_getD]
    have e2 : (r.set colFORM (surfaceForm r)).getD colHEAD [] = colOf r colHEAD := by
      rw [List.getD_eq_getElem?_getD, List.getElem?_set_ne (by decide), ← List.getD_eq_getElem?_getD]
    rw [e1, e2] at h
    split at h
    · cases h
    · rename_i wid hid
      split at h
      · cases h
      · rename_i hw
        split at h
        · cases h
        · rename_i hd hh
          split at h
          · cases h
          · refine ⟨hd, fun e => hf (List.isEmpty_iff.2 e), ?_, hh, by omega⟩
            rw [hid]
            congr 1
            exact not_not.1 hw

theorem body_inv {d : Nat} {ud : UD} : ∀ (n : Nat) (ls : List Str), ls.length ≤ n → ∀ (st : LState) (s k : Nat),
    st.pending = 0 → st.sentStart = some s → st.ud.words.length = s + k → udRun d st ls = .ok ud →
    ∃ body us rest, ls = body ++ [] :: rest ∧ UdLines k body us := by
  intro n
  induction n with
  | zero =>
    intro ls hn st s k h1 h2 h3 h
    have : ls = [] := List.length_eq_zero_iff.1 (by omega)
    subst this
    rw [udRun_nil, loadEnd, if_neg (by omega), h2] at h
    simp at h
  | succ n ih =>
    intro ls hn st s k h1 h2 h3 h
    cases ls with
    | nil =>
      rw [udRun_nil, loadEnd, if_neg (by omega), h2] at h
      simp at h
    | cons l ls =>
      simp only [List.length_cons] at hn
      by_cases hl : l = []
      · exact ⟨[], [], ls, by simp [hl], .nil k⟩
      · have h' := h
        rw [udRun_cons, loadStep_in h1 h2] at h
        split at h
        · cases h
        · rename_i st' hst
          have hlen : (splitOn1 '\t' l).length = 10 := by
            rw [loadLine, if_neg (by simpa [List.isEmpty_iff] using hl), loadToken] at hst
            split at hst
            · cases hst
            · rename_i hne; simpa using hne
          rw [loadLine_cols hlen] at hst
          generalize hr : splitOn1 '\t' l = r at hlen hst
          by_cases hd : '.' ∈ colOf r colID
          · rw [loadRow_skip hd] at hst
            injection hst with hst
            subst hst
            obtain ⟨body, us, rest, e, hu⟩ := ih ls (by omega) _ s k h1 h2 h3 h
            exact ⟨l :: body, us, rest, by rw [e]; rfl, .skip hr hlen hd hu⟩
          · by_cases hm : '-' ∈ colOf r colID
            · obtain ⟨a, b, x, y, q1, q2, q3, q4, q5⟩ := loadStep_multi_inv hst hd hm
              obtain ⟨wl, rest, p1, p2, p3⟩ := pending_inv h
              rw [loadRow_multi hd q1 q2 q3 q4] at hst
              injection hst with hst
              subst hst
              rw [p1, run_pending d _ _ (by simp [addTok]; rfl) wl rest p2.symm p3] at h
              obtain ⟨body, us, rest', e, hu⟩ := ih rest (by rw [p1, List.length_append] at hn; omega) _ s (k + wl.length)
                rfl (by simpa [addTok] using h2) (by simp [addTok, h3]; omega) h
              exact ⟨l :: (wl ++ body), _ :: us, rest', by rw [p1, e]; simp,
                .multi hr hlen hd q1 rfl q2 q3 q4 (by rw [p2]) p3 hu⟩
            · obtain ⟨hh, q1, q2, q3, q4⟩ := loadStep_word_inv hst hd hm
              have q2' : pyInt (colOf r colID) = .ok ((k : Int) + 1) := by rw [q2]; congr 1; omega
              rw [loadRow_word hd hm q1 q2' q3 q4 h3] at hst
              injection hst with hst
              subst hst
              obtain ⟨body, us, rest, e, hu⟩ := ih ls (by omega) _ s (k + 1) (by simpa [addTok] using h1)
                (by simpa [addTok] using h2) (by simp [addTok, h3]; omega) h
              exact ⟨l :: body, _ :: us, rest, by rw [e]; rfl, .word hr hlen hd hm rfl q1 q2' q3 q4 hu⟩

end Verif
