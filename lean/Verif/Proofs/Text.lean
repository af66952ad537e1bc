import Verif.Model.ConlluIO
import Verif.Proofs.PyLemmas

/-!
# Lemmas on text: splitting, joining, lines, numbers
-/

namespace Verif

/-! ### split and join -/

theorem splitOn1_ne_nil (sep : Char) (s : Str) : splitOn1 sep s ≠ [] := by
  cases s with
  | nil => simp [splitOn1]
  | cons c cs =>
    simp only [splitOn1]
    split
    · simp
    · cases h : splitOn1 sep cs <;> simp

theorem splitOn1_of_not_mem {sep : Char} {s : Str} (h : sep ∉ s) : splitOn1 sep s = [s] := by
  induction s with
  | nil => rfl
  | cons c cs ih =>
    simp only [List.mem_cons, not_or] at h
    simp only [splitOn1, if_neg (fun e => h.1 (Eq.symm e)), ih h.2]

theorem splitOn1_append {sep : Char} {s : Str} (h : sep ∉ s) (t : Str) :
    splitOn1 sep (s ++ sep :: t) = s :: splitOn1 sep t := by
  induction s with
  | nil => simp [splitOn1]
  | cons c cs ih =>
    simp only [List.mem_cons, not_or] at h
    simp only [List.cons_append, splitOn1, if_neg (fun e => h.1 (Eq.symm e)), ih h.2]

theorem splitOn1_joinWith {sep : Char} {ws : List Str} (hne : ws ≠ []) (h : ∀ w ∈ ws, sep ∉ w) :
    splitOn1 sep (joinWith sep ws) = ws := by
  induction ws with
  | nil => exact absurd rfl hne
  | cons w ws ih =>
    cases ws with
    | nil => exact splitOn1_of_not_mem (h w (by simp))
    | cons w' ws =>
      show splitOn1 sep (w ++ sep :: joinWith sep (w' :: ws)) = _
      rw [splitOn1_append (h w (by simp)), ih (by simp) (fun x hx => h x (by simp [hx]))]

theorem joinWith_splitOn1 (sep : Char) (s : Str) : joinWith sep (splitOn1 sep s) = s := by
  induction s with
  | nil => rfl
  | cons c cs ih =>
    simp only [splitOn1]
    split
    · rename_i h
      subst h
      cases hs : splitOn1 c cs with
      | nil => exact absurd hs (splitOn1_ne_nil _ _)
      | cons w ws => rw [← hs]; rw [hs] at ih ⊢; simp only [joinWith, List.nil_append, ih]
    · cases hs : splitOn1 sep cs with
      | nil => exact absurd hs (splitOn1_ne_nil _ _)
      | cons w ws =>
        rw [hs] at ih
        cases ws with
        | nil => simp only [joinWith] at ih ⊢; rw [ih]
        | cons w' ws => simp only [joinWith, List.cons_append] at ih ⊢; rw [ih]

theorem mem_joinWith {sep c : Char} {ws : List Str} (h : c ∈ joinWith sep ws) :
    c = sep ∨ ∃ w ∈ ws, c ∈ w := by
  induction ws with
  | nil => simp [joinWith] at h
  | cons w ws ih =>
    cases ws with
    | nil => exact .inr ⟨w, by simp, h⟩
    | cons w' ws =>
      simp only [joinWith, List.mem_append, List.mem_cons] at h
      rcases h with h | h | h
      · exact .inr ⟨w, by simp, h⟩
      · exact .inl h
      · rcases ih h with h | ⟨x, hx, h⟩
        · exact .inl h
        · exact .inr ⟨x, by simp [hx], h⟩

theorem joinWith_head? {sep : Char} {w : Str} {ws : List Str} {c : Char} (h : w.head? = some c) :
    (joinWith sep (w :: ws)).head? = some c := by
  cases w with
  | nil => simp at h
  | cons a w => cases ws <;> simpa [joinWith] using h

theorem joinWith_getLast? {sep : Char} {w : Str} {ws : List Str} {c : Char}
    (h : w.getLast? = some c) (init : List Str) (e : ws = init ++ [w]) :
    (joinWith sep ws).getLast? = some c := by
  subst e
  induction init with
  | nil => exact h
  | cons a init ih =>
    have : ∀ l : List Str, l ≠ [] → joinWith sep (a :: l) = a ++ sep :: joinWith sep l := by
      intro l hl; cases l; exact absurd rfl hl; rfl
    rw [List.cons_append, this _ (by simp), List.getLast?_append, List.getLast?_cons, ih]
    simp

/-! ### lines -/

theorem fileLines_line {l : Str} (h : '\n' ∉ l) (rest : Str) :
    fileLines (l ++ '\n' :: rest) = (l ++ ['\n']) :: fileLines rest := by
  induction l with
  | nil => simp [fileLines]
  | cons c cs ih =>
    simp only [List.mem_cons, not_or] at h
    simp only [List.cons_append, fileLines, if_neg (fun e => h.1 (Eq.symm e)), ih h.2]

theorem fileLines_lines {ls : List Str} (h : ∀ l ∈ ls, '\n' ∉ l) (rest : Str) :
    fileLines ((ls.flatMap fun l => l ++ ['\n']) ++ rest) = ls.map (fun l => l ++ ['\n']) ++ fileLines rest := by
  induction ls with
  | nil => rfl
  | cons l ls ih =>
    simp only [List.flatMap_cons, List.append_assoc, List.map_cons, List.cons_append, List.nil_append]
    rw [fileLines_line (h l (by simp)), ih (fun x hx => h x (by simp [hx]))]

theorem stripBy_of_ends {p : Char → Bool} {s : Str} (h1 : ∀ c, s.head? = some c → p c = false)
    (h2 : ∀ c, s.getLast? = some c → p c = false) : stripBy p s = s := by
  unfold stripBy
  have e1 : s.dropWhile p = s := by
    cases s with
    | nil => rfl
    | cons c cs => simp [List.dropWhile, h1 c rfl]
  rw [e1]
  have e2 : s.reverse.dropWhile p = s.reverse := by
    have : ∀ c, s.reverse.head? = some c → p c = false := fun c hc => h2 c (by simpa using hc)
    cases hr : s.reverse with
    | nil => rfl
    | cons c cs => rw [hr] at this; simp [List.dropWhile, this c rfl]
  rw [e2, List.reverse_reverse]

theorem stripBy_snoc {p : Char → Bool} {s : Str} {c : Char} (hc : p c = true)
    (h1 : ∀ c, s.head? = some c → p c = false) (h2 : ∀ c, s.getLast? = some c → p c = false) :
    stripBy p (s ++ [c]) = s := by
  cases s with
  | nil => simp [stripBy, hc]
  | cons a s =>
    have := stripBy_of_ends h1 h2
    unfold stripBy at this ⊢
    have ha := h1 a rfl
    simp only [List.cons_append, List.dropWhile, ha] at this ⊢
    simp only [List.reverse_cons, List.reverse_append, List.reverse_nil, List.nil_append,
      List.cons_append, List.dropWhile, hc] at this ⊢
    exact this

/-! ### numbers -/

theorem digitChar_toNat (n : Nat) : (digitChar n).toNat = 48 + n % 10 := by
  unfold digitChar
  have : n % 10 < 10 := Nat.mod_lt _ (by omega)
  generalize n % 10 = k at *
  have : ∀ k < 10, (Char.ofNat (48 + k)).toNat = 48 + k := by decide
  exact this k ‹_›

theorem digitVal_digitChar (n : Nat) : digitVal (digitChar n) = some (n % 10) := by
  unfold digitVal
  rw [digitChar_toNat, if_pos (by omega)]
  simp

theorem parseDigits_digit {acc : Nat} {d : Bool} {c : Char} {cs : Str} {v : Nat} (h : digitVal c = some v) :
    parseDigits acc d (c :: cs) = parseDigits (acc * 10 + v) true cs := by
  have hc : c ≠ '_' := by
    rintro rfl
    simp [digitVal] at h
  rw [parseDigits, if_neg hc, h]

theorem parseDigits_natStrAux (f n acc : Nat) (d : Bool) (s : Str) (hf : n < f) :
    ∃ k, parseDigits acc d (natStrAux f n s) = parseDigits (acc * 10 ^ k + n) true s := by
  induction f generalizing n acc d s with
  | zero => omega
  | succ f ih =>
    unfold natStrAux
    split
    · rename_i h
      refine ⟨1, ?_⟩
      rw [parseDigits_digit (digitVal_digitChar n), Nat.mod_eq_of_lt h, Nat.pow_one]
    · rename_i h
      obtain ⟨k, hk⟩ := ih (n / 10) acc d (digitChar n :: s) (by omega)
      refine ⟨k + 1, ?_⟩
      rw [hk, parseDigits_digit (digitVal_digitChar n)]
      congr 1
      rw [Nat.pow_succ]
      have := Nat.div_add_mod n 10
      rw [Nat.add_mul, Nat.mul_assoc]; omega

theorem parseDigits_natStr (n : Nat) : parseDigits 0 false (natStr n) = some n := by
  obtain ⟨k, hk⟩ := parseDigits_natStrAux (n + 1) n 0 false [] (by omega)
  unfold natStr
  rw [hk]
  simp [parseDigits]

theorem natStrAux_mem {f n : Nat} {s : Str} {c : Char} (h : c ∈ natStrAux f n s) :
    (48 ≤ c.toNat ∧ c.toNat ≤ 57) ∨ c ∈ s := by
  induction f generalizing n s with
  | zero => exact .inr h
  | succ f ih =>
    unfold natStrAux at h
    have hd : ∀ n, 48 ≤ (digitChar n).toNat ∧ (digitChar n).toNat ≤ 57 := fun n => by
      rw [digitChar_toNat]; omega
    split at h
    · rcases List.mem_cons.mp h with rfl | h
      · exact .inl (hd n)
      · exact .inr h
    · rcases ih h with h | h
      · exact .inl h
      · rcases List.mem_cons.mp h with rfl | h
        · exact .inl (hd n)
        · exact .inr h

theorem natStr_digit {n : Nat} {c : Char} (h : c ∈ natStr n) : 48 ≤ c.toNat ∧ c.toNat ≤ 57 := by
  rcases natStrAux_mem h with h | h
  · exact h
  · simp at h

theorem natStrAux_ne_nil {f n : Nat} {s : Str} (h : 0 < f ∨ s ≠ []) : natStrAux f n s ≠ [] := by
  induction f generalizing n s with
  | zero => rcases h with h | h; omega; exact h
  | succ f ih =>
    unfold natStrAux
    split
    · simp
    · exact ih (.inr (by simp))

theorem natStr_ne_nil (n : Nat) : natStr n ≠ [] := natStrAux_ne_nil (.inl (by omega))

theorem isSpace_digit {c : Char} (h : 48 ≤ c.toNat ∧ c.toNat ≤ 57) : isSpace c = false := by
  unfold isSpace
  simp only [Bool.or_eq_false_iff, Bool.and_eq_false_iff, decide_eq_false_iff_not, beq_eq_false_iff_ne]
  omega

theorem strip_natStr (n : Nat) : stripBy isSpace (natStr n) = natStr n :=
  stripBy_of_ends (fun c hc => isSpace_digit (natStr_digit (List.mem_of_mem_head? hc)))
    (fun c hc => isSpace_digit (natStr_digit (List.mem_of_getLast? hc)))

theorem natStr_not_mem {n : Nat} {c : Char} (h : ¬ (48 ≤ c.toNat ∧ c.toNat ≤ 57)) : c ∉ natStr n :=
  fun hc => h (natStr_digit hc)

theorem natStr_head {n : Nat} {c : Char} (h : ¬ (48 ≤ c.toNat ∧ c.toNat ≤ 57)) :
    (natStr n).head? ≠ some c := fun e => natStr_not_mem h (List.mem_of_mem_head? e)

theorem pyInt_natStr (n : Nat) : pyInt (natStr n) = .ok (n : Int) := by
  unfold pyInt signedDigits
  rw [strip_natStr, if_neg (natStr_head (by decide)), if_neg (natStr_head (by decide)),
    parseDigits_natStr]
  rfl

theorem pyInt_intStr (i : Int) : pyInt (intStr i) = .ok i := by
  cases i with
  | ofNat n => exact pyInt_natStr n
  | negSucc n =>
    have hs : stripBy isSpace ('-' :: natStr (n + 1)) = '-' :: natStr (n + 1) := by
      apply stripBy_of_ends
      · intro c hc; simp at hc; subst hc; decide
      · intro c hc
        rw [List.getLast?_cons] at hc
        cases hl : (natStr (n + 1)).getLast? with
        | none => exact absurd (List.getLast?_eq_none_iff.mp hl) (natStr_ne_nil _)
        | some x =>
          rw [hl] at hc
          simp at hc
          subst hc
          exact isSpace_digit (natStr_digit (List.mem_of_getLast? hl))
    unfold pyInt signedDigits intStr
    rw [hs, if_pos (by simp), List.tail_cons, parseDigits_natStr]
    rfl

theorem intStr_mem {i : Int} {c : Char} (h : c ∈ intStr i) :
    c = '-' ∨ 48 ≤ c.toNat ∧ c.toNat ≤ 57 := by
  cases i with
  | ofNat n => exact .inr (natStr_digit h)
  | negSucc n =>
    rcases List.mem_cons.mp h with h | h
    · exact .inl h
    · exact .inr (natStr_digit h)

theorem intStr_ne_nil (i : Int) : intStr i ≠ [] := by
  cases i with
  | ofNat n => exact natStr_ne_nil n
  | negSucc n => simp [intStr]

end Verif
