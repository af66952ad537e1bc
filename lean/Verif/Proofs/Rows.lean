import Verif.Proofs.Writer
import Verif.Proofs.Text

/-!
# The rows the writer produces
-/

namespace Verif

/-- The FEATS column. -/
def featsField (d : Dict Str Str) : Str :=
  if d.entries.isEmpty then underscore else joinWith '|' (pySorted (· ≤ ·) (d.entries.map featStr))

/-- The fields of the row of a word. -/
def rowFields (cols : Cols) (text : Str) (k : Nat) (t : Token) (b : Bool) : List Str :=
  [natStr (k + 1), tokText text t, shield (extract cols colLEMMA t.lemma'),
   (match t.pos with | none => underscore | some p => shield (extract cols colUPOS p.upos)),
   (match t.pos with | none => underscore | some p => shield (extract cols colXPOS p.xpos)),
   (match t.pos with | none => underscore | some p => featsField p.feats),
   (match extract cols colHEAD t.headSent with | some v => normIndex v | none => natStr k),
   (match extract cols colHEAD t.headSent with
    | some _ => shield (extract cols colDEPREL t.deprel) | none => underscore),
   underscore,
   if b && !spaceAfter text t then spaceAfterNo else underscore]

theorem isRow_iff {cols : Cols} {text : Str} {k : Nat} {t : Token} {b : Bool} {r : List Str} :
    IsRow cols text k t b r ↔ (t.pos = none ∨ colFEATS ∈ cols) ∧ r = rowFields cols text k t b := by
  have hn : normIndex (k : Int) = natStr (k + 1) := by
    unfold normIndex
    rw [if_neg (by omega)]
    rfl
  unfold IsRow toConll rowFields
  rw [hn]
  cases hp : t.pos with
  | none =>
    cases he : extract cols colHEAD t.headSent with
    | none =>
      simp only [bind, Except.bind, pure, Except.pure, true_or, true_and, if_true]
      exact ⟨fun h => by injection h with h; exact h.symm, fun h => by rw [h]⟩
    | some v =>
      simp only [bind, Except.bind, pure, Except.pure, true_or, true_and]
      exact ⟨fun h => by injection h with h; exact h.symm, fun h => by rw [h]⟩
  | some p =>
    by_cases hf : colFEATS ∈ cols
    · have : featsToString (extract cols colFEATS (some p.feats)) = .ok (featsField p.feats) := by
        simp [extract, hf, featsToString, featsField]
      cases he : extract cols colHEAD t.headSent with
      | none =>
        simp only [this, bind, Except.bind, pure, Except.pure, hf, or_true, true_and, if_true]
        exact ⟨fun h => by injection h with h; exact h.symm, fun h => by rw [h]⟩
      | some v =>
        simp only [this, bind, Except.bind, pure, Except.pure, hf, or_true, true_and]
        exact ⟨fun h => by injection h with h; exact h.symm, fun h => by rw [h]⟩
    · have : featsToString (extract cols colFEATS (some p.feats)) = .error .type := by
        simp [extract, hf, featsToString]
      simp [this, bind, Except.bind, hf]

/-- What makes a row readable again. -/
structure GoodRow (r : List Str) : Prop where
  plain : ∀ f ∈ r, Plain f
  head : ∃ w ws c, r = w :: ws ∧ w.head? = some c ∧ 48 ≤ c.toNat ∧ c.toNat ≤ 57
  last : ∃ init, r = init ++ [underscore] ∨ r = init ++ [spaceAfterNo]

theorem GoodRow.ne_nil {r : List Str} (h : GoodRow r) : r ≠ [] := by
  obtain ⟨w, ws, c, rfl, _⟩ := h.head; simp

theorem GoodRow.split {r : List Str} (h : GoodRow r) : splitOn1 '\t' (joinWith '\t' r) = r :=
  splitOn1_joinWith h.ne_nil (fun w hw => (h.plain w hw).1)

theorem GoodRow.newline {r : List Str} (h : GoodRow r) : '\n' ∉ joinWith '\t' r := by
  intro hc
  rcases mem_joinWith hc with hc | ⟨w, hw, hc⟩
  · exact absurd hc (by decide)
  · exact (h.plain w hw).2 hc

theorem GoodRow.joined_head {r : List Str} (h : GoodRow r) :
    ∃ c, (joinWith '\t' r).head? = some c ∧ 48 ≤ c.toNat ∧ c.toNat ≤ 57 := by
  obtain ⟨w, ws, c, rfl, h1, h2⟩ := h.head
  exact ⟨c, joinWith_head? h1, h2⟩

theorem GoodRow.joined_ne {r : List Str} (h : GoodRow r) : joinWith '\t' r ≠ [] := by
  obtain ⟨c, h1, _⟩ := h.joined_head
  intro e; rw [e] at h1; simp at h1

theorem GoodRow.not_comment {r : List Str} (h : GoodRow r) : (joinWith '\t' r).head? ≠ some '#' := by
  obtain ⟨c, h1, h2, h3⟩ := h.joined_head
  rw [h1]
  intro e
  injection e with e
  subst e
  revert h2; decide

theorem isEol_digit {c : Char} (h : 48 ≤ c.toNat ∧ c.toNat ≤ 57) : isEol c = false := by
  unfold isEol
  simp only [Bool.or_eq_false_iff, beq_eq_false_iff_ne]
  constructor <;> (rintro rfl; revert h; decide)

theorem GoodRow.strip {r : List Str} (h : GoodRow r) : stripBy isEol (formatLine r) = joinWith '\t' r := by
  unfold formatLine
  refine stripBy_snoc (by decide) ?_ ?_
  · obtain ⟨c, h1, h2⟩ := h.joined_head
    intro c' hc'
    rw [h1] at hc'
    injection hc' with hc'
    subst hc'
    exact isEol_digit h2
  · intro c hc
    obtain ⟨init, h1 | h1⟩ := h.last
    · rw [joinWith_getLast? (c := '_') (by rfl) init h1] at hc
      injection hc with hc
      subst hc; decide
    · rw [joinWith_getLast? (c := 'o') (by rfl) init h1] at hc
      injection hc with hc
      subst hc; decide

theorem Plain.of_mem {s : Str} (h : ∀ c ∈ s, c ≠ '\t' ∧ c ≠ '\n') : Plain s :=
  ⟨fun hc => (h _ hc).1 rfl, fun hc => (h _ hc).2 rfl⟩

theorem plain_natStr (n : Nat) : Plain (natStr n) :=
  ⟨natStr_not_mem (by decide), natStr_not_mem (by decide)⟩

theorem plain_underscore : Plain underscore := by decide
theorem plain_spaceAfterNo : Plain spaceAfterNo := by decide

theorem plain_normIndex (i : Int) : Plain (normIndex i) := by
  unfold normIndex
  split
  · decide
  · constructor <;> intro hc <;> rcases intStr_mem hc with h | h <;> revert h <;> decide

theorem plain_shield {cols : Cols} {c : Nat} {v : Option Str} (h : ∀ s, v = some s → Plain s) :
    Plain (shield (extract cols c v)) := by
  unfold shield extract
  split
  · cases v with
    | none => exact plain_underscore
    | some s => exact h s rfl
  · exact plain_underscore

theorem plain_append {a b : Str} (ha : Plain a) (hb : Plain b) : Plain (a ++ b) := by
  simp only [Plain, List.mem_append, not_or] at *
  exact ⟨⟨ha.1, hb.1⟩, ha.2, hb.2⟩

theorem plain_cons {c : Char} {b : Str} (hc : c ≠ '\t' ∧ c ≠ '\n') (hb : Plain b) : Plain (c :: b) := by
  simp only [Plain, List.mem_cons, not_or] at *
  exact ⟨⟨fun e => hc.1 e.symm, hb.1⟩, fun e => hc.2 e.symm, hb.2⟩

theorem plain_joinWith {sep : Char} (hs : sep ≠ '\t' ∧ sep ≠ '\n') {ws : List Str} (h : ∀ w ∈ ws, Plain w) :
    Plain (joinWith sep ws) := by
  constructor <;> intro hc <;> rcases mem_joinWith hc with e | ⟨w, hw, hc⟩
  · exact hs.1 e.symm
  · exact (h w hw).1 hc
  · exact hs.2 e.symm
  · exact (h w hw).2 hc

theorem plain_featsField {d : Dict Str Str} (h : ∀ e ∈ d.entries, Plain e.1 ∧ Plain e.2) :
    Plain (featsField d) := by
  unfold featsField
  split
  · exact plain_underscore
  · refine plain_joinWith (by decide) ?_
    intro w hw
    rw [mem_pySorted] at hw
    obtain ⟨e, he, rfl⟩ := List.mem_map.mp hw
    exact plain_append (h e he).1 (plain_cons (by decide) (h e he).2)

theorem natStr_head_digit (n : Nat) : ∃ c, (natStr n).head? = some c ∧ 48 ≤ c.toNat ∧ c.toNat ≤ 57 := by
  cases h : natStr n with
  | nil => exact absurd h (natStr_ne_nil n)
  | cons c cs => exact ⟨c, rfl, natStr_digit (n := n) (by rw [h]; simp)⟩

theorem rowFields_good (cols : Cols) {text : Str} (k : Nat) {t : Token} (b : Bool) (h : TokenPlain text t) :
    GoodRow (rowFields cols text k t b) := by
  obtain ⟨c, hc1, hc2⟩ := natStr_head_digit (k + 1)
  refine ⟨?_, ⟨_, _, c, rfl, hc1, hc2⟩, ?_⟩
  · intro f hf
    simp only [rowFields, List.mem_cons, List.not_mem_nil, or_false] at hf
    rcases hf with rfl | rfl | rfl | rfl | rfl | rfl | rfl | rfl | rfl | rfl
    · exact plain_natStr _
    · exact h.form
    · exact plain_shield h.lemma'
    · split
      · exact plain_underscore
      · rename_i p hp; exact plain_shield (fun s => h.upos p s hp)
    · split
      · exact plain_underscore
      · rename_i p hp; exact plain_shield (fun s => h.xpos p s hp)
    · split
      · exact plain_underscore
      · rename_i p hp; exact plain_featsField (h.feats p hp)
    · split
      · exact plain_normIndex _
      · exact plain_natStr _
    · split
      · exact plain_shield h.deprel
      · exact plain_underscore
    · exact plain_underscore
    · split
      · exact plain_spaceAfterNo
      · exact plain_underscore
  · refine ⟨(rowFields cols text k t b).dropLast, ?_⟩
    unfold rowFields
    cases hb : (b && !spaceAfter text t) with
    | true => exact .inr rfl
    | false => exact .inl rfl

theorem rangeRow_good {text : Str} (i j : Nat) {t : Token} (h : TokenPlain text t) :
    GoodRow [natStr i ++ '-' :: natStr j, docText text t,
      underscore, underscore, underscore, underscore, underscore, underscore, underscore,
      if spaceAfter text t then underscore else spaceAfterNo] := by
  obtain ⟨c, hc1, hc2⟩ := natStr_head_digit i
  refine ⟨?_, ⟨_, _, c, rfl, by rw [List.head?_append, hc1]; rfl, hc2⟩, ?_⟩
  · intro f hf
    simp only [List.mem_cons, List.not_mem_nil, or_false] at hf
    have hu : Plain underscore := plain_underscore
    rcases hf with rfl | rfl | rfl | rfl | rfl | rfl | rfl | rfl | rfl | rfl <;> try exact hu
    · exact plain_append (plain_natStr _) (plain_cons (by decide) (plain_natStr _))
    · exact h.surface
    · split
      · exact plain_underscore
      · exact plain_spaceAfterNo
  · refine ⟨[natStr i ++ '-' :: natStr j, docText text t,
      underscore, underscore, underscore, underscore, underscore, underscore, underscore], ?_⟩
    split
    · exact .inl rfl
    · exact .inr rfl

/-- The lines of written text. -/
theorem fileLines_rows {ls : List (Option (List Str))} (h : ∀ r, some r ∈ ls → GoodRow r) :
    fileLines (ls.flatMap lineText) = ls.map lineText := by
  induction ls with
  | nil => rfl
  | cons l ls ih =>
    have ih := ih (fun r hr => h r (by simp [hr]))
    cases l with
    | none =>
      have := fileLines_line (l := []) (by simp) (ls.flatMap lineText)
      simp only [List.flatMap_cons, List.map_cons, lineText, ← ih]
      simpa using this
    | some r =>
      have := fileLines_line (h r (by simp)).newline (ls.flatMap lineText)
      simp only [List.flatMap_cons, List.map_cons, lineText, ← ih, formatLine]
      simpa using this

end Verif
