import Verif.Proofs.Pieces
import Verif.Props.Conllu
import Mathlib.Data.List.TakeWhile

/-!
# C149: reading and writing piece by piece
-/

namespace Verif

theorem readFromStr_pieces {limit : Int} (hpos : 0 < limit) (columns : Cols) {a : Str} (b : Str) (ha : WholeLines a) :
    readFromStr limit columns (a ++ b) = .ok (afterSteps limit.toNat (withHead columns)
      (readSteps limit.toNat (withHead columns) {} ((fileLines a).map (stripBy isEol))) ((fileLines b).map (stripBy isEol))) := by
  unfold readFromStr
  rw [if_pos hpos, lines_append b ha, readLoop_append]

theorem readFromStr_piece {limit : Int} (hpos : 0 < limit) (columns : Cols) {a : Str} (ha : WholeLines a) :
    readFromStr limit columns a = .ok (afterSteps limit.toNat (withHead columns)
      (readSteps limit.toNat (withHead columns) {} ((fileLines a).map (stripBy isEol))) []) := by
  have := readFromStr_pieces hpos columns [] ha
  rwa [List.append_nil] at this

/-- C149: documents that are full do not depend on what follows in the file. -/
theorem C149_prefix {limit : Int} {columns : Cols} {a b : Str} (ha : WholeLines a) {ds ds' : List Document} {e e' : Option Err}
    (h : readFromStr limit columns a = .ok (ds, e)) (h' : readFromStr limit columns (a ++ b) = .ok (ds', e')) {i : Nat}
    {d : Document} (hd : ds[i]? = some d) (hfull : (d.sentences.length : Int) = limit) : ds'[i]? = some d := by
  obtain ⟨hpos, _⟩ := readFromStr_ok h
  have hpos' : 0 < limit := by omega
  rw [readFromStr_piece hpos' columns ha] at h
  rw [readFromStr_pieces hpos' columns b ha] at h'
  generalize hr : readSteps limit.toNat (withHead columns) {} ((fileLines a).map (stripBy isEol)) = r at h h'
  injection h with h
  injection h' with h'
  unfold afterSteps at h h'
  cases hr2 : r.2 with
  | error x =>
    rw [hr2] at h h'
    cases h
    cases h'
    exact hd
  | ok st =>
    rw [hr2] at h h'
    simp only [Prod.mk.injEq] at h h'
    have hbt := readSteps_between hpos (st := {}) ⟨hpos, fun _ => rfl⟩ (by rw [hr]; exact hr2)
    have hend := (readLoop_end hbt (cols := withHead columns) (ds := (readLoop limit.toNat (withHead columns) st []).1)
      (e := (readLoop limit.toNat (withHead columns) st []).2) rfl).1
    rw [← h.1] at hd
    rw [← h'.1]
    by_cases hi : i < r.1.length
    · rw [List.getElem?_append_left hi] at hd ⊢
      exact hd
    · rw [List.getElem?_append_right (by omega)] at hd
      have := hend d (List.mem_of_getElem? hd)
      omega

/-- C149: a text behind one that ends between two documents is read as if it were alone. -/
theorem C149_behind {limit : Int} {columns : Cols} {a : Str} (b : Str) (ha : WholeLines a) {ds ds' : List Document}
    {e : Option Err} (h : readFromStr limit columns a = .ok (ds, none)) (hfull : ∀ d ∈ ds, (d.sentences.length : Int) = limit)
    (h' : readFromStr limit columns b = .ok (ds', e)) : readFromStr limit columns (a ++ b) = .ok (ds ++ ds', e) := by
  obtain ⟨hpos, _⟩ := readFromStr_ok h
  have hpos' : 0 < limit := by omega
  rw [readFromStr_piece hpos' columns ha] at h
  rw [readFromStr_pieces hpos' columns b ha]
  obtain ⟨_, h'⟩ := readFromStr_ok h'
  generalize hr : readSteps limit.toNat (withHead columns) {} ((fileLines a).map (stripBy isEol)) = r at h
  injection h with h
  unfold afterSteps at h ⊢
  cases hr2 : r.2 with
  | error x => rw [hr2] at h; cases h
  | ok st =>
    rw [hr2] at h
    simp only [Prod.mk.injEq] at h
    have hbt := readSteps_between hpos (st := {}) ⟨hpos, fun _ => rfl⟩ (by rw [hr]; exact hr2)
    obtain ⟨h1, _, h3⟩ := readLoop_end hbt (cols := withHead columns) (ds := (readLoop limit.toNat (withHead columns) st []).1)
      (e := (readLoop limit.toNat (withHead columns) st []).2) rfl
    have hnil : (readLoop limit.toNat (withHead columns) st []).1 = [] := by
      cases hl : (readLoop limit.toNat (withHead columns) st []).1 with
      | nil => rfl
      | cons d l =>
        have h4 := h1 d (by rw [hl]; simp)
        have h5 := hfull d (by rw [← h.1, hl]; simp)
        omega
    have hst := h3 hnil h.2
    subst hst
    simp only [h']
    rw [← h.1, hnil, List.append_nil]

/-- The lines of a text that ends with a blank line. -/
theorem lines_blank {a : Str} (h : EndsBlank a) : WholeLines a ∧ ∃ ls, (fileLines a).map (stripBy isEol) = ls ++ [[]] := by
  obtain ⟨pre, r, rfl, hpre, hr⟩ := h
  refine ⟨.inr (by simp), (fileLines pre).map (stripBy isEol), ?_⟩
  rw [lines_append _ hpre]
  congr 1
  have h1 : fileLines (r ++ ['\n']) = [r ++ ['\n']] := by
    have := fileLines_line (l := r) (fun hn => absurd (hr _ hn) (by decide)) []
    simpa [fileLines] using this
  rw [h1]
  simp only [List.map_cons, List.map_nil, List.cons.injEq, and_true]
  have : ∀ c ∈ r ++ ['\n'], isEol c = true := by
    intro c hc
    rcases List.mem_append.1 hc with h | h
    · rw [hr c h]; rfl
    · rw [List.mem_singleton.1 h]; rfl
  unfold stripBy
  have h2 : (r ++ ['\n']).dropWhile isEol = [] := by
    rw [List.dropWhile_eq_nil_iff]; exact this
  simp [h2]

/-- C149: with one sentence for each document, a text whose last line is blank and another text behind it give the documents of
the first one and then those of the second one; after an exception in the first one nothing of the second one is read. -/
theorem C149_single (columns : Cols) {a : Str} (b : Str) (ha : EndsBlank a) {ds ds' : List Document} {e e' : Option Err}
    (h : readFromStr 1 columns a = .ok (ds, e)) (h' : readFromStr 1 columns b = .ok (ds', e')) :
    readFromStr 1 columns (a ++ b) = .ok (match e with
      | none => (ds ++ ds', e')
      | some x => (ds, some x)) := by
  obtain ⟨hw, ls, hls⟩ := lines_blank ha
  cases e with
  | none =>
    refine C149_behind b hw h ?_ h'
    intro d hd
    have := (C16_chunk_sizes h).1 d hd
    omega
  | some x =>
    rw [readFromStr_piece (by decide) columns hw, hls] at h
    rw [readFromStr_pieces (by decide) columns b hw, hls]
    have hkey : ∀ st, (readSteps (1 : Int).toNat (withHead columns) {} (ls ++ [[]])).2 = .ok st → st = {} := by
      intro st hst
      rw [readSteps_append] at hst
      cases h1 : (readSteps (1 : Int).toNat (withHead columns) {} ls).2 with
      | error y => rw [h1] at hst; cases hst
      | ok st1 =>
        rw [h1] at hst
        simp only [readSteps] at hst
        split at hst
        · rename_i hc; cases hc
        · split at hst
          · split at hst
            · cases hst
            · rename_i st2 h2
              split at hst
              · split at hst
                · cases hst
                · cases hst; rfl
              · rename_i hlt
                exfalso
                apply hlt
                unfold endOfSentence at h2
                split at h2
                · cases h2
                · split at h2
                  · cases h2
                  · cases h2
                    simp
          · rename_i hc; exact absurd rfl hc
    generalize hr : readSteps (1 : Int).toNat (withHead columns) {} (ls ++ [[]]) = r at h hkey ⊢
    injection h with h
    unfold afterSteps at h ⊢
    cases hr2 : r.2 with
    | error y => rw [hr2] at h; simp only at h ⊢; rw [h]
    | ok st =>
      rw [hr2] at h
      rw [hkey st hr2] at h
      simp only [readLoop, RState.isEmpty, Prod.mk.injEq] at h
      cases h.2

/-- C149: documents written together are the documents written behind each other. -/
theorem C149_write (columns : Cols) (ds ds' : List Document) :
    writeToStr columns (ds ++ ds') = match writeToStr columns ds with
      | .error e => .error e
      | .ok s => match writeToStr columns ds' with
        | .error e => .error e
        | .ok s' => .ok (s ++ s') := by
  unfold writeToStr
  rw [forM'_append]
  cases forM' (writeDocument (withHead columns)) [] ds with
  | error e => rfl
  | ok s =>
    simp only
    have := forM'_before (g := (s ++ ·)) (f := writeDocument (withHead columns))
      (fun o d => writeDocument_before (withHead columns) s o d) [] ds'
    simp only [List.append_nil] at this
    rw [this]
    cases forM' (writeDocument (withHead columns)) [] ds' <;> rfl

/-- C149: any number of texts that end with a blank line. -/
theorem C149_shards (columns : Cols) : ∀ (l : List (Str × List Document)),
    (∀ x ∈ l, EndsBlank x.1 ∧ readFromStr 1 columns x.1 = .ok (x.2, none)) →
    readFromStr 1 columns (l.flatMap Prod.fst) = .ok (l.flatMap Prod.snd, none)
  | [], _ => rfl
  | x :: l, h => by
    have h1 := h x (by simp)
    have h2 := C149_shards columns l fun y hy => h y (by simp [hy])
    exact C149_single columns _ h1.1 h1.2 h2

namespace Demo

def oneLine (n form head : String) : Str := (n ++ "\t" ++ form ++ "\tx\tX\t_\t_\t" ++ head ++ "\tdep\t_\t_\n").toList

/-- Texts of one sentence, with both kinds of line ends. -/
def pieceA : Str := oneLine "1" "a" "0" ++ "\n".toList
def pieceB : Str := oneLine "1" "b" "0" ++ "\r\n".toList

/-- The texts of the documents that are read, and the exception. -/
def pieceTexts (limit : Int) (text : Str) : Option (List (Str × Nat) × Option Err) :=
  (readFromStr limit defaultCols text).toOption.map fun r => (r.1.map (fun d => (d.text, d.sentences.length)), r.2)

theorem pieces_blank : EndsBlank pieceA ∧ EndsBlank pieceB :=
  ⟨⟨oneLine "1" "a" "0", [], rfl, .inr (by decide +kernel), by simp⟩,
    ⟨oneLine "1" "b" "0", ['\r'], rfl, .inr (by decide +kernel), by simp⟩⟩

end Demo

/-- Two texts behind each other. -/
example : Demo.pieceTexts 1 Demo.pieceA = some ([("a ".toList, 1)], none) ∧
    Demo.pieceTexts 1 (Demo.pieceA ++ Demo.pieceB) = some ([("a ".toList, 1), ("b ".toList, 1)], none) ∧
    ∃ ds ds', readFromStr 1 defaultCols Demo.pieceA = .ok (ds, none) ∧ readFromStr 1 defaultCols Demo.pieceB = .ok (ds', none) ∧
      readFromStr 1 defaultCols (Demo.pieceA ++ Demo.pieceB) = .ok (ds ++ ds', none) := by
  refine ⟨by decide +kernel, by decide +kernel, ?_⟩
  obtain ⟨⟨ds, e⟩, h⟩ : ∃ r, readFromStr 1 defaultCols Demo.pieceA = .ok r := ⟨_, rfl⟩
  obtain ⟨⟨ds', e'⟩, h'⟩ : ∃ r, readFromStr 1 defaultCols Demo.pieceB = .ok r := ⟨_, rfl⟩
  have h1 : Demo.pieceTexts 1 Demo.pieceA = some ([("a ".toList, 1)], none) := by decide +kernel
  have h2 : Demo.pieceTexts 1 Demo.pieceB = some ([("b ".toList, 1)], none) := by decide +kernel
  unfold Demo.pieceTexts at h1 h2
  rw [h] at h1
  rw [h'] at h2
  simp only [Except.toOption, Option.map_some, Option.some.injEq, Prod.mk.injEq] at h1 h2
  obtain ⟨_, rfl⟩ := h1
  obtain ⟨_, rfl⟩ := h2
  exact ⟨ds, ds', h, h', C149_single defaultCols _ Demo.pieces_blank.1 h h'⟩

/-- A text behind one whose documents are not full, or that does not end with a blank line, joins its last document: the
conditions are needed. -/
theorem C149_open_refuted :
    (¬ ∀ a b ds ds', WholeLines a → readFromStr 2 defaultCols a = .ok (ds, none) → readFromStr 2 defaultCols b = .ok (ds', none) →
      readFromStr 2 defaultCols (a ++ b) = .ok (ds ++ ds', none)) ∧
    (¬ ∀ a b ds e, WholeLines a → readFromStr 1 defaultCols a = .ok (ds, some e) →
      readFromStr 1 defaultCols (a ++ b) = .ok (ds, some e)) := by
  constructor
  · intro h
    have h1 : Demo.pieceTexts 2 Demo.pieceA = some ([("a ".toList, 1)], none) := by decide +kernel
    have h2 : Demo.pieceTexts 2 (Demo.pieceA ++ Demo.pieceA) = some ([("a a ".toList, 2)], none) := by decide +kernel
    obtain ⟨⟨ds, e⟩, hr⟩ : ∃ r, readFromStr 2 defaultCols Demo.pieceA = .ok r := ⟨_, rfl⟩
    unfold Demo.pieceTexts at h1 h2
    rw [hr] at h1
    simp only [Except.toOption, Option.map_some, Option.some.injEq, Prod.mk.injEq] at h1
    obtain ⟨h3, rfl⟩ := h1
    rw [h _ _ _ _ (.inr (by decide +kernel)) hr hr] at h2
    simp only [Except.toOption, Option.map_some, Option.some.injEq, Prod.mk.injEq, List.map_append, h3] at h2
    exact absurd h2.1 (by decide +kernel)
  · intro h
    have h1 : Demo.pieceTexts 1 (Demo.oneLine "1" "a" "0") = some ([], some .index) := by decide +kernel
    have h2 : Demo.pieceTexts 1 Demo.pieceA = some ([("a ".toList, 1)], none) := by decide +kernel
    obtain ⟨⟨ds, e⟩, hr⟩ : ∃ r, readFromStr 1 defaultCols (Demo.oneLine "1" "a" "0") = .ok r := ⟨_, rfl⟩
    unfold Demo.pieceTexts at h1 h2
    rw [hr] at h1
    simp only [Except.toOption, Option.map_some, Option.some.injEq, Prod.mk.injEq] at h1
    obtain ⟨h3, rfl⟩ := h1
    rw [Demo.pieceA, h _ "\n".toList _ _ (.inr (by decide +kernel)) hr] at h2
    simp [Except.toOption] at h2

/-- A full document is not changed by a faulty line behind it. -/
example : Demo.pieceTexts 1 (Demo.pieceA ++ "x\n".toList) = some ([("a ".toList, 1)], some .index) := by decide +kernel

/-- A fault in the first text hides the second one. -/
example : Demo.pieceTexts 1 (Demo.oneLine "1" "a" "2" ++ "\n".toList ++ Demo.pieceA) = some ([], some .value) := by decide +kernel

end Verif
