import Verif.Model.ReaderGen
import Verif.Props.Conllu

/-! # Reading is lazy and closes its file (C155) -/

namespace Verif

/-- The calls of `next` of a reader that gives `docs` and then ends with `err`: the documents, then
the exception or `StopIteration`, from then on `StopIteration`. -/
def answers (docs : List Document) (err : Option Err) (n : Nat) : List ReadOut :=
  (docs.map ReadOut.doc ++ (match err with | some e => ReadOut.raised e | none => ReadOut.stop) ::
    List.replicate n ReadOut.stop).take n

/-- Number of empty lines. -/
def blanks (lines : List Str) : Nat := (lines.filter List.isEmpty).length

/-- The reader stands at a `yield` with an open file, or is over with a closed one. -/
def FileReader.Started (r : FileReader) : Prop :=
  match r.pos with
  | .created _ => False
  | .inLoop _ => r.closed = false
  | .atEnd => r.closed = false
  | .over => r.closed = true

theorem readOn_started (limit : Nat) (cols : Cols) (st : RState) (lines : List Str) :
    (readOn limit cols st lines).1.Started ∧
    ((readOn limit cols st lines).1.pos = .over ↔
      ∀ d, (readOn limit cols st lines).2 ≠ .doc d) := by
  induction lines generalizing st with
  | nil =>
    unfold readOn
    split
    · simp [endReader, FileReader.Started]
    · simp [endReader, FileReader.Started]
    · split
      · simp [endReader, FileReader.Started]
      · simp [FileReader.Started]
  | cons line lines ih =>
    unfold readOn
    split
    · exact ih st
    · split
      · split
        · simp [endReader, FileReader.Started]
        · split
          · split
            · simp [endReader, FileReader.Started]
            · simp [FileReader.Started]
          · exact ih _
      · split
        · simp [endReader, FileReader.Started]
        · exact ih _

theorem next_started {r : FileReader} (limit : Nat) (cols : Cols)
    (h : r.Started ∨ ∃ l, r.pos = .created l) :
    (r.next limit cols).1.Started ∧
    ((r.next limit cols).1.pos = .over ↔ ∀ d, (r.next limit cols).2 ≠ .doc d) := by
  obtain ⟨p, c⟩ := r
  cases p with
  | created lines => exact readOn_started limit cols {} lines
  | inLoop lines => exact readOn_started limit cols {} lines
  | atEnd => simp [FileReader.next, endReader, FileReader.Started]
  | over =>
    rcases h with h | ⟨l, h⟩
    · exact ⟨h, by simp [FileReader.next]⟩
    · cases h

theorem close_started {r : FileReader} (h : r.Started) : r.close.Started ∧ r.close.pos = .over := by
  obtain ⟨p, c⟩ := r
  cases p with
  | created lines => exact h.elim
  | inLoop lines => exact ⟨rfl, rfl⟩
  | atEnd => exact ⟨rfl, rfl⟩
  | over => exact ⟨h, rfl⟩

theorem run_over (limit : Nat) (cols : Cols) (ops : List ReadOp) (r : FileReader)
    (h : r.pos = .over) : (r.run limit cols ops).1 = r := by
  induction ops generalizing r with
  | nil => rfl
  | cons op ops ih =>
    cases op with
    | next =>
      simp only [FileReader.run, FileReader.next, h]
      exact ih r h
    | close =>
      simp only [FileReader.run, FileReader.close, h]
      exact ih r h

theorem run_started (limit : Nat) (cols : Cols) (ops : List ReadOp) (r : FileReader)
    (h : r.Started) :
    (r.run limit cols ops).1.Started ∧
    ((r.run limit cols ops).1.pos = .over ↔
      r.pos = .over ∨ .close ∈ ops ∨ ∃ o ∈ (r.run limit cols ops).2, ∀ d, o ≠ .doc d) := by
  induction ops generalizing r with
  | nil => simp [FileReader.run, h]
  | cons op ops ih =>
    cases op with
    | next =>
      obtain ⟨h1, h2⟩ := next_started limit cols (.inl h)
      obtain ⟨i1, i2⟩ := ih _ h1
      refine ⟨i1, ?_⟩
      simp only [FileReader.run]
      rw [i2, h2]
      simp only [List.mem_cons, reduceCtorEq, false_or, exists_eq_or_imp]
      constructor
      · rintro (h | h | h)
        · exact .inr (.inr (.inl h))
        · exact .inr (.inl h)
        · exact .inr (.inr (.inr h))
      · rintro (h | h | h | h)
        · left
          intro d
          simp [FileReader.next, h]
        · exact .inr (.inl h)
        · exact .inl h
        · exact .inr (.inr h)
    | close =>
      obtain ⟨h1, h2⟩ := close_started h
      refine ⟨(ih _ h1).1, ?_⟩
      simp only [FileReader.run]
      rw [run_over _ _ _ _ h2, h2]
      simp

/-- C155: once the first document has been asked for, the file is closed exactly if the generator
was closed or one of the calls of `next` gave no document (the end or an exception); in particular
it is open as long as documents can follow. -/
theorem C155_closed (limit : Nat) (cols : Cols) (text : Str) (ops : List ReadOp) :
    ((openReader text).run limit cols (.next :: ops)).1.closed = true ↔
      .close ∈ ops ∨ ∃ o ∈ ((openReader text).run limit cols (.next :: ops)).2, ∀ d, o ≠ .doc d := by
  obtain ⟨h1, h2⟩ := next_started (r := openReader text) limit cols (.inr ⟨_, rfl⟩)
  obtain ⟨i1, i2⟩ := run_started limit cols ops _ h1
  rw [h2] at i2
  have hc : ((openReader text).run limit cols (.next :: ops)).1.closed = true ↔
      ((openReader text).run limit cols (.next :: ops)).1.pos = .over := by
    change (FileReader.run limit cols ((openReader text).next limit cols).1 ops).1.closed = true ↔
      (FileReader.run limit cols ((openReader text).next limit cols).1 ops).1.pos = .over
    generalize (FileReader.run limit cols ((openReader text).next limit cols).1 ops).1 = r at i1
    obtain ⟨p, c⟩ := r
    cases p <;> simp_all [FileReader.Started]
  rw [hc]
  change (FileReader.run limit cols ((openReader text).next limit cols).1 ops).1.pos = .over ↔ _
  rw [i2]
  simp only [FileReader.run, List.mem_cons, exists_eq_or_imp]
  constructor
  · rintro (h | h | h)
    · exact .inr (.inl h)
    · exact .inl h
    · exact .inr (.inr h)
  · rintro (h | h | h)
    · exact .inr (.inl h)
    · exact .inl h
    · exact .inr (.inr h)

/-- C155: a reader that is thrown away before the first `next` leaves its
file open, even if it is closed. -/
theorem C155_unstarted (limit : Nat) (cols : Cols) (text : Str) (n : Nat) :
    ((openReader text).run limit cols (.close :: List.replicate n .next)).1.closed = false := by
  have h : ((openReader text).close).pos = .over := rfl
  simp only [FileReader.run]
  rw [run_over _ _ _ _ h]
  rfl

theorem readOn_readLoop (limit : Nat) (cols : Cols) (st : RState) (lines : List Str) :
    (∃ d rest, readOn limit cols st lines = (⟨.inLoop rest, false⟩, .doc d) ∧
      readLoop limit cols st lines =
        (d :: (readLoop limit cols {} rest).1, (readLoop limit cols {} rest).2)) ∨
    (∃ d, readOn limit cols st lines = (⟨.atEnd, false⟩, .doc d) ∧
      readLoop limit cols st lines = ([d], none)) ∨
    (readOn limit cols st lines = endReader .stop ∧ readLoop limit cols st lines = ([], none)) ∨
    (∃ e, readOn limit cols st lines = endReader (.raised e) ∧
      readLoop limit cols st lines = ([], some e)) := by
  induction lines generalizing st with
  | nil =>
    simp only [readOn, readLoop]
    cases st.isEmpty with
    | error e => exact .inr (.inr (.inr ⟨e, rfl, rfl⟩))
    | ok b =>
      cases b with
      | true => exact .inr (.inr (.inl ⟨rfl, rfl⟩))
      | false =>
        cases st.document with
        | error e => exact .inr (.inr (.inr ⟨e, rfl, rfl⟩))
        | ok d => exact .inr (.inl ⟨d, rfl, rfl⟩)
  | cons line lines ih =>
    simp only [readOn, readLoop]
    split
    · exact ih st
    · split
      · cases endOfSentence st with
        | error e => exact .inr (.inr (.inr ⟨e, rfl, rfl⟩))
        | ok st' =>
          simp only
          split
          · cases st'.document with
            | error e => exact .inr (.inr (.inr ⟨e, rfl, rfl⟩))
            | ok d => exact .inl ⟨d, lines, rfl, rfl⟩
          · exact ih _
      · cases addToken cols st line with
        | error e => exact .inr (.inr (.inr ⟨e, rfl, rfl⟩))
        | ok st' => exact ih _

theorem run_next_over (limit : Nat) (cols : Cols) (n : Nat) (r : FileReader) (h : r.pos = .over) :
    (r.run limit cols (List.replicate n .next)).2 = List.replicate n .stop := by
  induction n with
  | zero => rfl
  | succ n ih =>
    simp only [List.replicate_succ, FileReader.run, FileReader.next, h]
    rw [ih]

theorem run_answers (limit : Nat) (cols : Cols) (n : Nat) (r : FileReader) (lines : List Str)
    (h : r.pos = .created lines ∨ r.pos = .inLoop lines) :
    (r.run limit cols (List.replicate n .next)).2 =
      answers (readLoop limit cols {} lines).1 (readLoop limit cols {} lines).2 n := by
  induction n generalizing r lines with
  | zero => rfl
  | succ n ih =>
    have hn : r.next limit cols = readOn limit cols {} lines := by
      rcases h with h | h <;> simp [FileReader.next, h]
    simp only [List.replicate_succ, FileReader.run, hn]
    rcases readOn_readLoop limit cols {} lines with ⟨d, rest, h1, h2⟩ | ⟨d, h1, h2⟩ | ⟨h1, h2⟩ |
      ⟨e, h1, h2⟩
    · rw [h1, h2]
      simp only
      rw [ih ⟨.inLoop rest, false⟩ rest (.inr rfl)]
      simp only [answers, List.map_cons, List.cons_append, List.take_succ_cons]
      congr 1
      rw [List.replicate_succ']
      generalize (match (readLoop limit cols {} rest).2 with
        | some e => ReadOut.raised e
        | none => ReadOut.stop) = x
      rw [← List.cons_append, ← List.append_assoc]
      generalize (readLoop limit cols {} rest).1.map ReadOut.doc = l
      rw [List.take_append_of_le_length (l₁ := l ++ x :: List.replicate n ReadOut.stop)
        (by simp only [List.length_append, List.length_cons, List.length_replicate]; omega)]
    · rw [h1, h2]
      simp only
      cases n with
      | zero => simp [answers, FileReader.run]
      | succ n =>
        simp only [List.replicate_succ, FileReader.run, FileReader.next]
        rw [run_next_over _ _ _ _ rfl]
        simp [answers, endReader]
        omega
    · rw [h1, h2]
      simp only [endReader]
      rw [run_next_over _ _ _ _ rfl]
      simp [answers]
    · rw [h1, h2]
      simp only [endReader]
      rw [run_next_over _ _ _ _ rfl]
      simp [answers]

/-- C155: taking documents one by one gives the documents of the whole text in order, then its
exception or the end. -/
theorem C155_documents (limit : Int) (cols : Cols) (text : Str) (docs : List Document)
    (err : Option Err) (n : Nat) (h : readFromStr limit cols text = .ok (docs, err)) :
    ((openReader text).run limit.toNat (withHead cols) (List.replicate n .next)).2 =
      answers docs err n := by
  unfold readFromStr at h
  split at h
  · injection h with h
    rw [run_answers _ _ n (openReader text) _ (.inl rfl), h]
  · cases h

theorem readOn_used (limit : Nat) (cols : Cols) (st : RState) (lines rest : List Str)
    (r : FileReader) (out : ReadOut) (hl : st.sents.length < limit)
    (h : readOn limit cols st lines = (r, out)) (hr : r.pos = .inLoop rest) :
    ∃ used, lines = used ++ [] :: rest ∧ st.sents.length + blanks used + 1 = limit ∧
      ∀ rest', readOn limit cols st (used ++ [] :: rest') =
        ({ r with pos := .inLoop rest' }, out) := by
  induction lines generalizing st with
  | nil =>
    unfold readOn at h
    exfalso
    revert h
    cases st.isEmpty with
    | error e => rintro h; injection h with h1 h2; subst h1; simp at hr
    | ok b =>
      cases b with
      | true => rintro h; injection h with h1 h2; subst h1; simp at hr
      | false =>
        cases st.document with
        | error e => rintro h; injection h with h1 h2; subst h1; simp at hr
        | ok d => rintro h; injection h with h1 h2; subst h1; simp at hr
  | cons line lines ih =>
    unfold readOn at h
    by_cases hc : line.head? = some '#'
    · rw [if_pos hc] at h
      obtain ⟨used, h1, h2, h3⟩ := ih st hl h
      refine ⟨line :: used, by rw [h1]; rfl, ?_, ?_⟩
      · have : line.isEmpty = false := by cases line <;> simp_all
        simpa [blanks, this] using h2
      · intro rest'
        simp only [List.cons_append]
        rw [readOn, if_pos hc]
        exact h3 rest'
    · rw [if_neg hc] at h
      by_cases he : line.isEmpty = true
      · rw [if_pos he] at h
        cases hs : endOfSentence st with
        | error e => rw [hs] at h; injection h with h1 h2; subst h1; simp at hr
        | ok st' =>
          rw [hs] at h
          simp only at h
          have hlen : st'.sents.length = st.sents.length + 1 := by
            unfold endOfSentence at hs
            split at hs
            · cases hs
            · split at hs
              · cases hs
              · injection hs with hs; subst hs; simp
          have hline : line = [] := List.isEmpty_iff.mp he
          by_cases hg : st'.sents.length ≥ limit
          · rw [if_pos hg] at h
            cases hd : st'.document with
            | error e => rw [hd] at h; injection h with h1 h2; subst h1; simp at hr
            | ok d =>
              rw [hd] at h
              injection h with h1 h2
              subst h1
              simp only [GenPos.inLoop.injEq] at hr
              refine ⟨[], by simp [hline, hr], by simp [blanks]; omega, ?_⟩
              intro rest'
              simp only [List.nil_append]
              rw [readOn]
              simp [hs, hg, hd, h2]
          · rw [if_neg hg] at h
            obtain ⟨used, h1, h2, h3⟩ := ih st' (by omega) h
            refine ⟨line :: used, by rw [h1]; rfl, ?_, ?_⟩
            · simp [blanks, he] at h2 ⊢; omega
            · intro rest'
              simp only [List.cons_append]
              rw [readOn, if_neg hc, if_pos he, hs]
              simp only
              rw [if_neg hg]
              exact h3 rest'
      · rw [if_neg he] at h
        cases hs : addToken cols st line with
        | error e => rw [hs] at h; injection h with h1 h2; subst h1; simp at hr
        | ok st' =>
          rw [hs] at h
          simp only at h
          have hlen : st'.sents = st.sents := by
            unfold addToken at hs
            split at hs
            · cases hs
            · split at hs
              · unfold processRegular at hs
                split at hs
                · cases hs
                · split at hs
                  · injection hs with hs; subst hs; rfl
                  · simp only at hs
                    split at hs
                    · split at hs
                      · split at hs
                        · injection hs with hs; subst hs; rfl
                        · cases hs
                      · cases hs
                    · split at hs
                      · cases hs
                      · injection hs with hs; subst hs; rfl
              · unfold processMulti at hs
                split at hs
                · cases hs
                · injection hs with hs; subst hs; rfl
          obtain ⟨used, h1, h2, h3⟩ := ih st' (by rw [hlen]; exact hl) h
          refine ⟨line :: used, by rw [h1]; rfl, ?_, ?_⟩
          · rw [hlen] at h2
            simpa [blanks, he] using h2
          · intro rest'
            simp only [List.cons_append]
            rw [readOn, if_neg hc, if_neg he, hs]
            exact h3 rest'

/-- C155: when a document has been given out of the middle of a file, exactly the lines up to the
empty line of its last sentence have been read: the unread lines are those behind as many empty
lines as a document has sentences, and the document does not depend on them. -/
theorem C155_lazy (limit : Nat) (cols : Cols) (lines rest : List Str) (r r' : FileReader)
    (out : ReadOut) (hlim : 0 < limit) (hp : r.pos = .created lines ∨ r.pos = .inLoop lines)
    (h : r.next limit cols = (r', out)) (hr : r'.pos = .inLoop rest) :
    ∃ used, lines = used ++ [] :: rest ∧ blanks used + 1 = limit ∧
      ∀ rest' c, (FileReader.next limit cols ⟨.created (used ++ [] :: rest'), c⟩).2 = out ∧
        (FileReader.next limit cols ⟨.created (used ++ [] :: rest'), c⟩).1.pos = .inLoop rest' := by
  have hn : r.next limit cols = readOn limit cols {} lines := by
    rcases hp with hp | hp <;> simp [FileReader.next, hp]
  rw [hn] at h
  obtain ⟨used, h1, h2, h3⟩ := readOn_used limit cols {} lines rest r' out hlim h hr
  refine ⟨used, h1, by simpa using h2, fun rest' c => ?_⟩
  have := h3 rest'
  constructor <;> simp only [FileReader.next] <;> rw [this]

/-! ### Examples -/

/-- Two sentences, then a line that cannot be read. -/
def Demo.twoAndBad : Str :=
  "1\ta\ta\tX\t_\t_\t0\troot\t_\t_\n\n1\tb\tb\tX\t_\t_\t0\troot\t_\t_\n\nbad".toList

/-- Two documents, then the exception; the file is open until then. -/
example : (((openReader Demo.twoAndBad).run 1 [7] (List.replicate 4 .next)).2.map fun o =>
      match o with | .doc d => some d.text | _ => none) =
      [some "a ".toList, some "b ".toList, none, none] ∧
    ((openReader Demo.twoAndBad).run 1 [7] (List.replicate 2 .next)).1.closed = false ∧
    ((openReader Demo.twoAndBad).run 1 [7] (List.replicate 3 .next)).1.closed = true ∧
    ((openReader Demo.twoAndBad).run 1 [7] [.next, .close]).1.closed = true := by
  refine ⟨?_, ?_, ?_, ?_⟩ <;> decide +kernel

/-- The hypotheses of `C155_lazy`. -/
example : ((openReader Demo.twoAndBad).next 1 [7]).1.pos =
    .inLoop ["1\tb\tb\tX\t_\t_\t0\troot\t_\t_".toList, [], "bad".toList] := by decide +kernel

end Verif
