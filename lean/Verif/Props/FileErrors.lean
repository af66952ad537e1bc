import Verif.Props.Files
import Verif.Props.FileScore

/-!
# When a test on a file fails: C123
-/

namespace Verif

/-- What the evaluation script reads of the predictions: the text itself, or the saved file. -/
def asRead (results : Option Str) (text : Str) : Str :=
  match results with
  | none => text
  | some eol => universal (onDisk eol text)

theorem internalOf_eq (results : Option Str) (cols : Cols) (depth : Nat) (docs : List Document) :
    internalOf results cols depth docs = (match writeToStr cols docs with
      | .error e => .error e
      | .ok text => loadConllu depth (asRead results text)) := by
  cases results with
  | none => rfl
  | some eol =>
    simp only [internalOf, saveAndRead, writeToFile, asRead]
    cases writeToStr cols docs <;> rfl

/-- C123: a test on a file gives scores exactly if the file can be read to its end as documents and by the
evaluation script, the tagger answers to the documents without annotation, the answer can be written and loaded, and
it has the characters of the file. -/
theorem C123_succeeds_iff (results : Option Str) (lower : Str → Str) (depth : Nat) (stored : Str)
    (tag : List Document → Res (List Document)) :
    (∃ table, testFileAt results lower depth stored tag = .ok table) ↔
      ∃ docs blind predicted text gold sys, readFromFile 1 defaultCols stored = .ok (docs, none) ∧
        prepareTestData docs = .ok blind ∧ tag blind = .ok predicted ∧ writeToStr defaultCols predicted = .ok text ∧
        loadConllu depth (asRead results text) = .ok sys ∧ loadConllu depth (universal stored) = .ok gold ∧
        gold.characters = sys.characters := by
  constructor
  · rintro ⟨table, h⟩
    unfold testFileAt dataSetFile at h
    cases hr : readFromFile 1 defaultCols stored with
    | error e => simp [hr] at h
    | ok r =>
      obtain ⟨docs, e⟩ := r
      cases e with
      | some e => simp [hr] at h
      | none =>
        simp only [hr, testTaggerAt] at h
        cases hp : prepareTestData docs with
        | error e => simp [hp] at h
        | ok blind =>
          simp only [hp] at h
          cases ht : tag blind with
          | error e => simp [ht] at h
          | ok predicted =>
            simp only [ht, internalOf_eq] at h
            cases hw : writeToStr defaultCols predicted with
            | error e => simp [hw] at h
            | ok text =>
              simp only [hw] at h
              cases hs : loadConllu depth (asRead results text) with
              | error e => simp [hs] at h
              | ok sys =>
                simp only [hs] at h
                cases hg : loadConllu depth (universal stored) with
                | error e => simp [hg] at h
                | ok gold =>
                  simp only [hg] at h
                  refine ⟨docs, blind, predicted, text, gold, sys, rfl, hp, ht, hw, hs, rfl, ?_⟩
                  by_contra hne
                  have := (C28_total lower none ⟨_, _, hg⟩ ⟨_, _, hs⟩).2 hne
                  simp [this] at h
  · rintro ⟨docs, blind, predicted, text, gold, sys, hr, hp, ht, hw, hs, hg, hc⟩
    obtain ⟨m, hm⟩ := (C28_total lower none ⟨_, _, hg⟩ ⟨_, _, hs⟩).1 hc
    refine ⟨m.table, ?_⟩
    simp only [testFileAt, dataSetFile, hr, testTaggerAt, hp, ht, internalOf_eq, hw, hs, hg, hm]

/-- C123: a file that cannot be read is reported with the exception of the reader, also if documents were read
before; the tagger has no influence. -/
theorem C123_unreadable (results : Option Str) (lower : Str → Str) (depth : Nat) {stored : Str} {e : Err}
    (h : readFromFile 1 defaultCols stored = .error e ∨ ∃ docs, readFromFile 1 defaultCols stored = .ok (docs, some e))
    (tag : List Document → Res (List Document)) : testFileAt results lower depth stored tag = .error e := by
  unfold testFileAt dataSetFile
  rcases h with h | ⟨docs, h⟩ <;> rw [h]

/-- C123: after reading, the tagger is asked once, for the documents without annotation, and its exceptions are
passed on. -/
theorem C123_tagger (results : Option Str) (lower : Str → Str) (depth : Nat) {stored : Str} {docs : List Document}
    (h : readFromFile 1 defaultCols stored = .ok (docs, none)) :
    ∃ blind, prepareTestData docs = .ok blind ∧ ∀ (tag : List Document → Res (List Document)) (e : Err),
      tag blind = .error e → testFileAt results lower depth stored tag = .error e := by
  obtain ⟨blind, hb, _⟩ := C53_blind (fun d hd => (read_builtValid h d hd).built)
  refine ⟨blind, hb, fun tag e ht => ?_⟩
  simp only [testFileAt, dataSetFile, h, testTaggerAt, hb, ht]

/-- C123: a tagger that changes the characters is reported. -/
theorem C123_characters (results : Option Str) (lower : Str → Str) (depth : Nat) {stored : Str}
    {docs blind predicted : List Document} {text : Str} {gold sys : UD} {tag : List Document → Res (List Document)}
    (h : readFromFile 1 defaultCols stored = .ok (docs, none)) (hb : prepareTestData docs = .ok blind)
    (ht : tag blind = .ok predicted) (hw : writeToStr defaultCols predicted = .ok text)
    (hs : loadConllu depth (asRead results text) = .ok sys) (hg : loadConllu depth (universal stored) = .ok gold)
    (hne : gold.characters ≠ sys.characters) : testFileAt results lower depth stored tag = .error .udError := by
  have := (C28_total lower none ⟨_, _, hg⟩ ⟨_, _, hs⟩).2 hne
  simp only [testFileAt, dataSetFile, h, testTaggerAt, hb, ht, internalOf_eq, hw, hs, hg, this]

namespace Demo

/-- A sentence, and a line that is no CoNLL-U. -/
def badFile : Str := "1\ta\ta\t_\t_\t_\t0\t_\t_\t_\n\nx\n".toList

/-- A sentence with Windows line ends. -/
def crlfFile : Str := "1\ta\ta\t_\t_\t_\t0\t_\t_\t_\r\n\r\n".toList

end Demo

/-- The file has a document and an exception. -/
example : ∃ d e, readFromFile 1 defaultCols Demo.badFile = .ok ([d], some e) :=
  ⟨_, _, (by rfl : _ = Except.ok ([_], some _))⟩

/-- The test succeeds for the document itself, and not for a document with another text. -/
example : (testFileAt (some ['\n']) id 10 Demo.crlfFile (fun _ => .ok [Demo.crDoc (some ['a'])])).isOk = true ∧
    testFileAt none id 10 Demo.crlfFile (fun _ => .ok [{ Demo.crDoc (some ['a']) with text := ['b'] }]) =
      .error .udError ∧
    testFileAt none id 10 Demo.crlfFile (fun _ => .error .runtime) = .error .runtime := by
  refine ⟨by decide +kernel, by decide +kernel, by decide +kernel⟩

end Verif
