import Verif.Model.Evaluation

/-!
# Model of text files, conllu_io.py:111-112, 289-291, evaluation.py:37-52, 80-90

Files are opened in text mode with UTF-8 and without the argument `newline`: on reading `\r\n` and `\r` become
`\n`, on writing `\n` becomes the line end of the platform.  A file is modelled by the characters that are
stored; encoding errors (lone surrogates) are not modelled, and what a writer that raises has already stored
is not either.
-/

namespace Verif

/-- Reading; the flag says that the last character was `\r`. -/
def universalFrom : Bool → Str → Str
  | _, [] => []
  | cr, c :: cs =>
    if c = '\r' then '\n' :: universalFrom true cs
    else if c = '\n' ∧ cr = true then universalFrom false cs
    else c :: universalFrom false cs

/-- conllu_io.py:112, evaluation.py:51, 86, conll17_ud_eval.py:465: the text that is read from a file. -/
def universal (stored : Str) : Str := universalFrom false stored

/-- conllu_io.py:290: what is stored if the text is written; `eol` is `os.linesep`. -/
def onDisk (eol : Str) (text : Str) : Str := text.flatMap (fun c => if c = '\n' then eol else [c])

/-- conllu_io.py:289-291 `CoNLLUWriter.write_to_file`: the file. -/
def writeToFile (eol : Str) (columns : Cols) (docs : List Document) : Res Str :=
  match writeToStr columns docs with
  | .error e => .error e
  | .ok text => .ok (onDisk eol text)

/-- conllu_io.py:111-112 `CoNLLUReader.read_from_file`. -/
def readFromFile (limit : Int) (columns : Cols) (stored : Str) : Res (List Document × Option Err) :=
  readFromStr limit columns (universal stored)

/-- evaluation.py:45-52 `_save_and_read`. -/
def saveAndRead (eol : Str) (cols : Cols) (depth : Nat) (docs : List Document) : Res UD :=
  match writeToFile eol cols docs with
  | .error e => .error e
  | .ok stored => loadConllu depth (universal stored)

/-- evaluation.py:40-41: saved if there is a `results_path`. -/
def internalOf (results : Option Str) (cols : Cols) (depth : Nat) (docs : List Document) : Res UD :=
  match results with
  | none => convertToInternal cols depth docs
  | some eol => saveAndRead eol cols depth docs

/-- evaluation.py:37-43 `TaggerTester.test`, with or without a `results_path`. -/
def testTaggerAt (results : Option Str) (lower : Str → Str) (cols : Cols) (depth : Nat) (gold : List Document)
    (internal : Res UD) (tag : List Document → Res (List Document)) : Res ScoreTable :=
  match prepareTestData gold with
  | .error e => .error e
  | .ok testData =>
    match tag testData with
    | .error e => .error e
    | .ok predicted =>
      match internalOf results cols depth predicted with
      | .error e => .error e
      | .ok system =>
        match internal with
        | .error e => .error e
        | .ok goldUd =>
          match evaluate lower goldUd system none with
          | .error e => .error e
          | .ok m => .ok m.table

/-- dataset.py:10-16: the documents of a file. -/
def dataSetFile (stored : Str) : Res (List Document) :=
  match readFromFile 1 defaultCols stored with
  | .error e => .error e
  | .ok (_, some e) => .error e
  | .ok (docs, none) => .ok docs

/-- evaluation.py:80-90 `FileTaggerTester`, on the stored file. -/
def testFileAt (results : Option Str) (lower : Str → Str) (depth : Nat) (stored : Str)
    (tag : List Document → Res (List Document)) : Res ScoreTable :=
  match dataSetFile stored with
  | .error e => .error e
  | .ok docs => testTaggerAt results lower defaultCols depth docs (loadConllu depth (universal stored)) tag

end Verif
