import Verif.Model.ConlluIO

/-!
# Model of the generator `CoNLLUReader._read`, conllu_io.py:111-134, with its file

`readLoop` (Verif/Model/ConlluIO.lean) is what a consumer sees that takes all documents.  Here the
generator is an object that is advanced by `next` and can be closed, and the file is open or closed.
Garbage collection is not modelled: a file that nobody closes stays open.
-/

namespace Verif

/-- Where the generator stands. -/
inductive GenPos where
  /-- created, nothing of the body has been executed; all lines are unread -/
  | created (lines : List Str)
  /-- suspended at the `yield` of line 128, with the unread lines -/
  | inLoop (lines : List Str)
  /-- suspended at the `yield` of line 132 -/
  | atEnd
  /-- finished, failed or closed -/
  | over
  deriving DecidableEq

/-- The object returned by `read_from_file`: the generator and whether its file is closed. -/
structure FileReader where
  pos : GenPos
  closed : Bool
  deriving DecidableEq

/-- What a call gives: a document, the end (`StopIteration`) or an exception. -/
inductive ReadOut where
  | doc (d : Document)
  | stop
  | raised (e : Err)
  deriving DecidableEq

/-- conllu_io.py:111-112 `read_from_file` on a file that exists: it is opened by the call itself; the
lines are stripped (line 121). -/
def openReader (text : Str) : FileReader :=
  { pos := .created ((fileLines text).map (stripBy isEol)), closed := false }

/-- conllu_io.py:133-134: the body ends, `finally` closes the file. -/
def endReader (out : ReadOut) : FileReader × ReadOut := ({ pos := .over, closed := true }, out)

/-- conllu_io.py:120-132: from `state` on until the next `yield` or the end of the body. -/
def readOn (limit : Nat) (cols : Cols) : RState → List Str → FileReader × ReadOut
  | st, [] =>
    match st.isEmpty with
    | .error e => endReader (.raised e)
    | .ok true => endReader .stop
    | .ok false =>
      match st.document with
      | .error e => endReader (.raised e)
      | .ok d => ({ pos := .atEnd, closed := false }, .doc d)
  | st, line :: lines =>
    if line.head? = some '#' then readOn limit cols st lines
    else if line.isEmpty then
      match endOfSentence st with
      | .error e => endReader (.raised e)
      | .ok st' =>
        if st'.sents.length ≥ limit then
          match st'.document with
          | .error e => endReader (.raised e)
          | .ok d => ({ pos := .inLoop lines, closed := false }, .doc d)
        else readOn limit cols st' lines
    else
      match addToken cols st line with
      | .error e => endReader (.raised e)
      | .ok st' => readOn limit cols st' lines

/-- `next(generator)`, conllu_io.py:117-134.  A generator that is over raises `StopIteration` and
executes nothing. -/
def FileReader.next (limit : Nat) (cols : Cols) (r : FileReader) : FileReader × ReadOut :=
  match r.pos with
  | .created lines => readOn limit cols {} lines
  | .inLoop lines => readOn limit cols {} lines
  | .atEnd => endReader .stop
  | .over => (r, .stop)

/-- `generator.close()`: `GeneratorExit` is raised at the `yield`, so that `finally` is executed; a
generator that was not started executes nothing. -/
def FileReader.close (r : FileReader) : FileReader :=
  match r.pos with
  | .created _ => { r with pos := .over }
  | .inLoop _ => { pos := .over, closed := true }
  | .atEnd => { pos := .over, closed := true }
  | .over => r

/-- What a consumer does with a generator. -/
inductive ReadOp where
  | next
  | close
  deriving DecidableEq

/-- A consumer: the reader afterwards and what the calls of `next` gave. -/
def FileReader.run (limit : Nat) (cols : Cols) : FileReader → List ReadOp → FileReader × List ReadOut
  | r, [] => (r, [])
  | r, .next :: ops =>
    let n := r.next limit cols
    let rest := FileReader.run limit cols n.1 ops
    (rest.1, n.2 :: rest.2)
  | r, .close :: ops => FileReader.run limit cols r.close ops

end Verif
