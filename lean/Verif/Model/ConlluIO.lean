import Verif.Model.Datamodel

/-!
# Model of /repo/babylondigger/evaluation/conllu_io.py

Input and output go through in-memory text (`read_from_str`, `write_to_str`).  (Simplification:
`read_from_file`/`write_to_file` additionally decode bytes and translate line ends, which is the
operating system's and Python's part and is not modelled.)
-/

namespace Verif

/-! ### Columns: conll17_ud_eval.py:95 `ID,FORM,LEMMA,UPOS,XPOS,FEATS,HEAD,DEPREL,DEPS,MISC=range(10)` -/

abbrev colID : Nat := 0
abbrev colFORM : Nat := 1
abbrev colLEMMA : Nat := 2
abbrev colUPOS : Nat := 3
abbrev colXPOS : Nat := 4
abbrev colFEATS : Nat := 5
abbrev colHEAD : Nat := 6
abbrev colDEPREL : Nat := 7
abbrev colDEPS : Nat := 8
abbrev colMISC : Nat := 9

/-- A set of column numbers. -/
abbrev Cols := List Nat

/-- conllu_io.py:106-108 and 284-286: `HEAD` is selected along with `DEPREL`. -/
def withHead (cols : Cols) : Cols := if colDEPREL ∈ cols then colHEAD :: cols else cols

/-- The default of both constructors, conllu_io.py:103 and 283. -/
def defaultCols : Cols := [colLEMMA, colUPOS, colXPOS, colFEATS, colDEPREL]

def underscore : Str := ['_']

/-! ### Lines of a text -/

/-- Iteration over `StringIO(text)`: lines with their terminator; only `\n` ends a line. -/
def fileLines : Str → List Str
  | [] => []
  | c :: cs =>
    if c = '\n' then ['\n'] :: fileLines cs
    else match fileLines cs with
      | [] => [[c]]
      | w :: ws => (c :: w) :: ws

/-- The characters removed by `strip("\r\n")`. -/
def isEol (c : Char) : Bool := c == '\r' || c == '\n'

/-! ### Reader -/

/-- conllu_io.py:138-146 `InternalToken`. -/
structure PTok where
  id : Option Str
  text : Str
  pos : Option Pos
  lemma' : Option Str
  head : Option Int
  deprel : Option Str
  spaceAfter : Bool
  deriving DecidableEq

/-- One entry of conllu_io.py:188: `s.split("=")`, then elements 0 and 1. -/
def parseEntry (s : Str) : Res (Str × Str) :=
  match splitOn1 '=' s with
  | a :: b :: _ => .ok (a, b)
  | _ => .error .index

/-- conllu_io.py:185-188 `_parse_to_dict`. -/
def parseToDict : Option Str → Res (Dict Str Str)
  | none => .ok Dict.empty
  | some f =>
    match mapM' parseEntry (splitOn1 '|' f) with
    | .error e => .error e
    | .ok l => .ok (Dict.ofList l)

/-- `row[column]` for a constant column. -/
def rowGet (row : List (Option Str)) (column : Nat) : Res (Option Str) :=
  match row[column]? with
  | some v => .ok v
  | none => .error .index

/-- conllu_io.py:148-149 `_column_extractor`. -/
def colGet (cols : Cols) (row : List (Option Str)) (column : Nat) : Res (Option Str) :=
  if column ∈ cols then rowGet row column else .ok none

/-- conllu_io.py:151-157 `pos_extractor` with 181-182 `_parse_pos`. -/
def parsePos (cols : Cols) (row : List (Option Str)) : Res (Option Pos) :=
  if colUPOS ∈ cols ∨ colXPOS ∈ cols ∨ colFEATS ∈ cols then do
    let u ← colGet cols row colUPOS
    let x ← colGet cols row colXPOS
    let f ← colGet cols row colFEATS
    let d ← parseToDict f
    pure (some ⟨u, x, d⟩)
  else pure none

/-- conllu_io.py:144 `int(head) if head is not None else None`. -/
def parseHead : Option Str → Res (Option Int)
  | none => .ok none
  | some s =>
    match pyInt s with
    | .ok i => .ok (some i)
    | .error e => .error e

/-- conllu_io.py:166: `_` stands for `None`. -/
def unshield (v : Str) : Option Str := if v = underscore then none else some v

/-- conllu_io.py:164-174 `_parse_line`. -/
def parseLine (cols : Cols) (fields : List Str) : Res PTok := do
  let row := fields.map unshield
  let id ← rowGet row colID
  let form ← rowGet row colFORM
  let pos ← parsePos cols row
  let lemma' ← colGet cols row colLEMMA
  let head ← colGet cols row colHEAD
  let deprel ← colGet cols row colDEPREL
  let misc ← rowGet row colMISC
  let miscDict ← parseToDict misc
  let head' ← parseHead head
  pure { id, text := form.getD underscore, pos, lemma', head := head', deprel,
         spaceAfter := (miscDict.get? "SpaceAfter".toList).isNone }

/-- conllu_io.py:38-44 `_compute_head`. -/
def computeHead : Option Int → Option Int
  | none => none
  | some h => if h = 0 then some (-1) else some (h - 1)

/-- The fields of `_MultiWordReaderState`, conllu_io.py:80-86. -/
structure MState where
  count : Int
  added : Nat
  start : Nat
  stop : Nat
  deriving DecidableEq

/-- The reader state: `_ReaderState` (conllu_io.py:47-50) if `multi` is `none`, otherwise a
`_MultiWordReaderState` whose parent it is (they share the lists). -/
structure RState where
  text : Str := []
  tokens : List Token := []
  sents : List Sentence := []
  multi : Option MState := none
  deriving DecidableEq

/-- conllu_io.py:66-67: the space appended after a surface form. -/
def spaceIf (b : Bool) : Str := if b then [' '] else []

/-- conllu_io.py:60-76 `_ReaderState._process_token`. -/
def processRegular (st : RState) (p : PTok) : Res RState :=
  match p.id with
  | none => .error .type
  | some id =>
    if '.' ∈ id then .ok st
    else
      let start := st.text.length
      let stop := start + p.text.length
      let text := st.text ++ p.text ++ spaceIf p.spaceAfter
      if '-' ∈ id then
        match splitOn1 '-' id with
        | [a, b] =>
          match pyInt b, pyInt a with
          | .ok y, .ok x => .ok { st with text, multi := some { count := y - x + 1, added := 0, start, stop } }
          | _, _ => .error .value
        | _ => .error .assertion
      else
        match Token.new start stop p.pos p.lemma' p.deprel 0 none none (computeHead p.head) none with
        | .error e => .error e
        | .ok t => .ok { st with text, tokens := st.tokens ++ [t] }

/-- conllu_io.py:88-96 `_MultiWordReaderState._process_token`. -/
def processMulti (st : RState) (m : MState) (p : PTok) : Res RState :=
  match Token.new m.start m.stop p.pos p.lemma' p.deprel m.added (some p.text) none
      (computeHead p.head) none with
  | .error e => .error e
  | .ok t =>
    let added := m.added + 1
    .ok { st with
      tokens := st.tokens ++ [t]
      multi := if m.count = added then none else some { m with added } }

/-- conllu_io.py:24-27 `add_token`. -/
def addToken (cols : Cols) (st : RState) (line : Str) : Res RState :=
  match parseLine cols (splitOn1 '\t' line) with
  | .error e => .error e
  | .ok p =>
    match st.multi with
    | none => processRegular st p
    | some m => processMulti st m p

/-- conllu_io.py:32-36 and 98-99 `end_of_sentence`. -/
def endOfSentence (st : RState) : Res RState :=
  match st.multi with
  | some _ => .error .runtime
  | none =>
    match Sentence.new (((st.sents.getLast?).map Sentence.stop).getD 0 : Nat) st.tokens.length with
    | .error e => .error e
    | .ok s => .ok { st with sents := st.sents ++ [s] }

/-- conllu_io.py:52-54 and 16-18 `document`. -/
def RState.document (st : RState) : Res Document :=
  match st.multi with
  | some _ => .error .notImplemented
  | none => Document.new st.text st.tokens (some st.sents) true

/-- conllu_io.py:56-58 and 20-22 `is_empty`. -/
def RState.isEmpty (st : RState) : Res Bool :=
  match st.multi with
  | some _ => .error .notImplemented
  | none => .ok (st.text.isEmpty && st.tokens.isEmpty)

/-- conllu_io.py:117-134 `_read` on the stripped lines.  A generator: the documents yielded, and the
exception that ended it, if any. -/
def readLoop (limit : Nat) (cols : Cols) : RState → List Str → List Document × Option Err
  | st, [] =>
    match st.isEmpty with
    | .error e => ([], some e)
    | .ok true => ([], none)
    | .ok false =>
      match st.document with
      | .error e => ([], some e)
      | .ok d => ([d], none)
  | st, line :: lines =>
    if line.head? = some '#' then readLoop limit cols st lines
    else if line.isEmpty then
      match endOfSentence st with
      | .error e => ([], some e)
      | .ok st' =>
        if st'.sents.length ≥ limit then
          match st'.document with
          | .error e => ([], some e)
          | .ok d =>
            let r := readLoop limit cols {} lines
            (d :: r.1, r.2)
        else readLoop limit cols st' lines
    else
      match addToken cols st line with
      | .error e => ([], some e)
      | .ok st' => readLoop limit cols st' lines

/-- conllu_io.py:103-115 `CoNLLUReader(limit, columns).read_from_str(text)`; a non-positive limit is
rejected by the constructor. -/
def readFromStr (limit : Int) (columns : Cols) (text : Str) : Res (List Document × Option Err) :=
  if limit > 0 then
    .ok (readLoop limit.toNat (withHead columns) {} ((fileLines text).map (stripBy isEol)))
  else .error .assertion

/-! ### Writer -/

/-- conllu_io.py:311-312 `__shield_none`. -/
def shield (s : Option Str) : Str := s.getD underscore

/-- `"{}={}".format(*item)`, conllu_io.py:317. -/
def featStr (item : Str × Str) : Str := item.1 ++ '=' :: item.2

/-- conllu_io.py:314-317 `__feats_to_string`; `len(None)` raises `TypeError`. -/
def featsToString : Option (Dict Str Str) → Res Str
  | none => .error .type
  | some d =>
    .ok (if d.entries.isEmpty then underscore
         else joinWith '|' (pySorted (· ≤ ·) (d.entries.map featStr)))

/-- conllu_io.py:319-322 `__normalize_index` followed by `str`. -/
def normIndex (i : Int) : Str := if i = -1 then ['0'] else intStr (i + 1)

/-- conllu_io.py:265-276 `_column_extractors`: `f(token)` if the column is selected, else `None`. -/
def extract {α : Type} (cols : Cols) (column : Nat) (v : Option α) : Option α :=
  if column ∈ cols then v else none

def spaceAfterNo : Str := "SpaceAfter=No".toList

/-- conllu_io.py:310-346 `to_conll`: the ten fields of a line.  `headView` is the token's
`head_index`. -/
def toConll (cols : Cols) (text : Str) (headView : Token → Option Int) (index : Nat) (t : Token)
    (writeSpace fake : Bool) : Res (List Str) := do
  let lem := shield (extract cols colLEMMA t.lemma')
  let (u, x, f) ← match t.pos with
    | none => pure (underscore, underscore, underscore)
    | some p => do
      let f ← featsToString (extract cols colFEATS (some p.feats))
      pure (shield (extract cols colUPOS p.upos), shield (extract cols colXPOS p.xpos), f)
  let (h, r) := match extract cols colHEAD (headView t) with
    | some v => (normIndex v, shield (extract cols colDEPREL t.deprel))
    | none => (if fake then natStr index else underscore, underscore)
  let m := if writeSpace && !spaceAfter text t then spaceAfterNo else underscore
  pure [normIndex index, tokText text t, lem, u, x, f, h, r, underscore, m]

/-- conllu_io.py:349-353 `_format_line`. -/
def formatLine (fields : List Str) : Str := joinWith '\t' fields ++ ['\n']

/-- Writer state: what was written, the index of `_RegularTokenWriterState` (conllu_io.py:205-209)
and, when the current state is a `_MultiwordTokenWriterState` (236-241), its start index and
tokens (the first one is `first`). -/
structure WState where
  out : Str := []
  index : Nat := 0
  pending : Option (Nat × Token × List Token) := none

/-- conllu_io.py:217-219 `write_regular`. -/
def writeRegular (cols : Cols) (text : Str) (writeSpace : Bool) (st : WState) (t : Token) : Res WState :=
  match toConll cols text Token.headSent st.index t writeSpace true with
  | .error e => .error e
  | .ok fields => .ok { st with out := st.out ++ formatLine fields, index := st.index + 1 }

/-- conllu_io.py:254-262 `_write_multiword_token`. -/
def writeMultiword (cols : Cols) (text : Str) (st : WState) (start : Nat) (first : Token)
    (tokens : List Token) : Res WState :=
  let header := [natStr start ++ '-' :: intStr ((start : Int) + tokens.length - 1), docText text first,
    underscore, underscore, underscore, underscore, underscore, underscore, underscore,
    if spaceAfter text first then underscore else spaceAfterNo]
  forM' (writeRegular cols text false) { st with out := st.out ++ formatLine header } tokens

/-- conllu_io.py:211-215 `_RegularTokenWriterState.write_token`. -/
def writeTokenRegular (cols : Cols) (text : Str) (st : WState) (t : Token) : Res WState :=
  if t.isMultiword then .ok { st with pending := some (st.index + 1, t, [t]) }
  else writeRegular cols text true { st with pending := none } t

/-- conllu_io.py:196, 211, 243-248 `write_token`. -/
def writeToken (cols : Cols) (text : Str) (st : WState) (t : Token) : Res WState :=
  match st.pending with
  | none => writeTokenRegular cols text st t
  | some (start, first, tokens) =>
    if first.coincides t then .ok { st with pending := some (start, first, tokens ++ [t]) }
    else
      match writeMultiword cols text st start first tokens with
      | .error e => .error e
      | .ok st' => writeTokenRegular cols text st' t

/-- conllu_io.py:221-224 and 250-252 `write_end_of_sentence`.  The caller keeps its state object
(line 307 discards the return value), so a pending multiword token stays pending. -/
def writeEnd (cols : Cols) (text : Str) (st : WState) : Res WState :=
  match st.pending with
  | none => .ok { st with out := st.out ++ ['\n'], index := 0 }
  | some (start, first, tokens) =>
    match writeMultiword cols text st start first tokens with
    | .error e => .error e
    | .ok st' => .ok { st' with out := st'.out ++ ['\n'], index := 0 }

/-- conllu_io.py:305-307: one sentence. -/
def writeSentence (cols : Cols) (text : Str) (st : WState) (toks : List Token) : Res WState :=
  match forM' (writeToken cols text) st toks with
  | .error e => .error e
  | .ok st' => writeEnd cols text st'

/-- conllu_io.py:304-307: the body of the loop over `doc.sentences`, for the `i`-th one. -/
def writeNth (cols : Cols) (d : Document) (st : WState) (i : Nat) : Res WState :=
  match d.getSentence i with
  | .error e => .error e
  | .ok s => writeSentence cols d.text st s.tokens

/-- conllu_io.py:302-307 `__write_CoNLL_U`. -/
def writeDocument (cols : Cols) (out : Str) (d : Document) : Res Str :=
  match forM' (writeNth cols d) { out } (List.range d.sentences.length) with
  | .error e => .error e
  | .ok st => .ok st.out

/-- conllu_io.py:283-300 `CoNLLUWriter(columns).write_to_str(*docs)`. -/
def writeToStr (columns : Cols) (docs : List Document) : Res Str :=
  forM' (writeDocument (withHead columns)) [] docs

end Verif
