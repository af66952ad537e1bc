import Verif.Model.ConlluIO

/-!
# Model of wrappers/udpipe1_2.py and wrappers/tdozat.py

The libraries behind the wrappers are not modelled: a UDPipe model is an arbitrary function on the
words of a sentence, a tdozat network is the arbitrary table of predictions it leaves behind.
-/

namespace Verif

/-! ### UDPipe -/

/-- The fields of `ud.Word` used by udpipe1_2.py.  The special word `<root>` at position 0 of
`ud.Sentence.words` is left out. -/
structure UdWord where
  form : Str
  lemma' : Str := []
  upostag : Str := []
  xpostag : Str := []
  feats : Str := []
  head : Int := -1
  deprel : Str := []
  deriving DecidableEq

/-- udpipe1_2.py:84: `"|".join(sorted("{}={}".format(*item) ...))`, for no features nothing is set. -/
def udFeats (d : Dict Str Str) : Str :=
  if d.entries.isEmpty then []
  else joinWith '|' (pySorted (· ≤ ·) (d.entries.map featStr))

/-- udpipe1_2.py:73-86 `convert_to_ud`, one token.  A new word has empty fields and the head -1; setting
a field only if the value is not empty leaves it empty otherwise. -/
def toUd (text : Str) (t : Token) : UdWord :=
  match t.pos with
  | none => { form := tokText text t, lemma' := t.lemma'.getD [] }
  | some p =>
    { form := tokText text t, lemma' := t.lemma'.getD [], upostag := p.upos.getD [],
      xpostag := p.xpos.getD [], feats := udFeats p.feats }

/-- udpipe1_2.py:91-92 `non_empty`. -/
def nonEmpty (s : Str) : Option Str := if s = [] then none else some s

/-- udpipe1_2.py:96-98: the features of a word, `None` for an empty string. -/
def udParseFeats (s : Str) : Res (Option (Dict Str Str)) :=
  if s = [] then .ok none
  else
    match mapM' parseEntry (splitOn1 '|' s) with
    | .error e => .error e
    | .ok l => .ok (some (Dict.ofList l))

/-- udpipe1_2.py:99: the part of speech of a word; `feats` is falsy if it is `None` or empty. -/
def udPos (w : UdWord) (feats : Option (Dict Str Str)) : Option Pos :=
  if w.upostag ≠ [] ∨ w.xpostag ≠ [] ∨ (feats.getD Dict.empty).entries ≠ [] then
    some ⟨nonEmpty w.upostag, nonEmpty w.xpostag, feats.getD Dict.empty⟩
  else none

/-- udpipe1_2.py:100-102: the head of a word. -/
def udHead (w : UdWord) : Option Int := if 0 ≤ w.head then some (w.head - 1) else none

/-- udpipe1_2.py:95-105: the body of the loop of `convert_from_ud`. -/
def fromUdWord (p : Token × UdWord) : Res Token :=
  match udParseFeats p.2.feats with
  | .error e => .error e
  | .ok feats =>
    match p.1.withMorphology (udPos p.2 feats) (nonEmpty p.2.lemma') with
    | .error e => .error e
    | .ok t => t.withSyntax (nonEmpty p.2.deprel) none (udHead p.2)

/-- udpipe1_2.py:89-106 `convert_from_ud`. -/
def fromUd (ts : List Token) (ws : List UdWord) : Res (List Token) :=
  mapM' fromUdWord (ts.zip ws)

/-- udpipe1_2.py:21-24: the body of the loop over the sentences. -/
def udSentence (pipe : List UdWord → Res (List UdWord)) (d : Document) (s : Sentence) :
    Res (List Token) :=
  match pipe ((slice d.tokens s.start s.stop).map (toUd d.text)) with
  | .error e => .error e
  | .ok ws => fromUd (slice d.tokens s.start s.stop) ws

/-- udpipe1_2.py:19-25 `_process`. -/
def udProcess (pipe : List UdWord → Res (List UdWord)) (d : Document) : Res Document :=
  match mapM' (udSentence pipe d) d.sentences with
  | .error e => .error e
  | .ok tss => d.fromDocument tss.flatten

/-- udpipe1_2.py:16-17 `process`. -/
def udProcessAll (pipe : List UdWord → Res (List UdWord)) (docs : List Document) :
    Res (List Document) :=
  mapM' (udProcess pipe) docs

/-! ### tdozat -/

/-- `parse_outputs.predictions` after all batches: the numbers of the sentences in the order in which
they were processed and, for every field, one row per processed sentence with one entry per word after
the entry for the root.  The fields that are parsed hold strings, the extra fields hold arbitrary
values. -/
structure TdPreds where
  indices : List Nat
  fields : Dict Str (List (List Str))
  extras : Dict Str (List (List ExtraVal)) := Dict.empty

/-- `rows[i][j]`. -/
def rowsAt {α : Type} (rows : List (List α)) (i j : Nat) : Res α :=
  match rows[i]? with
  | none => .error .index
  | some row =>
    match row[j]? with
    | none => .error .index
    | some x => .ok x

/-- `np.argsort(indices)`, tdozat.py:107.  (The sorting is stable here; on distinct numbers every
sorting algorithm gives this.) -/
def argsort (l : List Nat) : List Nat :=
  pySorted (fun a b => decide (l[a]?.getD 0 ≤ l[b]?.getD 0)) (List.range l.length)

/-- tdozat.py:108. -/
def tdFields : List Str :=
  ["form".toList, "lemma".toList, "upos".toList, "xpos".toList, "ufeats".toList, "dephead".toList,
   "deprel".toList, "semrel".toList, "misc".toList]

/-- tdozat.py:117-121: one field, or `_` if the network does not predict it. -/
def tdField (p : TdPreds) (i j : Nat) (field : Str) : Res Str :=
  match p.fields.get? field with
  | some rows => rowsAt rows i j
  | none => .ok underscore

/-- tdozat.py:116-121: the ten fields of a word. -/
def tdLine (p : TdPreds) (i j : Nat) : Res (List Str) :=
  match p.fields.getItem "id".toList with
  | .error e => .error e
  | .ok rows =>
    match rowsAt rows i j with
    | .error e => .error e
    | .ok id =>
      match mapM' (tdField p i j) tdFields with
      | .error e => .error e
      | .ok l => .ok (id :: l)

/-- tdozat.py:122-124: the value of one extra field. -/
def tdExtra (p : TdPreds) (i j : Nat) (field : Str) : Res (Str × ExtraVal) :=
  match p.extras.getItem field with
  | .error e => .error e
  | .ok rows =>
    match rowsAt rows i j with
    | .error e => .error e
    | .ok v => .ok (field, v)

/-- The columns of `default_line_parser`, conllu_io.py:178. -/
def tdCols : Cols := [colLEMMA, colUPOS, colXPOS, colFEATS, colHEAD, colDEPREL]

/-- tdozat.py:126-128, 136-141: what is parsed is put into the token; `__compute_head` is `computeHead`. -/
def tdApply (t : Token) (w : PTok) (extras : List (Str × ExtraVal)) : Res Token :=
  match t.withMorphology w.pos w.lemma' with
  | .error e => .error e
  | .ok t1 =>
    match t1.withSyntax w.deprel none (computeHead w.head) with
    | .error e => .error e
    | .ok t2 => t2.updateExtras (some (Dict.ofList extras))

/-- tdozat.py:116-129: one word; `q.2` is its position, starting at 1. -/
def tdWord (p : TdPreds) (extraFields : List Str) (i : Nat) (q : Token × Nat) : Res Token :=
  match tdLine p i q.2 with
  | .error e => .error e
  | .ok line =>
    match mapM' (tdExtra p i q.2) extraFields with
    | .error e => .error e
    | .ok extras =>
      match parseLine tdCols line with
      | .error e => .error e
      | .ok w => tdApply q.1 w extras

/-- tdozat.py:113-130: one sentence of `d`; `q.2` is its number. -/
def tdSentence (p : TdPreds) (extraFields : List Str) (d : Document) (q : Sentence × Nat) :
    Res (List Token) :=
  match (argsort p.indices)[q.2]? with
  | none => .error .index
  | some i => mapM' (tdWord p extraFields i) ((slice d.tokens q.1.start q.1.stop).zipIdx 1)

/-- tdozat.py:111-131: one document whose first sentence has the number `k`. -/
def tdDocument (p : TdPreds) (extraFields : List Str) (k : Nat) (d : Document) : Res Document :=
  match mapM' (tdSentence p extraFields d) (d.sentences.zipIdx k) with
  | .error e => .error e
  | .ok tss => d.fromDocument tss.flatten

/-- tdozat.py:107-133: distributing the predictions over the documents. -/
def tdDistribute (p : TdPreds) (extraFields : List Str) : Nat → List Document → Res (List Document)
  | _, [] => .ok []
  | k, d :: ds =>
    match tdDocument p extraFields k d with
    | .error e => .error e
    | .ok d' =>
      match tdDistribute p extraFields (k + d.sentences.length) ds with
      | .error e => .error e
      | .ok ds' => .ok (d' :: ds')

/-- tdozat.py:59-63 `process`: without a session the message of the `RuntimeError` refers to
`self.__name__`, which instances do not have. -/
def tdProcess (session : Bool) (p : TdPreds) (extraFields : List Str) (docs : List Document) :
    Res (List Document) :=
  if session then tdDistribute p extraFields 0 docs else .error .attribute

/-- tdozat.py:180-188 `itersents`: the rows handed to the network for one document; after the last
sentence an empty one follows. -/
def itersents (d : Document) : Res (List (List (List Str))) :=
  match mapM' (fun s : Sentence => mapM' (fun q : Token × Nat =>
      toConll tdCols d.text Token.headSent q.2 q.1 true false)
      (slice d.tokens s.start s.stop).zipIdx) d.sentences with
  | .error e => .error e
  | .ok l => .ok (l ++ [[]])

end Verif
