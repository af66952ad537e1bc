import Verif.Model.Wrappers
import Verif.Model.Network

/-!
# Model of the life of the objects of wrappers/tdozat.py and wrappers/udpipe1_2.py

What the objects keep between calls, how they are constructed, and what is done with the answers of the
libraries.  The libraries themselves (tdozat_parser, ufal.udpipe, TensorFlow) are not part of the
repository; what is assumed of them is stated at the definitions.
-/

namespace Verif

/-! ### tdozat: predictions and sessions kept between calls -/

/-- One field of `GraphOutputs.cache_predictions` of tdozat_parser: the rows are appended to those that are
there. -/
def appendRows {α : Type} (d : Dict Str (List α)) (e : Str × List α) : Dict Str (List α) :=
  d.set e.1 ((d.get? e.1).getD [] ++ e.2)

/-- `GraphOutputs.cache_predictions` of tdozat_parser as used in tdozat.py:104 (assumed): the numbers of the
sentences of the batch and the rows of all its fields are appended to what is there.  (Fields and extra fields
are kept apart here, as in `TdPreds`; their names are assumed to be different.) -/
def cachePreds (p batch : TdPreds) : TdPreds :=
  { indices := p.indices ++ batch.indices
    fields := batch.fields.entries.foldl appendRows p.fields
    extras := batch.extras.entries.foldl appendRows p.extras }

/-- tdozat.py:132 `{'indices': []}`, which also is what `GraphOutputs` starts with. -/
def noPreds : TdPreds := { indices := [], fields := Dict.empty, extras := Dict.empty }

/-- What a `TDozatDocumentProcessor` keeps between calls: whether there is a session, and the predictions in
`parse_outputs`. -/
structure TdProc where
  session : Bool := false
  preds : TdPreds := noPreds

/-- What can be done with a processor: enter it (restoring the variables may fail), exit it, process
documents. -/
inductive TdOp where
  | enter (restore : Option Err)
  | exit
  | process (docs : List Document)

/-- What the network does with documents: the predictions of the batches in the order of processing, and the
exception that ended it, if any. -/
abbrev TdNet := List Document → List TdPreds × Option Err

/-- tdozat.py:68-83 `__enter__`: the session is stored before the variables are restored.
tdozat.py:85-87 `__exit__`: closes the session; `None` has no `close`.
tdozat.py:59-63 `process`, 89-134 `__parse_documents`: the predictions of all batches are added to those that are
there, distributed over the documents, and removed at the very end only. -/
def TdProc.step (net : TdNet) (extraFields : List Str) (p : TdProc) :
    TdOp → TdProc × List SessEvent × Res (List Document)
  | .enter none => ({ p with session := true }, [.opened], .ok [])
  | .enter (some e) => ({ p with session := true }, [.opened], .error e)
  | .exit => if p.session then ({ p with session := false }, [.closed], .ok []) else (p, [], .error .attribute)
  | .process docs =>
    if p.session then
      match net docs with
      | (batches, some e) => ({ p with preds := batches.foldl cachePreds p.preds }, [], .error e)
      | (batches, none) =>
        match tdDistribute (batches.foldl cachePreds p.preds) extraFields 0 docs with
        | .error e => ({ p with preds := batches.foldl cachePreds p.preds }, [], .error e)
        | .ok outs => ({ p with preds := noPreds }, [], .ok outs)
    else (p, [], .error .attribute)

/-- The processor after a sequence of operations, all exceptions being caught by the caller. -/
def TdProc.after (net : TdNet) (extraFields : List Str) (p : TdProc) (ops : List TdOp) : TdProc :=
  ops.foldl (fun p op => (p.step net extraFields op).1) p

/-- What an operation returns or raises. -/
def TdProc.result (net : TdNet) (extraFields : List Str) (p : TdProc) (op : TdOp) : Res (List Document) :=
  (p.step net extraFields op).2.2

/-- The sessions that are opened and closed by a sequence of operations. -/
def TdProc.events (net : TdNet) (extraFields : List Str) : TdProc → List TdOp → List SessEvent
  | _, [] => []
  | p, op :: ops => (p.step net extraFields op).2.1 ++
      TdProc.events net extraFields (p.step net extraFields op).1 ops

/-- `with processor: ...` around some calls of `process`, an exception of one of them ending the block: the
operations that are executed. -/
def withBlock (net : TdNet) (extraFields : List Str) : TdProc → List (List Document) → List TdOp
  | _, [] => [.exit]
  | p, docs :: rest =>
    match p.result net extraFields (.process docs) with
    | .error _ => [.process docs, .exit]
    | .ok _ => .process docs :: withBlock net extraFields (p.step net extraFields (.process docs)).1 rest

/-! ### tdozat: construction -/

/-- The outputs of a network: nested dictionaries of tensors. -/
inductive TfOut where
  | tensor (name : Str)
  | dict (entries : List (Str × TfOut))

/-- tdozat.py:50-54: one key of a path. -/
def TfOut.child (key : Str) : TfOut → Res TfOut
  | .tensor _ => .error .value
  | .dict entries =>
    match entries.find? (fun e => e.1 == key) with
    | some e => .ok e.2
    | none => .error .value

/-- tdozat.py:49-55: following a path. -/
def TfOut.follow : TfOut → List Str → Res TfOut
  | o, [] => .ok o
  | o, key :: path =>
    match o.child key with
    | .error e => .error e
    | .ok o' => o'.follow path

/-- tdozat.py:46-55: the extra fields; `None` means none. -/
def resolveFields (outputs : TfOut) (extraFields : Option (Dict Str (List Str))) : Res (Dict Str TfOut) :=
  match extraFields with
  | none => .ok Dict.empty
  | some d =>
    match mapM' (fun e : Str × List Str =>
        match outputs.follow e.2 with
        | .error e => .error e
        | .ok o => .ok (e.1, o)) d.entries with
    | .error e => .error e
    | .ok l => .ok (Dict.ofList l)

/-- tdozat.py:147-151, 160-168: the fields asked for by flags, updated with those of the caller (an empty
dictionary is falsy and changes nothing anyway). -/
def mergedFields (flags : List (Bool × Str × List Str)) (extraFields : Option (Dict Str (List Str))) :
    Dict Str (List Str) :=
  (Dict.ofList ((flags.filter (fun f => f.1)).map (fun f => f.2))).update (extraFields.getD Dict.empty)

/-- tdozat.py:147-149: the flag of `TDozatParser`. -/
def parserFlags (recur : Bool) : List (Bool × Str × List Str) :=
  [(recur, "parser_recur_layer".toList, ["deptree".toList, "recur_layer".toList])]

/-- tdozat.py:160-166: the flags of `TDozatTagger`. -/
def taggerFlags (recur upos xpos : Bool) : List (Bool × Str × List Str) :=
  [(recur, "tagger_recur_layer".toList, ["upos".toList, "recur_layer".toList]),
   (upos, "upos_hidden".toList, ["upos".toList, "hidden_layer".toList]),
   (xpos, "xpos_hidden".toList, ["xpos".toList, "hidden_layer".toList])]

/-- tdozat.py:65-66, 145-154, 158-172: construction of a parser or a tagger, given the class of the network that the
configuration names, the outputs of the network and the class that is expected: the fields are resolved first,
then the class is checked.  (Reading the configuration and building the graph are not modelled.) -/
def tdConstruct (cls expected : Str) (outputs : TfOut) (flags : List (Bool × Str × List Str))
    (extraFields : Option (Dict Str (List Str))) : Res (Dict Str TfOut) :=
  match resolveFields outputs (some (mergedFields flags extraFields)) with
  | .error e => .error e
  | .ok fields => if cls = expected then .ok fields else .error .value

/-! ### UDPipe -/

/-- A `ud.Model`: `tag` and `parse` work on the words of a sentence in place and return whether they
succeeded. -/
structure UdModel where
  tag : List UdWord → Bool × List UdWord
  parse : List UdWord → Bool × List UdWord

/-- udpipe1_2.py:32-34 `load_udpipe`: `ud.Model.load` returns `None` if the file cannot be read (as documented
by ufal.udpipe), and the processor is made of that. -/
def loadUdpipe (files : Str → Option UdModel) (path : Str) : Res (Option UdModel) := .ok (files path)

/-- udpipe1_2.py:43-45 `UDPipeTagger.ud_pipe_processor`: the returned value is not looked at; `None` has no
`tag`. -/
def udTagger : Option UdModel → List UdWord → Res (List UdWord)
  | none, _ => .error .attribute
  | some m, ws => .ok (m.tag ws).2

/-- udpipe1_2.py:54-56 `UDPipeParser.ud_pipe_processor`. -/
def udParser : Option UdModel → List UdWord → Res (List UdWord)
  | none, _ => .error .attribute
  | some m, ws => .ok (m.parse ws).2

/-- udpipe1_2.py:65-70 `UDPipeTaggerParser.ud_pipe_processor`. -/
def udTaggerParser : Option UdModel → List UdWord → Res (List UdWord)
  | none, _ => .error .attribute
  | some m, ws => .ok (m.parse (m.tag ws).2).2

end Verif
