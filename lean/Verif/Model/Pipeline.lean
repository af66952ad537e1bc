import Verif.Model.Extractors
import Verif.Model.Training

/-!
# Model of tagger.py, parser.py, processor.py and of tagging in neural_tagger.py

A stream of documents is modelled by the list of documents it yields, consumed completely; an
exception raised while producing any of them is the outcome of the consumption.
-/

namespace Verif

/-! ### Stub tagger -/

/-- tagger.py:33-35 `StubTagger._tag`. -/
def stubTag (pos : Option Pos) (d : Document) : Res Document :=
  match mapM' (fun t => t.withMorphology pos (some (tokText d.text t))) d.tokens with
  | .error e => .error e
  | .ok ts => d.fromDocument ts

/-- tagger.py:30-31 `StubTagger.tag`. -/
def stubTagAll (pos : Option Pos) (docs : List Document) : Res (List Document) :=
  mapM' (stubTag pos) docs

/-- tagger.py:44-47 `StubTaggerTrainer.get_most_frequent_pos`; `most_common(1)` returns the first
maximum in insertion order, `[0]` of no entries is an `IndexError`. -/
def mostFrequentPos (docs : List Document) : Res (Option Pos) :=
  match firstMax (counter Token.optPosEq ((docs.flatMap (fun d => d.tokens)).map (fun t => t.pos))) with
  | none => .error .index
  | some p => .ok p.1

/-- tagger.py:40-42 `StubTaggerTrainer.train`: a list with one tagger (given by its tag). -/
def stubTrain (docs : List Document) : Res (List (Option Pos)) :=
  match mostFrequentPos docs with
  | .error e => .error e
  | .ok pos => .ok [pos]

/-- tagger.py:40-42 with evaluation.py:126: what iterating over the result of the stub trainer
gives. -/
def stubYields (docs : List Document) : Res (List (Yielded (Option Pos))) :=
  match stubTrain docs with
  | .error e => .error e
  | .ok taggers => .ok (taggers.map .bare)

/-! ### Stub parser -/

/-- parser.py:24-27: the words of one sentence, attached to their left neighbours. -/
def stubAttach (deprel : Option Str) (ts : List Token) : Res (List Token) :=
  mapM' (fun p => p.1.withSyntax deprel none (some ((p.2 : Int) - 1))) ts.zipIdx

/-- parser.py:24-29 `StubParser._parse`. -/
def stubParse (deprel : Option Str) (d : Document) : Res Document :=
  match mapM' (fun s : Sentence => stubAttach deprel (slice d.tokens s.start s.stop)) d.sentences with
  | .error e => .error e
  | .ok tss => d.fromDocument tss.flatten

/-- parser.py:21-22 `StubParser.parse`. -/
def stubParseAll (deprel : Option Str) (docs : List Document) : Res (List Document) :=
  mapM' (stubParse deprel) docs

/-! ### Processors -/

/-- processor.py:6-14 `DocumentProcessorInteface`: an object (`id`), what its `__enter__` and
`__exit__` raise, if anything, and what `process` makes of a stream. -/
structure Proc where
  id : Nat
  enterErr : Option Err := none
  exitErr : Option Err := none
  process : List Document → Res (List Document)

/-- A completed call of `__enter__` or `__exit__` of a processor. -/
inductive ProcEvent where
  | entered (id : Nat)
  | exited (id : Nat)
  deriving DecidableEq, Repr

/-- An `Iterable` of processors: a collection that can be iterated again, or an iterator that is
exhausted by the first complete iteration. -/
structure ProcIter where
  items : List Proc
  oneShot : Bool := false

/-- The iterable after it was iterated to its end. -/
def ProcIter.after (it : ProcIter) : ProcIter :=
  if it.oneShot then { it with items := [] } else it

/-- processor.py:21-25 `DocumentComplexProcessor.process`. -/
def processAll (ps : List Proc) (docs : List Document) : Res (List Document) :=
  forM' (fun r p => p.process r) docs ps

/-- processor.py:27-30 `DocumentComplexProcessor.__enter__`: the completed calls and the exception,
if any. -/
def enterAll : List Proc → List ProcEvent × Option Err
  | [] => ([], none)
  | p :: ps =>
    match p.enterErr with
    | some e => ([], some e)
    | none => (.entered p.id :: (enterAll ps).1, (enterAll ps).2)

/-- processor.py:32-34 `DocumentComplexProcessor.__exit__`. -/
def exitAll : List Proc → List ProcEvent × Option Err
  | [] => ([], none)
  | p :: ps =>
    match p.exitErr with
    | some e => ([], some e)
    | none => (.exited p.id :: (exitAll ps).1, (exitAll ps).2)

/-- processor.py:17-34 used as `with DocumentComplexProcessor(it) as p: list(p.process(docs))`.
If `__enter__` raises, `__exit__` is not called; if `__exit__` raises, its exception replaces the
outcome of the block; `__exit__` returns `None`, so exceptions of the block are not suppressed. -/
def withProcessor (it : ProcIter) (docs : List Document) : List ProcEvent × Res (List Document) :=
  match enterAll it.items with
  | (ev, some e) => (ev, .error e)
  | (ev, none) =>
    match exitAll it.after.after.items with
    | (ev', some e) => (ev ++ ev', .error e)
    | (ev', none) => (ev ++ ev', processAll it.after.items docs)

/-! ### Neural tagger -/

/-- The label interpreters of extractors.py for single words, with the name of their label. -/
inductive WordInterp where
  | pos (name : Str) (table : PosTable)
  | lemmaDict (name : Str) (id2lemma : List (Option Str))
  | lemmaRule (name : Str) (id2rule : List LemmaRule)
  | lemmaChars (name : Str) (id2char : Dict Int Str)

/-- The elements of an array of integers; indexing or iterating over anything else is an error. -/
def featInts : Feat → Res (List Int)
  | .list l => mapM' (fun x => match x with
      | .int n => .ok n
      | _ => .error .type) l
  | _ => .error .type

def WordInterp.name : WordInterp → Str
  | .pos n _ => n
  | .lemmaDict n _ => n
  | .lemmaRule n _ => n
  | .lemmaChars n _ => n

/-- extractors.py:382-385, 425-426, 487-492, 575-582: the four `interpret` methods after looking up
the predicted label. -/
def WordInterp.apply (lower : Str → Str) (i : WordInterp) (t : TextToken) (ids : List Int) :
    Res Token :=
  match i with
  | .pos _ table => table.interpret t.2 ids
  | .lemmaDict _ id2lemma => interpretLemma id2lemma t.2 ids
  | .lemmaRule _ id2rule => interpretRule lower id2rule t ids
  | .lemmaChars _ id2char => interpretChars id2char t.2 ids

/-- extractors.py:382-385, 425-426, 487-492, 575-582 `interpret`; the result is again a token with a
text (datamodel.py:380-382), which is the same because the span and the replacement are. -/
def WordInterp.interpret (lower : Str → Str) (i : WordInterp) (t : TextToken) (value : Features) :
    Res TextToken :=
  match value.getItem i.name with
  | .error e => .error e
  | .ok v =>
    match featInts v with
    | .error e => .error e
    | .ok ids =>
      match i.apply lower t ids with
      | .error e => .error e
      | .ok t' => .ok (t.1, t')

/-- One entry of a dictionary whose value is iterated over. -/
def asSequence (p : Str × Feat) : Res (Str × List Feat) :=
  match p.2 with
  | .list l => .ok (p.1, l)
  | _ => .error .type

/-- The values of a dictionary, as sequences; `zip` over anything else is a `TypeError`. -/
def asSequences (v : Features) : Res (Dict Str (List Feat)) :=
  match mapM' asSequence v.entries with
  | .error e => .error e
  | .ok l => .ok (Dict.ofList l)

/-- builder.py:312-315 with builder.py:239-243: the interpreters of all tasks applied to the words
of one sentence. -/
def interpretWords (lower : Str → Str) (is : List WordInterp) (ts : List TextToken)
    (value : Features) : Res (List TextToken) :=
  match asSequences value with
  | .error e => .error e
  | .ok v => iterInterpret (compositeInterpret (is.map (fun i => i.interpret lower))) ts v

/-- neural_tagger.py:28-30: one sentence; `pred` is what the network returned for it. -/
def tagSentence (lower : Str → Str) (is : List WordInterp) (ts : List TextToken)
    (pred : Dict Str (List Feat)) : Res (List TextToken) :=
  match iterInterpret (interpretWords lower is) [ts] pred with
  | .error e => .error e
  | .ok l => .ok l.flatten

/-- neural_tagger.py:28-30: the body of the loop over the sentences.  `predict d s` stands for
extracting the features of sentence `s` and running the network on them. -/
def predictAndTag (lower : Str → Str) (is : List WordInterp)
    (predict : Document → Sentence → Res (Dict Str (List Feat))) (d : Document) (s : Sentence) :
    Res (List TextToken) :=
  match predict d s with
  | .error e => .error e
  | .ok pred => tagSentence lower is (slice d.textTokens s.start s.stop) pred

/-- neural_tagger.py:27-30: the loop over the sentences. -/
def tagSentences (lower : Str → Str) (is : List WordInterp)
    (predict : Document → Sentence → Res (Dict Str (List Feat))) (d : Document) :
    Res (List (List TextToken)) :=
  mapM' (predictAndTag lower is predict d) d.sentences

/-- neural_tagger.py:24-32 `NeuralTagger.tag` for one document. -/
def neuralTag (lower : Str → Str) (is : List WordInterp)
    (predict : Document → Sentence → Res (Dict Str (List Feat))) (d : Document) : Res Document :=
  match tagSentences lower is predict d with
  | .error e => .error e
  | .ok tss => d.fromDocument (tss.flatten.map Prod.snd)

/-- neural_tagger.py:24-32 `NeuralTagger.tag`. -/
def neuralTagAll (lower : Str → Str) (is : List WordInterp)
    (predict : Document → Sentence → Res (Dict Str (List Feat))) (docs : List Document) :
    Res (List Document) :=
  mapM' (neuralTag lower is predict) docs

end Verif
