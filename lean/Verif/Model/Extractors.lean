import Verif.Model.Datamodel
import Verif.Model.Lemmas
import Verif.Model.Features
import Mathlib.Data.List.Dedup

/-!
# Model of babylondigger/features/extractors.py

`lower` is `str.lower`, an arbitrary function.  Segmenters are arbitrary functions from words to
lists of strings (the `char` segmenter is `charSegment`); the BPE and Morfessor models behind the
other two are not modelled.  Python dictionaries with keys that are compared by `__eq__` (part of
speech tags) are association lists with an explicit equality.
-/

namespace Verif

/-! ### Tokens of a dataset -/

/-- A token together with its text (what a `NavigableToken` offers to the extractors). -/
abbrev TextToken := Str × Token

/-- datamodel.py:325-334: iterating over a document. -/
def Document.textTokens (d : Document) : List TextToken :=
  d.tokens.map (fun t => (tokText d.text t, t))

/-- extractors.py:591-592 `_tokens` without the mapper. -/
def datasetTokens (dataset : List Document) : List TextToken :=
  dataset.flatMap Document.textTokens

/-! ### Tables with an explicit equality -/

section Tables
variable {α β : Type}

/-- `d.get(k)` for keys compared with `eq`. -/
def eqGet (eq : α → α → Bool) (k : α) : List (α × β) → Option β
  | [] => none
  | p :: l => if eq p.1 k then some p.2 else eqGet eq k l

/-- `d[k] = v` for keys compared with `eq`; an existing key object stays. -/
def eqSet (eq : α → α → Bool) (k : α) (v : β) : List (α × β) → List (α × β)
  | [] => [(k, v)]
  | p :: l => if eq p.1 k then (p.1, v) :: l else p :: eqSet eq k v l

/-- `counts[x] += n` on a `Counter` or `defaultdict(int)`. -/
def countAdd (eq : α → α → Bool) (counts : List (α × Nat)) (x : α) (n : Nat) : List (α × Nat) :=
  eqSet eq x ((eqGet eq x counts).getD 0 + n) counts

/-- `Counter(xs)`. -/
def counter (eq : α → α → Bool) (xs : List α) : List (α × Nat) :=
  xs.foldl (fun c x => countAdd eq c x 1) []

/-- `counts.most_common(1)`: the first entry with the largest count. -/
def firstMax : List (α × Nat) → Option (α × Nat)
  | [] => none
  | p :: l => some (l.foldl (fun best q => if best.2 < q.2 then q else best) p)

/-- `counts.most_common()`: by decreasing count, stable. -/
def mostCommon (counts : List (α × Nat)) : List (α × Nat) :=
  pySorted (fun a b => b.2 ≤ a.2) counts

/-- Insertion into a sorted list with a comparison that may raise. -/
def insertM (lt : α → α → Res Bool) (x : α) : List α → Res (List α)
  | [] => .ok [x]
  | y :: l =>
    match lt y x with
    | .error e => .error e
    | .ok false => .ok (x :: y :: l)
    | .ok true =>
      match insertM lt x l with
      | .error e => .error e
      | .ok l' => .ok (y :: l')

/-- `sorted(l)` with a comparison that may raise.  Which pairs Python compares is an implementation
detail of its sort; the model inserts one by one.  If no comparison raises the result does not
depend on it. -/
def sortM (lt : α → α → Res Bool) : List α → Res (List α)
  | [] => .ok []
  | x :: l =>
    match sortM lt l with
    | .error e => .error e
    | .ok l' => insertM lt x l'

/-- extractors.py:614-615: the threshold filter. -/
def aboveThreshold (threshold : Int) (counts : List (α × Nat)) : List (α × Nat) :=
  if threshold > 0 then counts.filter (fun p => decide ((p.2 : Int) > threshold)) else counts

/-- extractors.py:609-620 `_id2obj`; `lt` compares the sort keys. -/
def id2obj (eq : α → α → Bool) (lt : α → α → Res Bool) (counts : List (α × Nat))
    (threshold : Int) : Res (List α) :=
  match firstMax counts with
  | none => .error .index
  | some best =>
    match sortM lt (((aboveThreshold threshold counts).map Prod.fst).filter
        (fun o => !eq o best.1)) with
    | .error e => .error e
    | .ok l => .ok (best.1 :: l)

/-- extractors.py:623-624 `_obj2id`. -/
def obj2id (eq : α → α → Bool) (l : List α) : List (α × Nat) :=
  l.zipIdx.foldl (fun d p => eqSet eq p.1 p.2 d) []

end Tables

/-! ### Word and subword vocabularies -/

/-- Equality of strings. -/
def strEq (a b : Str) : Bool := decide (a = b)

/-- extractors.py:127-128, 185-186, 544-545: count, keep the frequent ones, sort, enumerate. -/
def vocabulary (threshold : Int) (base : Int) (xs : List Str) : Dict Str Int :=
  Dict.ofList ((pySorted (· ≤ ·) (((mostCommon (counter strEq xs)).filter
    (fun p => decide ((p.2 : Int) ≥ threshold))).map Prod.fst)).zipIdx.map
      (fun p => (p.1, base + (p.2 : Int))))

/-- extractors.py:124-132 `TrainableEmbeddingsExtractorBuilder.build`: the vocabulary.
`chain.from_iterable` over the words yields their characters. -/
def trainableVocabulary (threshold : Int) (dataset : List Document) : Dict Str Int :=
  vocabulary threshold 2 ((datasetTokens dataset).flatMap (fun t => t.1.map (fun c => [c])))

/-- extractors.py:97-99 `WordEmbeddingFeatureExtractor.get_features`. -/
def wordId (lower : Str → Str) (word2id : Dict Str Int) (lowercase : Bool) (text : Str) : Int :=
  (word2id.get? (if lowercase then lower text else text)).getD OOV

/-- extractors.py:216-217 `TokenCharSegmenter.segment`. -/
def charSegment (token : Str) : List Str := token.map (fun c => [c])

/-- extractors.py:225-232 `TokenBPESegmenter.segment`; `encode` is the BPE encoder. -/
def bpeSegment (encode : Str → List Str) (token : Str) : Res (List Str) :=
  match encode token with
  | [] => .error .index
  | s :: rest =>
    if s.head? = some '▁' then
      if s.length > 1 then .ok (s.drop 1 :: rest) else .ok rest
    else .ok (s :: rest)

/-- extractors.py:178-188 `TokenCharactersFeatureExtractorBuilder.build`: the vocabulary. -/
def subwordVocabulary (segment : Str → List Str) (threshold : Int) (dataset : List Document) :
    Dict Str Int :=
  vocabulary threshold 4 ((datasetTokens dataset).flatMap (fun t => segment t.1))

/-- extractors.py:198-202 `SubwordFeatureExtractor.get_features`. -/
def subwordIds (segment : Str → List Str) (subword2id : Dict Str Int) (text : Str) : List Int :=
  [START] ++ (segment text).map (fun s => (subword2id.get? s).getD OOV) ++ [END]

/-! ### Pretrained embeddings -/

/-- `s.split()`, `cur` being the (reversed) current piece. -/
def splitWsAux : Str → Str → List Str
  | cur, [] => if cur.isEmpty then [] else [cur.reverse]
  | cur, c :: s =>
    if isSpace c then (if cur.isEmpty then splitWsAux [] s else cur.reverse :: splitWsAux [] s)
    else splitWsAux (c :: cur) s

/-- `s.split()`. -/
def splitWs (s : Str) : List Str := splitWsAux [] s

/-- State of the loop of `_read_embeddings`. -/
structure EmbState (F : Type) where
  lineNr : Nat
  size : Option Int
  vecs : Dict Str (List F)

/-- extractors.py:73-86: one line.  `float` is Python's conversion. -/
def readEmbeddingLine {F : Type} (float : Str → Res F) (st : EmbState F) (line : Str) :
    Res (EmbState F) :=
  if st.lineNr = 0 ∧ (splitWs line).length = 2 then
    match pyGet (splitWs line) 1 with
    | .error e => .error e
    | .ok v =>
      match pyInt v with
      | .error e => .error e
      | .ok n => .ok { st with lineNr := st.lineNr + 1, size := some n }
  else
    match splitWs line with
    | [] => .error .index
    | key :: values =>
      match mapM' float values with
      | .error e => .error e
      | .ok vec =>
        match st.size with
        | some n =>
          if (vec.length : Int) ≠ n then .error .value
          else .ok { lineNr := st.lineNr + 1, size := some n, vecs := st.vecs.set key vec }
        | none =>
          .ok { lineNr := st.lineNr + 1, size := some vec.length, vecs := st.vecs.set key vec }

/-- extractors.py:68-88 `_read_embeddings`. -/
def readEmbeddings {F : Type} (float : Str → Res F) (lines : List Str) : Res (EmbState F) :=
  forM' (readEmbeddingLine float) { lineNr := 0, size := none, vecs := Dict.empty } lines

/-- extractors.py:61 and 153: ids of the words of the file. -/
def embeddingIds {F : Type} (base : Int) (vecs : Dict Str (List F)) : Dict Str Int :=
  Dict.ofList (vecs.keys.zipIdx.map (fun p => (p.1, base + (p.2 : Int))))

/-- extractors.py:111-115 `EmbeddingInitializer.initial_values`; `zero` is 0.  `[0] * None` is a
`TypeError`, `[0] * n` is empty for negative `n`. -/
def initialValues {F : Type} (zero : F) (ids : Dict Str Int) (st : EmbState F) :
    Res (List (Option Int × List F)) :=
  match st.size with
  | none => .error .type
  | some n => .ok ((some PADDING, List.replicate n.toNat zero) ::
      st.vecs.entries.map (fun p => (ids.get? p.1, p.2)))

/-! ### TagPart of speech labels -/

/-- A part of a label: a tag, an optional string, sorted features, or both of the latter. -/
inductive TagPart where
  | pos (p : Option Pos)
  | str (s : Option Str)
  | feats (l : List (Str × Str))
  | xf (x : Option Str) (l : List (Str × Str))

/-- `==` between parts. -/
def TagPart.eq : TagPart → TagPart → Bool
  | .pos p, .pos q => Token.optPosEq p q
  | .str a, .str b => decide (a = b)
  | .feats a, .feats b => decide (a = b)
  | .xf x a, .xf y b => decide (x = y) && decide (a = b)
  | _, _ => false

/-- extractors.py:618: `<` between the sort keys `(x is not None, x)`. -/
def TagPart.lt : TagPart → TagPart → Res Bool
  | .pos none, .pos q => .ok q.isSome
  | .pos (some _), .pos none => .ok false
  | .pos (some p), .pos (some q) => if p.pyEq q then .ok false else p.lt q
  | .str none, .str b => .ok b.isSome
  | .str (some _), .str none => .ok false
  | .str (some a), .str (some b) => .ok (decide (a < b))
  | .feats a, .feats b => .ok (itemsLt a b)
  | .xf x a, .xf y b => if x ≠ y then optStrLt x y else .ok (itemsLt a b)
  | _, _ => .error .type

/-- extractors.py:329-334 `_splitters`: the names. -/
inductive Splitting where
  | joint | xf | uxf | gran
  deriving DecidableEq

/-- The splitter objects. -/
inductive Splitter where
  | joint | xf | uxf | gran (keys : List Str)

/-- extractors.py:324-326 `_dict2repr`. -/
def dict2repr (d : Dict Str Str) : List (Str × Str) := pySorted itemLe d.entries

/-- `label.feats`, an `AttributeError` for `None`. -/
def labelFeatKeys : Option Pos → Res (List Str)
  | none => .error .attribute
  | some p => .ok p.feats.keys

/-- extractors.py:353: creating the splitter; 308-310 `PosGranularSplitter.__init__`. -/
def makeSplitter (s : Splitting) (labels : List (Option Pos)) : Res Splitter :=
  match s with
  | .joint => .ok .joint
  | .xf => .ok .xf
  | .uxf => .ok .uxf
  | .gran =>
    match mapM' labelFeatKeys labels with
    | .error e => .error e
    | .ok ks => .ok (.gran (pySorted (· ≤ ·) ks.flatten.dedup))

def sPOS : Str := ['P', 'O', 'S']
def sUPOS : Str := ['U', 'P', 'O', 'S']
def sXPOS : Str := ['X', 'P', 'O', 'S']
def sFEATS : Str := ['F', 'E', 'A', 'T', 'S']
def sXPOSFEATS : Str := ['X', 'P', 'O', 'S', '+', 'F', 'E', 'A', 'T', 'S']

/-- extractors.py:272-273, 284-285, 296-297, 312-317: `split`. -/
def Splitter.split : Splitter → Option Pos → Res (Dict Str TagPart)
  | .joint, p => .ok (Dict.ofList [(sPOS, .pos p)])
  | _, none => .error .attribute
  | .uxf, some p => .ok (Dict.ofList
      [(sUPOS, .str p.upos), (sXPOS, .str p.xpos), (sFEATS, .feats (dict2repr p.feats))])
  | .xf, some p => .ok (Dict.ofList
      [(sUPOS, .str p.upos), (sXPOSFEATS, .xf p.xpos (dict2repr p.feats))])
  | .gran keys, some p => .ok ((Dict.ofList [(sUPOS, TagPart.str p.upos), (sXPOS, .str p.xpos)]).update
      (Dict.ofList (keys.map (fun k => (k, TagPart.str (p.feats.get? k))))))

/-- extractors.py:320: the features of the parts from position 2 on.  A part that is not an optional
string cannot be put into a `Pos`; it never occurs and is a `TypeError` here. -/
def granFeats : List Str → List TagPart → Res (List (Str × Str))
  | _, [] => .ok []
  | keys, .str none :: ps => granFeats keys.tail ps
  | k :: keys, .str (some v) :: ps =>
    match granFeats keys ps with
    | .error e => .error e
    | .ok l => .ok ((k, v) :: l)
  | [], .str (some _) :: _ => .error .index
  | _, _ => .error .type

/-- extractors.py:275-276, 287-288, 299-300, 319-321: `combine`.  Parts of a wrong kind never occur
and are a `TypeError` here. -/
def Splitter.combine : Splitter → List TagPart → Res (Option Pos)
  | .joint, .pos p :: _ => .ok p
  | .uxf, .str u :: .str x :: .feats l :: _ => .ok (some ⟨u, x, Dict.ofList l⟩)
  | .xf, .str u :: .xf x l :: _ => .ok (some ⟨u, x, Dict.ofList l⟩)
  | .gran keys, .str u :: .str x :: ps =>
    match granFeats keys ps with
    | .error e => .error e
    | .ok l => .ok (some ⟨u, x, Dict.ofList l⟩)
  | _, [] => .error .index
  | .uxf, [_] => .error .index
  | .uxf, [_, _] => .error .index
  | .xf, [_] => .error .index
  | .gran _, [_] => .error .index
  | _, _ => .error .type

/-- Counts of the values of every part. -/
abbrev PartCounts := Dict Str (List (TagPart × Nat))

/-- extractors.py:604-605: one part of one label. -/
def countPart (n : Nat) (result : PartCounts) (p : Str × TagPart) : Res PartCounts :=
  match result.getItem p.1 with
  | .error e => .error e
  | .ok c => .ok (result.set p.1 (countAdd TagPart.eq c p.2 n))

/-- extractors.py:602-605: one label. -/
def countLabel (sp : Splitter) (result : PartCounts) (item : Option Pos × Nat) : Res PartCounts :=
  match sp.split item.1 with
  | .error e => .error e
  | .ok parts => forM' (countPart item.2) result parts.entries

/-- extractors.py:599-606 `_count_parts`. -/
def countParts (counts : List (Option Pos × Nat)) (sp : Splitter) : Res PartCounts :=
  match counts with
  | [] => .error .stopIteration
  | first :: _ =>
    match sp.split first.1 with
    | .error e => .error e
    | .ok parts =>
      forM' (countLabel sp) (Dict.ofList (parts.keys.map (fun k => (k, [])))) counts

/-- What `PosDictFeatureExtractorBuilder.build` creates. -/
structure PosTable where
  splitter : Splitter
  id2parts : List (List TagPart)
  parts2id : List (List (TagPart × Nat))

/-- extractors.py:351-361 `PosDictFeatureExtractorBuilder.build`, given the tags of the training
tokens. -/
def buildPosTable (s : Splitting) (labels : List (Option Pos)) : Res PosTable :=
  match makeSplitter s ((counter Token.optPosEq labels).map Prod.fst) with
  | .error e => .error e
  | .ok sp =>
    match countParts (counter Token.optPosEq labels) sp with
    | .error e => .error e
    | .ok counts =>
      match mapM' (fun p => id2obj TagPart.eq TagPart.lt p.2 0) counts.entries with
      | .error e => .error e
      | .ok id2parts => .ok ⟨sp, id2parts, id2parts.map (obj2id TagPart.eq)⟩

/-- extractors.py:372: one part. -/
def encodePart (parts2id : List (List (TagPart × Nat))) (p : TagPart × Nat) : Res Int :=
  match parts2id[p.2]? with
  | none => .error .index
  | some d => .ok (((eqGet TagPart.eq p.1 d).getD 0 : Nat) : Int)

/-- extractors.py:370-373 `PosDictFeatureExtractor.get_features`. -/
def PosTable.encode (t : PosTable) (pos : Option Pos) : Res (List Int) :=
  match t.splitter.split pos with
  | .error e => .error e
  | .ok parts => mapM' (encodePart t.parts2id) (parts.entries.map Prod.snd).zipIdx

/-- extractors.py:384: one part. -/
def decodePart (id2parts : List (List TagPart)) (p : Int × Nat) : Res TagPart :=
  match id2parts[p.2]? with
  | none => .error .index
  | some l => pyGet l p.1

/-- extractors.py:383-385: the tag of the labels. -/
def PosTable.decode (t : PosTable) (ids : List Int) : Res (Option Pos) :=
  match mapM' (decodePart t.id2parts) ids.zipIdx with
  | .error e => .error e
  | .ok parts => t.splitter.combine parts

/-- extractors.py:382-385 `PosDictInterpreter.interpret`. -/
def PosTable.interpret (t : PosTable) (tok : Token) (ids : List Int) : Res Token :=
  match t.decode ids with
  | .error e => .error e
  | .ok pos => tok.withMorphology pos tok.lemma'

/-- extractors.py:352: the labels of a dataset. -/
def posLabels (dataset : List Document) : List (Option Pos) :=
  (datasetTokens dataset).map (fun t => t.2.pos)

/-! ### Lemma dictionary -/

/-- `==` on optional strings. -/
def optStrEq (a b : Option Str) : Bool := decide (a = b)

/-- extractors.py:618: `<` between the sort keys of optional strings. -/
def optStrKeyLt : Option Str → Option Str → Res Bool
  | none, b => .ok b.isSome
  | some _, none => .ok false
  | some a, some b => .ok (decide (a < b))

/-- extractors.py:402-408 `LemmaDictFeatureExtractorBuilder.build`: the table. -/
def buildLemmaTable (lemmas : List (Option Str)) : Res (List (Option Str)) :=
  id2obj optStrEq optStrKeyLt (counter optStrEq lemmas) 0

/-- extractors.py:416-417 `LemmaDictFeatureExtractor.get_features`. -/
def encodeLemma (id2lemma : List (Option Str)) (l : Option Str) : List Int :=
  [((eqGet optStrEq l (obj2id optStrEq id2lemma)).map (fun n => (n : Int))).getD OOV]

/-- extractors.py:425-426 `LemmaDictInterpreter.interpret`. -/
def interpretLemma (id2lemma : List (Option Str)) (tok : Token) (ids : List Int) : Res Token :=
  match pyGet ids 0 with
  | .error e => .error e
  | .ok i =>
    match pyGet id2lemma i with
    | .error e => .error e
    | .ok l => tok.withMorphology tok.pos l

/-! ### Lemma suffix rules -/

/-- extractors.py:627-628 `_suffix_transformation`; `None` has no `lower`. -/
def suffixRule (lower : Str → Str) (t : TextToken) : Res LemmaRule :=
  match t.2.lemma' with
  | none => .error .attribute
  | some l => .ok (LemmaRule.getRule (lower t.1) (lower l))

/-- extractors.py:441-447 `CachedSuffixRulesBuilder.build_rules` (without the cache): the table of
rules. -/
def buildRules (lower : Str → Str) (threshold : Int) (dataset : List Document) :
    Res (List LemmaRule) :=
  match mapM' (suffixRule lower) (datasetTokens dataset) with
  | .error e => .error e
  | .ok rules => id2obj LemmaRule.pyEq (fun a b => .ok (a.lt b)) (counter LemmaRule.pyEq rules)
      threshold

/-- extractors.py:477-479 `SuffixTransformationFeatureExtractor.get_features`. -/
def encodeRule (lower : Str → Str) (id2rule : List LemmaRule) (t : TextToken) : Res (List Int) :=
  match suffixRule lower t with
  | .error e => .error e
  | .ok r => .ok [(((eqGet LemmaRule.pyEq r (obj2id LemmaRule.pyEq id2rule)).getD 0 : Nat) : Int)]

/-- extractors.py:487-492 `SuffixTransformationInterpreter.interpret`. -/
def interpretRule (lower : Str → Str) (id2rule : List LemmaRule) (t : TextToken) (ids : List Int) :
    Res Token :=
  match pyGet ids 0 with
  | .error e => .error e
  | .ok i =>
    match pyGet id2rule i with
    | .error e => .error e
    | .ok r =>
      if r.isApplicable (lower t.1) then
        match r.transform (lower t.1) with
        | .error e => .error e
        | .ok l => t.2.withMorphology t.2.pos (some l)
      else t.2.withMorphology t.2.pos (some (lower t.1))

/-- extractors.py:524-525: `result[index] = True`. -/
def setTrue (v : List Bool) (e : Entry) : Res (List Bool) :=
  if e.2 < v.length then .ok (v.set e.2 true) else .error .index

/-- extractors.py:507-512, 521-526 `ApplicableSuffixTransformations`: the vector of applicable
rules. -/
def applicableRules (lower : Str → Str) (id2rule : List LemmaRule) (text : Str) :
    Res (List Bool) :=
  forM' setTrue (List.replicate id2rule.length false)
    ((Trie.build (obj2id LemmaRule.pyEq id2rule)).getApplicableRules (lower text))

/-! ### Lemmas by characters -/

/-- extractors.py:542: the segments of the lemma of a token; `None` cannot be segmented. -/
def lemmaSegments (segment : Str → List Str) (t : TextToken) : Res (List Str) :=
  match t.2.lemma' with
  | none => .error .type
  | some l => .ok (segment l)

/-- extractors.py:537-549 `LemmaCharFeatureExtractorBuilder.build`: the vocabulary. -/
def lemmaVocabulary (segment : Str → List Str) (threshold : Int) (dataset : List Document) :
    Res (Dict Str Int) :=
  match mapM' (lemmaSegments segment) (datasetTokens dataset) with
  | .error e => .error e
  | .ok ss => .ok (vocabulary threshold 4 ss.flatten)

/-- extractors.py:546 `id2char`. -/
def invert (char2id : Dict Str Int) : Dict Int Str :=
  Dict.ofList (char2id.entries.map (fun p => (p.2, p.1)))

/-- extractors.py:563-566: cut or pad. -/
def fitLength (n : Nat) (ids : List Int) : List Int :=
  if ids.length > n then ids.take n else ids ++ List.replicate (n - ids.length) PADDING

/-- extractors.py:559-567 `LemmaCharExtractor.get_features`, for a non-negative maximal length. -/
def encodeChars (segment : Str → List Str) (char2id : Dict Str Int) (maxLen : Nat)
    (l : Option Str) : Res (List Int) :=
  match l with
  | none => .error .type
  | some l => .ok (fitLength maxLen (subwordIds segment char2id l))

/-- extractors.py:576-581: the loop. -/
def decodeChars (id2char : Dict Int Str) : List Int → Res Str
  | [] => .ok []
  | i :: ids =>
    if i = END then .ok []
    else if i = START ∨ i = OOV ∨ i = PADDING then decodeChars id2char ids
    else match id2char.getItem i with
      | .error e => .error e
      | .ok c =>
        match decodeChars id2char ids with
        | .error e => .error e
        | .ok s => .ok (c ++ s)

/-- extractors.py:575-582 `LemmaCharInterpreter.interpret`. -/
def interpretChars (id2char : Dict Int Str) (tok : Token) (ids : List Int) : Res Token :=
  match decodeChars id2char ids with
  | .error e => .error e
  | .ok l => tok.withMorphology tok.pos (some l)

end Verif
