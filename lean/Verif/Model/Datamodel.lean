import Verif.Py

/-!
# Model of /repo/babylondigger/datamodel.py

Objects are immutable in the source (private attributes without setters), so they are plain
values here.  The subclasses `DocumentToken` and `NavigableToken` only add the document text, the
container and an index; a navigable view is represented by its container and index, its token part
by `Token`.  Error messages are dropped.
-/

namespace Verif

/-! ### Pos -/

/-- datamodel.py:9-13 `Pos.__init__`.  `upos` may be `None` too (conllu_io.py:181 passes `None`).
The dictionary is copied by the constructor, so a value models it. -/
structure Pos where
  upos : Option Str
  xpos : Option Str
  feats : Dict Str Str
  deriving DecidableEq

/-- datamodel.py:34-39 `Pos.__eq__`. -/
def Pos.pyEq (p q : Pos) : Bool :=
  decide (p.upos = q.upos) && decide (p.xpos = q.xpos) && p.feats.pyEq q.feats

/-- Key order used by `sorted(self.__feats.items())`: tuples compare lexicographically. -/
def itemLe (a b : Str × Str) : Prop := a.1 < b.1 ∨ (a.1 = b.1 ∧ a.2 ≤ b.2)

instance : DecidableRel itemLe := fun a b => by unfold itemLe; infer_instance

/-- datamodel.py:49-50 `Pos.__tuple_view`. -/
def Pos.tupleView (p : Pos) : Option Str × Option Str × List (Str × Str) :=
  (p.upos, p.xpos, pySorted itemLe p.feats.entries)

/-- `<` between two possibly-`None` strings: `TypeError` unless both are strings. -/
def optStrLt : Option Str → Option Str → Res Bool
  | some a, some b => .ok (decide (a < b))
  | _, _ => .error .type

/-- `<` between tuples of `(str, str)` pairs. -/
def itemsLt : List (Str × Str) → List (Str × Str) → Bool
  | _, [] => false
  | [], _ :: _ => true
  | a :: as, b :: bs =>
    if a = b then itemsLt as bs
    else if a.1 = b.1 then decide (a.2 < b.2) else decide (a.1 < b.1)

/-- datamodel.py:41-44 `Pos.__lt__`: tuple comparison, i.e. the first differing component (by `==`)
decides. -/
def Pos.lt (p q : Pos) : Res Bool :=
  if p.upos ≠ q.upos then optStrLt p.upos q.upos
  else if p.xpos ≠ q.xpos then optStrLt p.xpos q.xpos
  else .ok (itemsLt p.tupleView.2.2 q.tupleView.2.2)

/-- datamodel.py:8 `@total_ordering`: `a <= b` is `a < b or a == b`. -/
def Pos.le (p q : Pos) : Res Bool :=
  match p.lt q with
  | .error e => .error e
  | .ok b => .ok (b || p.pyEq q)

/-- datamodel.py:8 `@total_ordering`: `a > b` is `not (a < b) and a != b`. -/
def Pos.gt (p q : Pos) : Res Bool :=
  match p.lt q with
  | .error e => .error e
  | .ok b => .ok (!b && !p.pyEq q)

/-- datamodel.py:8 `@total_ordering`: `a >= b` is `not a < b`. -/
def Pos.ge (p q : Pos) : Res Bool :=
  match p.lt q with
  | .error e => .error e
  | .ok b => .ok (!b)

/-- datamodel.py:46-47 `Pos.__hash__`; `h` is Python's `hash` on tuples. -/
def Pos.hash (h : Option Str × Option Str × List (Str × Str) → Int) (p : Pos) : Int :=
  h p.tupleView

/-! ### TokenExtras -/

/-- Values stored in extras: arbitrary Python objects that are only copied and compared; they are
represented by atoms, on which `deepcopy` is the identity. -/
abbrev ExtraVal := Nat

/-- datamodel.py:53-55 `TokenExtras` (the dictionary is deep-copied on the way in and out). -/
abbrev TokenExtras := Dict Str ExtraVal

/-- datamodel.py:57-58 `TokenExtras.__getitem__`. -/
def TokenExtras.getItem (e : TokenExtras) (k : Str) : Res ExtraVal := Dict.getItem e k

/-- datamodel.py:77-82 `TokenExtras.update`. -/
def TokenExtras.update (e : TokenExtras) (updates : Dict Str ExtraVal) : TokenExtras :=
  if updates.entries.isEmpty then e else Dict.update e updates

/-! ### Token -/

/-- datamodel.py:85-109 `Token`.  The `Prop` fields record what the constructor asserts, see
`Token.new`.  Spans are natural numbers because the constructor asserts `start >= 0`. -/
structure Token where
  start : Nat
  stop : Nat
  pos : Option Pos := none
  lemma' : Option Str := none
  deprel : Option Str := none
  sub : Int := 0
  repl : Option Str := none
  headDoc : Option Int := none
  headSent : Option Int := none
  extras : TokenExtras := ⟨[], by simp⟩
  lt : start < stop := by decide
  mwOk : repl = none → sub = 0 := by simp
  deriving DecidableEq

/-- datamodel.py:87-109 `Token.__init__`: the assertions. -/
def Token.new (start stop : Int) (pos : Option Pos) (lemma' deprel : Option Str) (sub : Int)
    (repl : Option Str) (headDoc headSent : Option Int) (extras : Option TokenExtras) :
    Res Token :=
  if h0 : 0 ≤ start then
    if h1 : start < stop then
      if h2 : repl = none → sub = 0 then
        .ok { start := start.toNat, stop := stop.toNat, pos, lemma', deprel, sub, repl,
              headDoc, headSent, extras := extras.getD Dict.empty,
              lt := by omega, mwOk := h2 }
      else .error .assertion
    else .error .assertion
  else .error .assertion

namespace Token

/-- datamodel.py:131-133 `has_head`. -/
def hasHead (t : Token) : Bool := t.headDoc.isSome || t.headSent.isSome

/-- datamodel.py:143-145 `is_root`. -/
def isRoot (t : Token) : Bool := t.headDoc == some (-1) || t.headSent == some (-1)

/-- datamodel.py:151-153 `is_multiword`. -/
def isMultiword (t : Token) : Bool := t.repl.isSome

/-- datamodel.py:163-166 `coincides`. -/
def coincides (a b : Token) : Bool := a.start == b.start && a.stop == b.stop

/-- datamodel.py:168-175 `intersects`. -/
def intersects (a b : Token) : Bool :=
  if a.start ≥ b.stop ∨ b.start ≥ a.stop then false
  else if a.start = b.start ∧ a.stop = b.stop then decide (a.sub = b.sub)
  else true

/-- Python `==` on `Optional[Pos]`. -/
def optPosEq : Option Pos → Option Pos → Bool
  | none, none => true
  | some p, some q => p.pyEq q
  | _, _ => false

/-- datamodel.py:177-185 `Token.__eq__`.  Line 182 compares `self._head_sentence_index` with
itself, which is reproduced here. -/
def pyEq (a b : Token) : Bool :=
  a.start == b.start && a.stop == b.stop && optPosEq a.pos b.pos && a.lemma' == b.lemma' &&
  a.headDoc == b.headDoc && a.headSent == a.headSent && a.deprel == b.deprel &&
  a.sub == b.sub && a.repl == b.repl && Dict.pyEq a.extras b.extras

/-- datamodel.py:197-203 `with_morphology`. -/
def withMorphology (t : Token) (pos : Option Pos) (lemma' : Option Str) : Res Token :=
  Token.new t.start t.stop pos lemma' t.deprel t.sub t.repl t.headDoc t.headSent (some t.extras)

/-- datamodel.py:205-211 `with_syntax`. -/
def withSyntax (t : Token) (deprel : Option Str) (headDoc headSent : Option Int) : Res Token :=
  Token.new t.start t.stop t.pos t.lemma' deprel t.sub t.repl headDoc headSent (some t.extras)

/-- datamodel.py:213-220 `with_extras`. -/
def withExtras (t : Token) (extras : Option TokenExtras) : Res Token :=
  Token.new t.start t.stop t.pos t.lemma' t.deprel t.sub t.repl t.headDoc t.headSent extras

/-- datamodel.py:222-226 `update_extras`. -/
def updateExtras (t : Token) (updates : Option (Dict Str ExtraVal)) : Res Token :=
  match updates with
  | none => .ok t
  | some u => t.withExtras (some (TokenExtras.update t.extras u))

/-- datamodel.py:228-243 `fill_heads`. -/
def fillHeads (t : Token) (sentStart : Nat) : Res Token :=
  match t.headSent, t.headDoc with
  | none, none => .ok t
  | hs, hd =>
    if hs = some (-1) ∨ hd = some (-1) then t.withSyntax t.deprel (some (-1)) (some (-1))
    else match hs, hd with
      | some s, none => t.withSyntax t.deprel (some (s + sentStart)) (some s)
      | none, some d => t.withSyntax t.deprel (some d) (some (d - sentStart))
      | some s, some d =>
        if d ≠ s + sentStart then .error .value else t.withSyntax t.deprel (some d) (some s)
      | none, none => .ok t

end Token

/-! ### Sentence -/

/-- datamodel.py:246-254 `Sentence`; `Prop` field as asserted by the constructor. -/
structure Sentence where
  start : Nat
  stop : Nat
  lt : start < stop := by decide
  deriving DecidableEq

/-- datamodel.py:248-254 `Sentence.__init__`. -/
def Sentence.new (start stop : Int) : Res Sentence :=
  if h0 : 0 ≤ start then
    if h1 : start < stop then .ok { start := start.toNat, stop := stop.toNat, lt := by omega }
    else .error .assertion
  else .error .assertion

/-- datamodel.py:264-266 `Sentence.len`. -/
def Sentence.len (s : Sentence) : Nat := s.stop - s.start

/-! ### Word lists -/

/-- Key `('start', 'end', 'sub_index')` compared with `<=`, datamodel.py:308. -/
def tokLe (a b : Token) : Prop :=
  a.start < b.start ∨ (a.start = b.start ∧ (a.stop < b.stop ∨ (a.stop = b.stop ∧ a.sub ≤ b.sub)))

instance : DecidableRel tokLe := fun a b => by unfold tokLe; infer_instance

/-- Key `('start', 'end')` compared with `<=`, datamodel.py:434. -/
def sentLe (a b : Sentence) : Prop := a.start < b.start ∨ (a.start = b.start ∧ a.stop ≤ b.stop)

instance : DecidableRel sentLe := fun a b => by unfold sentLe; infer_instance

/-- datamodel.py:572-576 `_check_for_sequence`; only the Boolean result is kept (the index is used
in messages only). -/
def checkForSequence {α : Type} (fail : α → α → Bool) : List α → Bool
  | [] => true
  | [_] => true
  | a :: b :: l => if fail a b then false else checkForSequence fail (b :: l)

/-- datamodel.py:579-584 `_skipped_token`. -/
def skippedToken (a b : Token) : Bool :=
  if b.isMultiword then
    if a.isMultiword && b.coincides a then decide (b.sub ≠ a.sub + 1)
    else decide (b.sub ≠ 0)
  else false

/-- datamodel.py:343-349 `_WordList.__fill_token_heads`. -/
def fillTokenHeads (toks : List Token) : List Sentence → Res (List Token)
  | [] => .ok []
  | s :: ss =>
    match mapM' (fun t => t.fillHeads s.start) (slice toks s.start s.stop) with
    | .error e => .error e
    | .ok filled =>
      match fillTokenHeads toks ss with
      | .error e => .error e
      | .ok rest => .ok (filled ++ rest)

/-- datamodel.py:306-323 `_WordList.__init__`: returns the token list it stores.
`sorted_sentences` empty or `None` both mean that heads are not filled. -/
def wordList (tokens : List Token) (sents : List Sentence) : Res (List Token) :=
  let toks := pySorted tokLe tokens
  if !checkForSequence Token.intersects toks then .error .value
  else if !checkForSequence skippedToken toks then .error .value
  else if sents.isEmpty then .ok toks
  else fillTokenHeads toks sents

/-! ### Document -/

/-- datamodel.py:428 `Document`: the state its constructor stores. -/
structure Document where
  text : Str
  tokens : List Token
  sentences : List Sentence
  deriving DecidableEq

/-- datamodel.py:494-504: the inner `while` loop of `validate_syntax`; `fuel` bounds the number of
iterations (every iteration marks a new position, so `len + 1` suffices). -/
def validateWalk (toks : List Token) (len i : Nat) :
    Nat → List (Option Nat) → Token → Res (List (Option Nat))
  | 0, _, _ => .error .fuel
  | fuel + 1, visited, token =>
    if token.hasHead && !token.isRoot then
      match token.headSent with
      | none => .error .type
      | some head =>
        if head < 0 ∨ head ≥ len then .error .value
        else match visited[head.toNat]? with
          | none => .error .index
          | some none =>
            match token.headDoc with
            | none => .error .type
            | some hd =>
              match pyGet toks hd with
              | .error e => .error e
              | .ok t => validateWalk toks len i fuel (visited.set head.toNat (some i)) t
          | some (some j) => if j = i then .error .value else .ok visited
    else .ok visited

/-- datamodel.py:480-504: one iteration of the `for` loop of `validate_syntax`; the state is
(a root was seen, visited). -/
def validateStep (toks : List Token) (s : Sentence) (st : Bool × List (Option Nat)) (i : Nat) :
    Res (Bool × List (Option Nat)) :=
  match pyGet toks ((s.start + i : Nat) : Int) with
  | .error e => .error e
  | .ok token =>
    if !token.hasHead then .error .value
    else if token.isRoot then
      if st.1 then .error .value
      else match st.2[i]? with
        | none => .error .index
        | some none => .ok (true, st.2.set i (some i))
        | some (some _) => .ok (true, st.2)
    else match st.2[i]? with
      | none => .error .index
      | some (some _) => .ok st
      | some none =>
        match validateWalk toks s.len i (s.len + 1) (st.2.set i (some i)) token with
        | .error e => .error e
        | .ok v => .ok (st.1, v)

/-- datamodel.py:467-510 `Document.__validate_syntax` for one sentence. -/
def validateSentence (toks : List Token) (s : Sentence) : Res Unit :=
  match pyGet toks s.start with
  | .error e => .error e
  | .ok first =>
    if !first.hasHead then
      if (slice toks (s.start + 1) s.stop).any Token.hasHead then .error .value else .ok ()
    else
      match forM' (validateStep toks s) (false, List.replicate s.len none) (List.range s.len) with
      | .error e => .error e
      | .ok _ => .ok ()

/-- datamodel.py:506-510: the loop over the sentences. -/
def validateSyntax (toks : List Token) : List Sentence → Res Unit
  | [] => .ok ()
  | s :: ss =>
    match validateSentence toks s with
    | .error e => .error e
    | .ok () => validateSyntax toks ss

/-- datamodel.py:431-434: the sentence list handed to `_WordList.__init__`. -/
def sortedSentences (tokens : List Token) (sentences : Option (List Sentence)) : List Sentence :=
  match sentences with
  | some ss => if tokens.isEmpty then ss else pySorted sentLe ss
  | none =>
    if h : 0 < tokens.length then [{ start := 0, stop := tokens.length, lt := h }] else []

/-- datamodel.py:429-465 `Document.__init__`. -/
def Document.new (text : Str) (tokens : List Token) (sentences : Option (List Sentence))
    (validate : Bool) : Res Document :=
  let sents := sortedSentences tokens sentences
  match wordList tokens sents with
  | .error e => .error e
  | .ok toks =>
    if tokens.isEmpty then .ok { text, tokens := toks, sentences := [] }
    else
      match sents.head?, sents.getLast? with
      | some first, some last =>
        if last.stop > tokens.length then .error .value
        else if first.start > 0 then .error .value
        else if last.stop < tokens.length then .error .value
        else if !checkForSequence (fun x y : Sentence => decide (x.stop ≠ y.start)) sents then
          .error .value
        else if !checkForSequence (fun x y : Sentence => decide (x.stop > y.start)) sents then
          .error .value
        else if validate then
          match validateSyntax toks sents with
          | .error e => .error e
          | .ok () => .ok { text, tokens := toks, sentences := sents }
        else .ok { text, tokens := toks, sentences := sents }
      | _, _ => .error .index

/-- datamodel.py:561-566 `Document.from_document`. -/
def Document.fromDocument (d : Document) (tokens : List Token) : Res Document :=
  let sorted := pySorted tokLe tokens
  if (d.tokens.zip sorted).any (fun p => !p.1.coincides p.2) then .error .value
  else Document.new d.text sorted (some d.sentences) false

/-- datamodel.py:556-559 `Document.__eq__` and 351-354 `_WordList.__eq__`. -/
def tokensEq : List Token → List Token → Bool
  | [], [] => true
  | a :: as, b :: bs => a.pyEq b && tokensEq as bs
  | _, _ => false

def Document.pyEq (d e : Document) : Bool :=
  decide (d.text = e.text) && tokensEq d.tokens e.tokens && decide (d.sentences = e.sentences)

/-! ### Navigable views -/

/-- datamodel.py:280-302 `_NavigableItem`: a position in a container of `count` items. -/
structure Nav where
  count : Nat
  index : Nat
  deriving DecidableEq

/-- datamodel.py:281-286 `_NavigableItem.__init__`.  `index % 0` raises `ZeroDivisionError` in
Python; that case is unreachable because callers index the list first, and is an index error
here. -/
def Nav.new (count : Nat) (index : Int) : Res Nav :=
  if index ≥ count then .error .index
  else if count = 0 then .error .index
  else .ok { count, index := (index % (count : Int)).toNat }

def Nav.isFirst (n : Nav) : Bool := n.index == 0
def Nav.isLast (n : Nav) : Bool := (n.index : Int) == (n.count : Int) - 1

/-- datamodel.py:400-415 `NavigableToken`: token, the document text and the position.  `headIndex`
is `head_index_func(token)`. -/
structure NavToken where
  text : Str
  toks : List Token
  headView : Token → Option Int
  token : Token
  nav : Nav

/-- datamodel.py:336-337 `_WordList.get_token`. -/
def getToken (text : Str) (toks : List Token) (headView : Token → Option Int) (index : Int) :
    Res NavToken :=
  match pyGet toks index with
  | .error e => .error e
  | .ok t =>
    match Nav.new toks.length index with
    | .error e => .error e
    | .ok nav => .ok { text, toks, headView, token := t, nav }

namespace NavToken

/-- datamodel.py:296-298 `next`. -/
def next (t : NavToken) : Res (Option NavToken) :=
  if t.nav.isLast then .ok none
  else match getToken t.text t.toks t.headView (t.nav.index + 1) with
    | .ok n => .ok (some n)
    | .error e => .error e

/-- datamodel.py:300-302 `previous`. -/
def previous (t : NavToken) : Res (Option NavToken) :=
  if t.nav.isFirst then .ok none
  else match getToken t.text t.toks t.headView ((t.nav.index : Int) - 1) with
    | .ok n => .ok (some n)
    | .error e => .error e

/-- datamodel.py:407-411 `head`. -/
def head (t : NavToken) : Res (Option NavToken) :=
  if t.token.isRoot then .ok none
  else match t.headView t.token with
    | none => .error .type
    | some h =>
      match getToken t.text t.toks t.headView h with
      | .ok n => .ok (some n)
      | .error e => .error e

end NavToken

/-- datamodel.py:371-373 `doc_text`. -/
def docText (text : Str) (t : Token) : Str := slice text t.start t.stop

/-- datamodel.py:367-369 `text`. -/
def tokText (text : Str) (t : Token) : Str := t.repl.getD (docText text t)

/-- datamodel.py:375-378 `space_after`. -/
def spaceAfter (text : Str) (t : Token) : Bool :=
  t.stop == text.length ||
  (match text[t.stop]? with
   | some c => isSpace c
   | none => false)

/-- datamodel.py:436 `head_index_func`, 336-337: `document.get_token(index)`. -/
def Document.getToken (d : Document) (index : Int) : Res NavToken :=
  Verif.getToken d.text d.tokens Token.headDoc index

/-- datamodel.py:418-425 `NavigableSentence`. -/
structure NavSentence where
  doc : Document
  tokens : List Token
  nav : Nav

/-- datamodel.py:520-522 `Document.get_sentence` with 419-421 `NavigableSentence.__init__`, which
runs the word list checks again on the slice. -/
def Document.getSentence (d : Document) (index : Int) : Res NavSentence :=
  match pyGet d.sentences index with
  | .error e => .error e
  | .ok s =>
    match wordList (slice d.tokens s.start s.stop) [] with
    | .error e => .error e
    | .ok toks =>
      match Nav.new d.sentences.length index with
      | .error e => .error e
      | .ok nav => .ok { doc := d, tokens := toks, nav }

/-- `sentence.get_token(index)`: heads in the sentence view, datamodel.py:420. -/
def NavSentence.getToken (s : NavSentence) (index : Int) : Res NavToken :=
  Verif.getToken s.doc.text s.tokens Token.headSent index

/-- datamodel.py:296-302 for sentences. -/
def NavSentence.next (s : NavSentence) : Res (Option NavSentence) :=
  if s.nav.isLast then .ok none
  else match s.doc.getSentence (s.nav.index + 1) with
    | .ok n => .ok (some n)
    | .error e => .error e

def NavSentence.previous (s : NavSentence) : Res (Option NavSentence) :=
  if s.nav.isFirst then .ok none
  else match s.doc.getSentence ((s.nav.index : Int) - 1) with
    | .ok n => .ok (some n)
    | .error e => .error e

/-- datamodel.py:423-425 `NavigableSentence.text`. -/
def NavSentence.text (s : NavSentence) : Res Str :=
  match s.tokens.head?, s.tokens.getLast? with
  | some a, some b => .ok (slice s.doc.text a.start b.stop)
  | _, _ => .error .index

end Verif
