import Verif.Model.Datamodel

/-!
# Model of the three classes of tokens, /repo/babylondigger/datamodel.py

`Verif.Model.Datamodel` treats all tokens as plain `Token`s.  Here the objects keep their class:
a `Token`, a `DocumentToken` (which carries the text of a document) or a `NavigableToken` (which
carries its container too).  The class methods of a token are looked up in the class of the object
they are called on; `NavigableToken` inherits those of `DocumentToken`.
-/

namespace Verif

/-- datamodel.py:85 `Token`, 357 `DocumentToken`, 400 `NavigableToken`. -/
inductive TokObj where
  | plain (t : Token)
  | doc (text : Str) (t : Token)
  | nav (n : NavToken)

/-- The classes that define the updating class methods, datamodel.py:197-226 and 380-397. -/
inductive TokCls where
  | token
  | documentToken
  deriving DecidableEq

namespace TokObj

/-- The attributes every class of tokens has, datamodel.py:97-109. -/
def token : TokObj → Token
  | plain t => t
  | doc _ t => t
  | nav n => n.token

/-- The attribute `_DocumentToken__document_text`, datamodel.py:365; a plain token has none. -/
def documentText : TokObj → Res Str
  | plain _ => .error .attribute
  | doc x _ => .ok x
  | nav n => .ok n.text

/-- The class in which `token.with_...` is found. -/
def cls : TokObj → TokCls
  | plain _ => .token
  | doc _ _ => .documentToken
  | nav _ => .documentToken

/-- datamodel.py:371-373 `doc_text`; plain tokens have no such attribute. -/
def docText (o : TokObj) : Res Str :=
  match o.documentText with
  | .error e => .error e
  | .ok x => .ok (slice x o.token.start o.token.stop)

/-- datamodel.py:367-369 `text`; plain tokens have no such attribute. -/
def text : TokObj → Res Str
  | plain _ => .error .attribute
  | o =>
    match o.token.repl with
    | some r => .ok r
    | none => o.docText

/-- datamodel.py:375-378 `space_after`; plain tokens have no such attribute. -/
def spaceAfter (o : TokObj) : Res Bool :=
  match o.documentText with
  | .error e => .error e
  | .ok x => .ok (Verif.spaceAfter x o.token)

/-- datamodel.py:358-365 `DocumentToken.__init__`: every attribute is copied. -/
def newDocumentToken (x : Str) (t : Token) : Res TokObj :=
  match Token.new t.start t.stop t.pos t.lemma' t.deprel t.sub t.repl t.headDoc t.headSent
    (some t.extras) with
  | .error e => .error e
  | .ok t' => .ok (.doc x t')

/-- The body of the class methods of `DocumentToken`, datamodel.py:380-397: first the text of the
argument is looked up, then the class method of `Token` is called. -/
def viaToken (o : TokObj) (r : Res Token) : Res TokObj :=
  match o.documentText with
  | .error e => .error e
  | .ok x =>
    match r with
    | .error e => .error e
    | .ok t => newDocumentToken x t

/-- A call `cls.f(token)` where `r` is what `Token.f(token)` gives. -/
def viaClass (c : TokCls) (o : TokObj) (r : Res Token) : Res TokObj :=
  match c with
  | .token =>
    match r with
    | .error e => .error e
    | .ok t => .ok (.plain t)
  | .documentToken => o.viaToken r

/-- datamodel.py:197-203 and 380-382 `cls.with_morphology(token, pos, lemma)`. -/
def withMorphology (c : TokCls) (o : TokObj) (pos : Option Pos) (lemma' : Option Str) :
    Res TokObj :=
  o.viaClass c (o.token.withMorphology pos lemma')

/-- datamodel.py:205-211 and 384-389 `cls.with_syntax(token, deprel, ...)`. -/
def withSyntax (c : TokCls) (o : TokObj) (deprel : Option Str) (headDoc headSent : Option Int) :
    Res TokObj :=
  o.viaClass c (o.token.withSyntax deprel headDoc headSent)

/-- datamodel.py:213-220 and 391-393 `cls.with_extras(token, extras)`. -/
def withExtras (c : TokCls) (o : TokObj) (extras : Option TokenExtras) : Res TokObj :=
  o.viaClass c (o.token.withExtras extras)

/-- datamodel.py:222-226 and 395-397 `cls.update_extras(token, updates)`: without updates
`Token.update_extras` returns its argument, whatever the class of that is. -/
def updateExtras (c : TokCls) (o : TokObj) (updates : Option (Dict Str ExtraVal)) : Res TokObj :=
  match c, updates with
  | .token, none => .ok o
  | c, u => o.viaClass c (o.token.updateExtras u)

/-- datamodel.py:228-243 `token.fill_heads(token, sentence_start)`: `with_syntax` is looked up in
the class of the token. -/
def fillHeads (o : TokObj) (sentStart : Nat) : Res TokObj :=
  match o.token.headSent, o.token.headDoc with
  | none, none => .ok o
  | hs, hd =>
    if hs = some (-1) ∨ hd = some (-1) then
      o.withSyntax o.cls o.token.deprel (some (-1)) (some (-1))
    else match hs, hd with
      | some s, none => o.withSyntax o.cls o.token.deprel (some (s + sentStart)) (some s)
      | none, some d => o.withSyntax o.cls o.token.deprel (some d) (some (d - sentStart))
      | some s, some d =>
        if d ≠ s + sentStart then .error .value
        else o.withSyntax o.cls o.token.deprel (some d) (some s)
      | none, none => .ok o

/-- datamodel.py:177-185 `Token.__eq__`: only `isinstance(other, Token)` is asked, which holds for
the objects of all three classes. -/
def pyEq (a b : TokObj) : Bool := a.token.pyEq b.token

end TokObj

/-- The key of datamodel.py:308 on objects. -/
def objLe (a b : TokObj) : Prop := tokLe a.token b.token

instance : DecidableRel objLe := fun a b => by unfold objLe; infer_instance

/-- datamodel.py:343-349 `_WordList.__fill_token_heads` on objects. -/
def fillObjHeads (toks : List TokObj) : List Sentence → Res (List TokObj)
  | [] => .ok []
  | s :: ss =>
    match mapM' (fun t : TokObj => t.fillHeads s.start) (slice toks s.start s.stop) with
    | .error e => .error e
    | .ok filled =>
      match fillObjHeads toks ss with
      | .error e => .error e
      | .ok rest => .ok (filled ++ rest)

/-- datamodel.py:306-323 `_WordList.__init__` on objects. -/
def objWordList (tokens : List TokObj) (sents : List Sentence) : Res (List TokObj) :=
  let toks := pySorted objLe tokens
  if !checkForSequence (fun a b : TokObj => a.token.intersects b.token) toks then .error .value
  else if !checkForSequence (fun a b : TokObj => skippedToken a.token b.token) toks then
    .error .value
  else if sents.isEmpty then .ok toks
  else fillObjHeads toks sents

/-- A `Document` whose list `_tokens` keeps the objects it was given, datamodel.py:322, 439, 462. -/
structure DocObj where
  text : Str
  tokens : List TokObj
  sentences : List Sentence

namespace DocObj

/-- datamodel.py:431-434 on objects. -/
def sents (tokens : List TokObj) (sentences : Option (List Sentence)) : List Sentence :=
  match sentences with
  | some ss => if tokens.isEmpty then ss else pySorted sentLe ss
  | none =>
    if h : 0 < tokens.length then [{ start := 0, stop := tokens.length, lt := h }] else []

/-- datamodel.py:429-465 `Document.__init__` on objects.  The validation reads attributes that
all classes have. -/
def new (text : Str) (tokens : List TokObj) (sentences : Option (List Sentence))
    (validate : Bool) : Res DocObj :=
  let ss := sents tokens sentences
  match objWordList tokens ss with
  | .error e => .error e
  | .ok toks =>
    if tokens.isEmpty then .ok { text, tokens := toks, sentences := [] }
    else
      match ss.head?, ss.getLast? with
      | some first, some last =>
        if last.stop > tokens.length then .error .value
        else if first.start > 0 then .error .value
        else if last.stop < tokens.length then .error .value
        else if !checkForSequence (fun x y : Sentence => decide (x.stop ≠ y.start)) ss then
          .error .value
        else if !checkForSequence (fun x y : Sentence => decide (x.stop > y.start)) ss then
          .error .value
        else if validate then
          match validateSyntax (toks.map TokObj.token) ss with
          | .error e => .error e
          | .ok () => .ok { text, tokens := toks, sentences := ss }
        else .ok { text, tokens := toks, sentences := ss }
      | _, _ => .error .index

/-- datamodel.py:561-566 `Document.from_document` on objects. -/
def fromDocument (d : DocObj) (tokens : List TokObj) : Res DocObj :=
  let sorted := pySorted objLe tokens
  if (d.tokens.zip sorted).any (fun p => !p.1.token.coincides p.2.token) then .error .value
  else new d.text sorted (some d.sentences) false

/-- datamodel.py:336-337 `get_token` with 400-405 `NavigableToken.__init__`: the text is that of
the container. -/
def getToken (d : DocObj) (index : Int) : Res TokObj :=
  match pyGet d.tokens index with
  | .error e => .error e
  | .ok o =>
    match TokObj.newDocumentToken d.text o.token with
    | .error e => .error e
    | .ok o' =>
      match Nav.new d.tokens.length index with
      | .error e => .error e
      | .ok nav =>
        .ok (.nav { text := d.text, toks := d.tokens.map TokObj.token, headView := Token.headDoc,
                    token := o'.token, nav })

/-- datamodel.py:351-354, 556-559 `Document.__eq__` on objects. -/
def tokensEqObj : List TokObj → List TokObj → Bool
  | [], [] => true
  | a :: as, b :: bs => a.pyEq b && tokensEqObj as bs
  | _, _ => false

def pyEq (d e : DocObj) : Bool :=
  decide (d.text = e.text) && tokensEqObj d.tokens e.tokens && decide (d.sentences = e.sentences)

end DocObj

end Verif
