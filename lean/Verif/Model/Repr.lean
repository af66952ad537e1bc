import Verif.Model.DocStr
import Verif.Model.Lemmas

/-!
# Model of the representations (`repr`) of tokens, sentences, documents and lemma rules

`reprStr` is Python's `repr` on strings and stays an arbitrary function.
-/

namespace Verif

/-- `format` of a number or `None`. -/
def reprIdx : Option Int → Str
  | none => "None".toList
  | some i => intStr i

/-- `repr` of a part of speech or `None`. -/
def reprPos (reprStr : Str → Str) : Option Pos → Str
  | none => "None".toList
  | some p => p.repr reprStr

/-- datamodel.py:187-195 `Token.__repr__`. -/
def Token.repr (reprStr : Str → Str) (t : Token) : Str :=
  match t.repl with
  | some r =>
    "{'start': ".toList ++ natStr t.start ++ ", 'end': ".toList ++ natStr t.stop ++
      ", 'sub_index': ".toList ++ intStr t.sub ++ ", 'text': ".toList ++ reprStr r ++
      " 'pos': ".toList ++ reprPos reprStr t.pos ++ ", 'lemma': ".toList ++ reprOpt reprStr t.lemma' ++
      ", 'head_doc': ".toList ++ reprIdx t.headDoc ++ ", 'head_sent': ".toList ++ reprIdx t.headSent ++
      ", 'deprel': ".toList ++ reprOpt reprStr t.deprel ++ "}".toList
  | none =>
    "{'start': ".toList ++ natStr t.start ++ ", 'end': ".toList ++ natStr t.stop ++
      ", 'pos': ".toList ++ reprPos reprStr t.pos ++ ", 'lemma': ".toList ++ reprOpt reprStr t.lemma' ++
      ", 'head_doc': ".toList ++ reprIdx t.headDoc ++ ", 'head_sent': ".toList ++ reprIdx t.headSent ++
      ", 'deprel': ".toList ++ reprOpt reprStr t.deprel ++ "}".toList

/-- datamodel.py:273-274 `Sentence.__repr__`. -/
def Sentence.repr (s : Sentence) : Str :=
  "{'start_token': ".toList ++ natStr s.start ++ ", 'end_token': ".toList ++ natStr s.stop ++ "}".toList

/-- `repr` of a list. -/
def reprList (items : List Str) : Str :=
  '[' :: (List.intercalate ", ".toList items ++ "]".toList)

/-- `repr` of the sentences of a document: a list if there are none (datamodel.py:439), a tuple otherwise
(datamodel.py:462); a tuple of one item has a comma behind it. -/
def reprTuple : List Str → Str
  | [] => "[]".toList
  | [x] => '(' :: (x ++ ",)".toList)
  | items => '(' :: (List.intercalate ", ".toList items ++ ")".toList)

/-- datamodel.py:552-554 `Document.__repr__` (the brace at the beginning is not closed). -/
def Document.repr (reprStr : Str → Str) (d : Document) : Str :=
  "{'text':".toList ++ reprStr d.text ++ ", 'tokens':".toList ++ reprList (d.tokens.map (Token.repr reprStr)) ++
    ", 'sentences':".toList ++ reprTuple (d.sentences.map Sentence.repr)

/-- `format` of a boolean. -/
def reprBool : Bool → Str
  | true => "True".toList
  | false => "False".toList

/-- transformation_rules.py:44-46 `LemmaSuffixTransformation.__repr__`. -/
def LemmaRule.repr (reprStr : Str → Str) (r : LemmaRule) : Str :=
  "{'word_suffix': ".toList ++ reprStr r.wordSuffix ++ ", 'lemma_suffix': ".toList ++ reprStr r.lemmaSuffix ++
    ", 'whole_word': ".toList ++ reprBool r.exc ++ "}".toList

/-- transformation_rules.py:48-52 `LemmaSuffixTransformation.__str__`. -/
def LemmaRule.str (r : LemmaRule) : Str :=
  if r.exc then r.wordSuffix ++ " -> ".toList ++ r.lemmaSuffix
  else '~' :: (r.wordSuffix ++ " -> ~".toList ++ r.lemmaSuffix)

end Verif
