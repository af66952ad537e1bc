import Verif.Model.Evaluation
import Verif.Model.Lemmas
import Verif.Model.Grid
import Verif.Model.Training

/-!
# The project's own tests, replayed on the model

Not part of any proof: these examples only show that the model behaves as the tests of the project say
(babylondigger/tests, conll17_ud_eval.py:521-569).  Tests that the code itself does not pass are marked; for these
the example shows what the code does.
-/

namespace Verif.Conformance

/-- `Pos(upos, xpos, feats)`. -/
def pos (upos xpos : Option Str) (feats : List (Str × Str)) : Option Pos :=
  some { upos, xpos, feats := Dict.ofList feats }

/-! ### tests/evaluation/test_data.py -/

/-- tests/evaluation/test_data.py: `regular_document["CoNLL-U"]`. -/
def regularDocumentFile : Str :=
    "# sent_id = train-s8\n".toList ++
    "# text = Закончил Харьковский, а затем и Петроградский университет.\n".toList ++
    "1\tЗакончил\tЗАКОНЧИТЬ\tVERB\tVBC\tAspect=Perf|Gender=Masc|Mood=Ind|Number=Sing|Tense=Past|VerbForm=Fin\t0\troot\t_\t_\n".toList ++
    "2\tХарьковский\tХАРЬКОВСКИЙ\tADJ\tJJL\tAnimacy=Inan|Case=Acc|Gender=Masc|Number=Sing\t8\tamod\t_\tSpaceAfter=No\n".toList ++
    "3\t,\t,\tPUNCT\t,\t_\t7\tpunct\t_\t_\n".toList ++
    "4\tа\tА\tCCONJ\tCC\t_\t7\tcc\t_\t_\n".toList ++
    "5\tзатем\tЗАТЕМ\tADV\tRB\t_\t7\tadvmod\t_\t_\n".toList ++
    "6\tи\tИ\tPART\tUH\t_\t7\tdiscourse\t_\t_\n".toList ++
    "7\tПетроградский\tПЕТРОГРАДСКИЙ\tADJ\tJJL\tAnimacy=Inan|Case=Acc|Gender=Masc|Number=Sing\t2\tconj\t_\t_\n".toList ++
    "8\tуниверситет\tУНИВЕРСИТЕТ\tNOUN\tNN\tAnimacy=Inan|Case=Acc|Gender=Masc|Number=Sing\t1\tobj\t_\tSpaceAfter=No\n".toList ++
    "9\t.\t.\tPUNCT\t.\t_\t1\tpunct\t_\t_\n".toList ++
    "\n".toList

/-- `regular_document["text"]`. -/
def regularDocumentText : Str := "Закончил Харьковский, а затем и Петроградский университет. ".toList

/-- `regular_document["document"]`. -/
def regularDocumentDoc : Res Document :=
  Document.new regularDocumentText [
    { start := 0, stop := 8, pos := (pos (some "VERB".toList) (some "VBC".toList) [("Aspect".toList, "Perf".toList), ("Gender".toList, "Masc".toList), ("Mood".toList, "Ind".toList), ("Number".toList, "Sing".toList), ("Tense".toList, "Past".toList), ("VerbForm".toList, "Fin".toList)]), lemma' := (some "ЗАКОНЧИТЬ".toList), deprel := (some "root".toList), sub := 0, repl := none, headSent := (some (-1)) },
    { start := 9, stop := 20, pos := (pos (some "ADJ".toList) (some "JJL".toList) [("Animacy".toList, "Inan".toList), ("Case".toList, "Acc".toList), ("Gender".toList, "Masc".toList), ("Number".toList, "Sing".toList)]), lemma' := (some "ХАРЬКОВСКИЙ".toList), deprel := (some "amod".toList), sub := 0, repl := none, headSent := (some (7)) },
    { start := 20, stop := 21, pos := (pos (some "PUNCT".toList) (some ",".toList) []), lemma' := (some ",".toList), deprel := (some "punct".toList), sub := 0, repl := none, headSent := (some (6)) },
    { start := 22, stop := 23, pos := (pos (some "CCONJ".toList) (some "CC".toList) []), lemma' := (some "А".toList), deprel := (some "cc".toList), sub := 0, repl := none, headSent := (some (6)) },
    { start := 24, stop := 29, pos := (pos (some "ADV".toList) (some "RB".toList) []), lemma' := (some "ЗАТЕМ".toList), deprel := (some "advmod".toList), sub := 0, repl := none, headSent := (some (6)) },
    { start := 30, stop := 31, pos := (pos (some "PART".toList) (some "UH".toList) []), lemma' := (some "И".toList), deprel := (some "discourse".toList), sub := 0, repl := none, headSent := (some (6)) },
    { start := 32, stop := 45, pos := (pos (some "ADJ".toList) (some "JJL".toList) [("Animacy".toList, "Inan".toList), ("Case".toList, "Acc".toList), ("Gender".toList, "Masc".toList), ("Number".toList, "Sing".toList)]), lemma' := (some "ПЕТРОГРАДСКИЙ".toList), deprel := (some "conj".toList), sub := 0, repl := none, headSent := (some (1)) },
    { start := 46, stop := 57, pos := (pos (some "NOUN".toList) (some "NN".toList) [("Animacy".toList, "Inan".toList), ("Case".toList, "Acc".toList), ("Gender".toList, "Masc".toList), ("Number".toList, "Sing".toList)]), lemma' := (some "УНИВЕРСИТЕТ".toList), deprel := (some "obj".toList), sub := 0, repl := none, headSent := (some (0)) },
    { start := 57, stop := 58, pos := (pos (some "PUNCT".toList) (some ".".toList) []), lemma' := (some ".".toList), deprel := (some "punct".toList), sub := 0, repl := none, headSent := (some (0)) }] (some [{ start := 0, stop := 9 }]) false

/-- tests/evaluation/test_data.py: `empty_token_document["CoNLL-U"]`. -/
def emptyTokenDocumentFile : Str :=
    "# source = 2011Alpinizm.xml 29\n".toList ++
    "# text = До сих пор идут споры о том, достигли они вершины или нет\n".toList ++
    "# sent_id = 191\n".toList ++
    "1\tДо\tдо\tADP\t_\t_\t4\tadvmod\t4:advmod\t_\n".toList ++
    "2\tсих\tсей\tDET\t_\tCase=Gen|Number=Plur\t1\tfixed\t1:fixed\t_\n".toList ++
    "3\tпор\tпора\tNOUN\t_\tAnimacy=Inan|Case=Gen|Gender=Fem|Number=Plur\t2\tfixed\t2:fixed\t_\n".toList ++
    "4\tидут\tидти\tVERB\t_\tAspect=Imp|Mood=Ind|Number=Plur|Person=3|Tense=Pres|VerbForm=Fin|Voice=Act\t0\troot\t0:root\t_\n".toList ++
    "5\tспоры\tспор\tNOUN\t_\tAnimacy=Inan|Case=Nom|Gender=Masc|Number=Plur\t4\tnsubj\t4:nsubj\t_\n".toList ++
    "6\tо\tо\tADP\t_\t_\t7\tcase\t7:case\t_\n".toList ++
    "7\tтом\tто\tPRON\t_\tAnimacy=Inan|Case=Loc|Gender=Neut|Number=Sing\t5\tnmod\t5:nmod\tSpaceAfter=No\n".toList ++
    "8\t,\t,\tPUNCT\t_\t_\t7\tpunct\t7:punct\t_\n".toList ++
    "9\tдостигли\tдостигать\tVERB\t_\tAspect=Perf|Mood=Ind|Number=Plur|Tense=Past|VerbForm=Fin|Voice=Act\t7\tacl\t7:acl\t_\n".toList ++
    "10\tони\tони\tPRON\t_\tCase=Nom|Number=Plur|Person=3\t9\tnsubj\t9:nsubj\t_\n".toList ++
    "11\tвершины\tвершина\tNOUN\t_\tAnimacy=Inan|Case=Gen|Gender=Fem|Number=Sing\t9\tobl\t9:obl\t_\n".toList ++
    "12\tили\tили\tCCONJ\t_\t_\t9\torphan\t13.1:cc\t_\n".toList ++
    "13\tнет\tнет\tPART\t_\t_\t9\torphan\t13.1:advmod\tSpaceAfter=No\n".toList ++
    "13.1\t_\t_\t_\t_\t_\t_\t_\t9:conj\t_\n".toList ++
    "\n".toList

/-- `empty_token_document["text"]`. -/
def emptyTokenDocumentText : Str := "До сих пор идут споры о том, достигли они вершины или нет".toList

/-- tests/evaluation/test_data.py: `multiword_token_document["CoNLL-U"]`. -/
def multiwordTokenDocumentFile : Str :=
    "# sent_id = es-dev-001-s72\n".toList ++
    "# text = También comenzó a emitirse publicidad comercial y programas estadounidenses.\n".toList ++
    "1\tTambién\ttambién\tADV\t_\t_\t6\tadvmod\t_\t_\n".toList ++
    "2\tcomenzó\tcomenzar\tAUX\t_\tMood=Ind|Number=Sing|Person=3|Tense=Past|VerbForm=Fin\t6\taux\t_\t_\n".toList ++
    "3\ta\ta\tADP\t_\t_\t4\tmark\t_\t_\n".toList ++
    "4-5\temitirse\t_\t_\t_\t_\t_\t_\t_\t_\n".toList ++
    "4\temitir\temitir\tVERB\t_\tVerbForm=Inf\t6\tcop\t_\t_\n".toList ++
    "5\tse\tél\tPRON\t_\tCase=Acc,Dat|Person=3|PrepCase=Npr|PronType=Prs|Reflex=Yes\t4\tiobj\t_\t_\n".toList ++
    "6\tpublicidad\tpublicidad\tNOUN\t_\tGender=Fem|Number=Sing\t0\troot\t_\t_\n".toList ++
    "7\tcomercial\tcomercial\tADJ\t_\tNumber=Sing\t6\tamod\t_\t_\n".toList ++
    "8\ty\ty\tCCONJ\t_\t_\t9\tcc\t_\t_\n".toList ++
    "9\tprogramas\tprograma\tNOUN\t_\tGender=Masc|Number=Plur\t6\tconj\t_\t_\n".toList ++
    "10\testadounidenses\testadounidense\tADJ\t_\tNumber=Plur\t9\tamod\t_\tSpaceAfter=No\n".toList ++
    "11\t.\t.\tPUNCT\t_\t_\t6\tpunct\t_\t_\n".toList ++
    "\n".toList

/-- `multiword_token_document["text"]`. -/
def multiwordTokenDocumentText : Str := "También comenzó a emitirse publicidad comercial y programas estadounidenses. ".toList

/-- `multiword_token_document["document"]`. -/
def multiwordTokenDocumentDoc : Res Document :=
  Document.new multiwordTokenDocumentText [
    { start := 0, stop := 7, pos := (pos (some "ADV".toList) none []), lemma' := (some "también".toList), deprel := (some "advmod".toList), sub := 0, repl := none, headSent := (some (5)) },
    { start := 8, stop := 15, pos := (pos (some "AUX".toList) none [("Mood".toList, "Ind".toList), ("Number".toList, "Sing".toList), ("Person".toList, "3".toList), ("Tense".toList, "Past".toList), ("VerbForm".toList, "Fin".toList)]), lemma' := (some "comenzar".toList), deprel := (some "aux".toList), sub := 0, repl := none, headSent := (some (5)) },
    { start := 16, stop := 17, pos := (pos (some "ADP".toList) none []), lemma' := (some "a".toList), deprel := (some "mark".toList), sub := 0, repl := none, headSent := (some (3)) },
    { start := 18, stop := 26, pos := (pos (some "VERB".toList) none [("VerbForm".toList, "Inf".toList)]), lemma' := (some "emitir".toList), deprel := (some "cop".toList), sub := 0, repl := (some "emitir".toList), headSent := (some (5)) },
    { start := 18, stop := 26, pos := (pos (some "PRON".toList) none [("Case".toList, "Acc,Dat".toList), ("Person".toList, "3".toList), ("PrepCase".toList, "Npr".toList), ("PronType".toList, "Prs".toList), ("Reflex".toList, "Yes".toList)]), lemma' := (some "él".toList), deprel := (some "iobj".toList), sub := 1, repl := (some "se".toList), headSent := (some (3)) },
    { start := 27, stop := 37, pos := (pos (some "NOUN".toList) none [("Gender".toList, "Fem".toList), ("Number".toList, "Sing".toList)]), lemma' := (some "publicidad".toList), deprel := (some "root".toList), sub := 0, repl := none, headSent := (some (-1)) },
    { start := 38, stop := 47, pos := (pos (some "ADJ".toList) none [("Number".toList, "Sing".toList)]), lemma' := (some "comercial".toList), deprel := (some "amod".toList), sub := 0, repl := none, headSent := (some (5)) },
    { start := 48, stop := 49, pos := (pos (some "CCONJ".toList) none []), lemma' := (some "y".toList), deprel := (some "cc".toList), sub := 0, repl := none, headSent := (some (8)) },
    { start := 50, stop := 59, pos := (pos (some "NOUN".toList) none [("Gender".toList, "Masc".toList), ("Number".toList, "Plur".toList)]), lemma' := (some "programa".toList), deprel := (some "conj".toList), sub := 0, repl := none, headSent := (some (5)) },
    { start := 60, stop := 75, pos := (pos (some "ADJ".toList) none [("Number".toList, "Plur".toList)]), lemma' := (some "estadounidense".toList), deprel := (some "amod".toList), sub := 0, repl := none, headSent := (some (8)) },
    { start := 75, stop := 76, pos := (pos (some "PUNCT".toList) none []), lemma' := (some ".".toList), deprel := (some "punct".toList), sub := 0, repl := none, headSent := (some (5)) }] (none) false

/-- tests/evaluation/test_data.py: `multiword_token_document2["CoNLL-U"]`. -/
def multiwordTokenDocument2File : Str :=
    "# sent_id = n01016019\n".toList ++
    "# text = Varios analistas han sugerido que Huawei está en la mejor posición para beneficiarse del retroceso de Samsung.\n".toList ++
    "# text_en = Several analysts have suggested Huawei is best placed to benefit from Samsung's setback.\n".toList ++
    "1\tVarios\t_\tDET\tDT\tGender=Masc|Number=Plur\t2\tdet\t_\t_\n".toList ++
    "2\tanalistas\t_\tNOUN\tNN\tGender=Masc|Number=Plur\t4\tnsubj\t_\t_\n".toList ++
    "3\than\t_\tVERB\tVBC\tAspect=Perf|Mood=Ind|Number=Plur|Person=3|Tense=Past|Voice=Act\t4\taux\t_\t_\n".toList ++
    "4\tsugerido\t_\tVERB\tVBN\t_\t0\troot\t_\t_\n".toList ++
    "5\tque\t_\tADP\tIN\t_\t7\tmark\t_\t_\n".toList ++
    "6\tHuawei\t_\tPROPN\tNNP\tNumber=Sing\t7\tnsubj\t_\t_\n".toList ++
    "7\testá\t_\tVERB\tVBC\tAspect=Imp|Mood=Ind|Number=Sing|Person=3|Tense=Pres|Voice=Act\t4\tccomp\t_\t_\n".toList ++
    "8\ten\t_\tADP\tIN\t_\t11\tcase\t_\t_\n".toList ++
    "9\tla\t_\tDET\tDT\tGender=Fem|Number=Sing\t11\tdet\t_\t_\n".toList ++
    "10\tmejor\t_\tADJ\tJJR\tGender=Fem|Number=Sing\t11\tamod\t_\t_\n".toList ++
    "11\tposición\t_\tNOUN\tNN\tGender=Fem|Number=Sing\t7\tobl\t_\t_\n".toList ++
    "12\tpara\t_\tADP\tIN\t_\t13\tcase\t_\t_\n".toList ++
    "13-14\tbeneficiarse\t_\t_\t_\t_\t_\t_\t_\t_\n".toList ++
    "13\tbeneficiar\t_\tVERB\tVB\tAspect=Imp|Voice=Act\t7\txcomp\t_\t_\n".toList ++
    "14\tse\t_\tPRON\tSE\tPerson=3\t13\tcompound:prt\t_\t_\n".toList ++
    "15-16\tdel\t_\t_\t_\t_\t_\t_\t_\t_\n".toList ++
    "15\tde\tde\tADP\tINDT\t_\t17\tcase\t_\t_\n".toList ++
    "16\tel\tel\tDET\t_\tGender=Masc|Number=Sing\t17\tdet\t_\t_\n".toList ++
    "17\tretroceso\t_\tNOUN\tNN\tGender=Masc|Number=Sing\t13\tobl\t_\t_\n".toList ++
    "18\tde\t_\tADP\tIN\t_\t19\tcase\t_\t_\n".toList ++
    "19\tSamsung\t_\tPROPN\tNNP\tNumber=Sing\t17\tnmod\t_\tSpaceAfter=No\n".toList ++
    "20\t.\t_\tPUNCT\t.\t_\t4\tpunct\t_\t_\n".toList ++
    "\n".toList

/-- `multiword_token_document2["text"]`. -/
def multiwordTokenDocument2Text : Str := "Varios analistas han sugerido que Huawei está en la mejor posición para beneficiarse del retroceso de Samsung. ".toList

/-- `multiword_token_document2["document"]`. -/
def multiwordTokenDocument2Doc : Res Document :=
  Document.new multiwordTokenDocument2Text [
    { start := 0, stop := 6, pos := (pos (some "DET".toList) (some "DT".toList) [("Gender".toList, "Masc".toList), ("Number".toList, "Plur".toList)]), lemma' := none, deprel := (some "det".toList), sub := 0, repl := none, headSent := (some (1)) },
    { start := 7, stop := 16, pos := (pos (some "NOUN".toList) (some "NN".toList) [("Gender".toList, "Masc".toList), ("Number".toList, "Plur".toList)]), lemma' := none, deprel := (some "nsubj".toList), sub := 0, repl := none, headSent := (some (3)) },
    { start := 17, stop := 20, pos := (pos (some "VERB".toList) (some "VBC".toList) [("Aspect".toList, "Perf".toList), ("Mood".toList, "Ind".toList), ("Number".toList, "Plur".toList), ("Person".toList, "3".toList), ("Tense".toList, "Past".toList), ("Voice".toList, "Act".toList)]), lemma' := none, deprel := (some "aux".toList), sub := 0, repl := none, headSent := (some (3)) },
    { start := 21, stop := 29, pos := (pos (some "VERB".toList) (some "VBN".toList) []), lemma' := none, deprel := (some "root".toList), sub := 0, repl := none, headSent := (some (-1)) },
    { start := 30, stop := 33, pos := (pos (some "ADP".toList) (some "IN".toList) []), lemma' := none, deprel := (some "mark".toList), sub := 0, repl := none, headSent := (some (6)) },
    { start := 34, stop := 40, pos := (pos (some "PROPN".toList) (some "NNP".toList) [("Number".toList, "Sing".toList)]), lemma' := none, deprel := (some "nsubj".toList), sub := 0, repl := none, headSent := (some (6)) },
    { start := 41, stop := 45, pos := (pos (some "VERB".toList) (some "VBC".toList) [("Aspect".toList, "Imp".toList), ("Mood".toList, "Ind".toList), ("Number".toList, "Sing".toList), ("Person".toList, "3".toList), ("Tense".toList, "Pres".toList), ("Voice".toList, "Act".toList)]), lemma' := none, deprel := (some "ccomp".toList), sub := 0, repl := none, headSent := (some (3)) },
    { start := 46, stop := 48, pos := (pos (some "ADP".toList) (some "IN".toList) []), lemma' := none, deprel := (some "case".toList), sub := 0, repl := none, headSent := (some (10)) },
    { start := 49, stop := 51, pos := (pos (some "DET".toList) (some "DT".toList) [("Gender".toList, "Fem".toList), ("Number".toList, "Sing".toList)]), lemma' := none, deprel := (some "det".toList), sub := 0, repl := none, headSent := (some (10)) },
    { start := 52, stop := 57, pos := (pos (some "ADJ".toList) (some "JJR".toList) [("Gender".toList, "Fem".toList), ("Number".toList, "Sing".toList)]), lemma' := none, deprel := (some "amod".toList), sub := 0, repl := none, headSent := (some (10)) },
    { start := 58, stop := 66, pos := (pos (some "NOUN".toList) (some "NN".toList) [("Gender".toList, "Fem".toList), ("Number".toList, "Sing".toList)]), lemma' := none, deprel := (some "obl".toList), sub := 0, repl := none, headSent := (some (6)) },
    { start := 67, stop := 71, pos := (pos (some "ADP".toList) (some "IN".toList) []), lemma' := none, deprel := (some "case".toList), sub := 0, repl := none, headSent := (some (12)) },
    { start := 72, stop := 84, pos := (pos (some "VERB".toList) (some "VB".toList) [("Aspect".toList, "Imp".toList), ("Voice".toList, "Act".toList)]), lemma' := none, deprel := (some "xcomp".toList), sub := 0, repl := (some "beneficiar".toList), headSent := (some (6)) },
    { start := 72, stop := 84, pos := (pos (some "PRON".toList) (some "SE".toList) [("Person".toList, "3".toList)]), lemma' := none, deprel := (some "compound:prt".toList), sub := 1, repl := (some "se".toList), headSent := (some (12)) },
    { start := 85, stop := 88, pos := (pos (some "ADP".toList) (some "INDT".toList) []), lemma' := (some "de".toList), deprel := (some "case".toList), sub := 0, repl := (some "de".toList), headSent := (some (16)) },
    { start := 85, stop := 88, pos := (pos (some "DET".toList) none [("Gender".toList, "Masc".toList), ("Number".toList, "Sing".toList)]), lemma' := (some "el".toList), deprel := (some "det".toList), sub := 1, repl := (some "el".toList), headSent := (some (16)) },
    { start := 89, stop := 98, pos := (pos (some "NOUN".toList) (some "NN".toList) [("Gender".toList, "Masc".toList), ("Number".toList, "Sing".toList)]), lemma' := none, deprel := (some "obl".toList), sub := 0, repl := none, headSent := (some (12)) },
    { start := 99, stop := 101, pos := (pos (some "ADP".toList) (some "IN".toList) []), lemma' := none, deprel := (some "case".toList), sub := 0, repl := none, headSent := (some (18)) },
    { start := 102, stop := 109, pos := (pos (some "PROPN".toList) (some "NNP".toList) [("Number".toList, "Sing".toList)]), lemma' := none, deprel := (some "nmod".toList), sub := 0, repl := none, headSent := (some (16)) },
    { start := 109, stop := 110, pos := (pos (some "PUNCT".toList) (some ".".toList) []), lemma' := none, deprel := (some "punct".toList), sub := 0, repl := none, headSent := (some (3)) }] (none) false

/-! ### tests/evaluation/test_io.py -/

/-- `list(reader.read_from_str(text))`, or the exception. -/
def readAll (limit : Int) (text : Str) : Res (List Document) :=
  match readFromStr limit defaultCols text with
  | .error e => .error e
  | .ok (_, some e) => .error e
  | .ok (docs, none) => .ok docs

/-- `assertEqual(docs, expected)`. -/
def sameDocs : Res (List Document) → List (Res Document) → Bool
  | .ok [], [] => true
  | .ok (d :: ds), .ok e :: es => d.pyEq e && sameDocs (.ok ds) es
  | _, _ => false

/-- Texts, numbers of sentences and numbers of tokens. -/
def docSizes : Res (List Document) → List (Str × Nat × Nat)
  | .ok ds => ds.map (fun d => (d.text, d.sentences.length, d.tokens.length))
  | .error _ => []

/-- `_filter_comments`. -/
def filterComments (s : Str) : Str := joinWith '\n' ((splitOn1 '\n' s).filter (fun l => l.head? ≠ some '#'))

/-- `writer.write_to_str(*docs)`. -/
def written (docs : List (Res Document)) : Res Str :=
  match mapM' id docs with
  | .error e => .error e
  | .ok ds => writeToStr defaultCols ds

#guard decide (readFromStr (-1) defaultCols [] = .error .assertion ∧ readFromStr 0 defaultCols [] = .error .assertion)
#guard decide (sameDocs (readAll 1 regularDocumentFile) [regularDocumentDoc] = true)
#guard decide (docSizes (readAll 1 emptyTokenDocumentFile) = [(emptyTokenDocumentText, 1, 13)])
#guard decide (sameDocs (readAll 1 multiwordTokenDocumentFile) [multiwordTokenDocumentDoc] = true)
#guard decide (sameDocs (readAll 1 multiwordTokenDocument2File) [multiwordTokenDocument2Doc] = true)
#guard decide (docSizes (readAll 1 (regularDocumentFile ++ emptyTokenDocumentFile)) =
    [(regularDocumentText, 1, 9), (emptyTokenDocumentText, 1, 13)])
#guard decide (docSizes (readAll 2 (regularDocumentFile ++ emptyTokenDocumentFile)) =
    [(regularDocumentText ++ emptyTokenDocumentText, 2, 22)])
#guard decide (docSizes (readAll 3 (regularDocumentFile ++ emptyTokenDocumentFile)) =
    [(regularDocumentText ++ emptyTokenDocumentText, 2, 22)])
#guard decide (written [Document.new [] [] none false] = .ok [])
#guard decide (written [regularDocumentDoc] = .ok (filterComments regularDocumentFile))
#guard decide (written [regularDocumentDoc, regularDocumentDoc, regularDocumentDoc] =
    .ok (filterComments regularDocumentFile ++ filterComments regularDocumentFile ++
      filterComments regularDocumentFile))
#guard decide (written [multiwordTokenDocumentDoc] = .ok (filterComments multiwordTokenDocumentFile))
#guard decide (written [multiwordTokenDocument2Doc] = .ok (filterComments multiwordTokenDocument2File))
#guard decide (((readAll 5 (regularDocumentFile ++ regularDocumentFile ++ regularDocumentFile)).toOption.map
      (fun docs => writeToStr defaultCols (docs.take 1))) =
    some (.ok (filterComments regularDocumentFile ++ filterComments regularDocumentFile ++
      filterComments regularDocumentFile)))

/-! ### tests/test_datamodel.py -/

/-- `Token(start, end)`. -/
def tk (start stop : Int) : Res Token := Token.new start stop none none none 0 none none none none

/-- `Token(start, end, text_replacement=repl, sub_index=sub)`. -/
def mw (start stop sub : Int) (repl : String) : Res Token :=
  Token.new start stop none none none sub (some repl.toList) none none none

/-- `Token(start, end, head_document_index=h)`. -/
def dh (start stop h : Int) : Res Token := Token.new start stop none none none 0 none (some h) none none

/-- `Token(start, end, head_sentence_index=h)`. -/
def sh (start stop h : Int) : Res Token := Token.new start stop none none none 0 none none (some h) none

/-- `Document(text, tokens, sentences, validate_syntax)`. -/
def doc (text : String) (tokens : List (Res Token)) (sentences : Option (List (Res Sentence))) (v : Bool) :
    Res Document :=
  match mapM' id tokens, mapM' id (sentences.getD []) with
  | .ok ts, .ok ss => Document.new text.toList ts (sentences.map (fun _ => ss)) v
  | .error e, _ => .error e
  | _, .error e => .error e

def eqTokens (d : Res Document) (tokens : List (Res Token)) : Bool :=
  match d, mapM' id tokens with
  | .ok d, .ok ts => tokensEq d.tokens ts
  | _, _ => false

def eqDocs (a b : Res Document) : Bool :=
  match a, b with
  | .ok a, .ok b => a.pyEq b
  | _, _ => false

/-- `assertRaises(ValueError)`. -/
def raisesValue {α : Type} : Res α → Bool
  | .error .value => true
  | _ => false

/-- `assertRaises(AssertionError)`. -/
def raisesAssertion {α : Type} : Res α → Bool
  | .error .assertion => true
  | _ => false

def eqToken (a b : Res Token) : Bool :=
  match a, b with
  | .ok a, .ok b => a.pyEq b
  | _, _ => false

def bind' {α β : Type} (a : Res α) (f : α → Res β) : Res β :=
  match a with
  | .ok x => f x
  | .error e => .error e

-- TokenTest
#guard raisesAssertion (tk (-1) 1)
#guard raisesAssertion (tk 1 1)
#guard raisesAssertion (tk 3 1)
#guard (mw 0 1 0 "replacement").toOption.any
  (fun t => t.isMultiword && decide (t.repl = some "replacement".toList) && t.sub == 0)
#guard eqToken (bind' (tk 0 1) (fun t => t.withMorphology (pos (some "N".toList) none []) (some "lemma".toList)))
  (Token.new 0 1 (pos (some "N".toList) none []) (some "lemma".toList) none 0 none none none none)
#guard eqToken (bind' (tk 0 1) (fun t => t.withSyntax (some "deprel".toList) none (some 1)))
  (Token.new 0 1 none none (some "deprel".toList) 0 none none (some 1) none)
#guard eqToken
  (bind' (bind' (tk 0 1) (fun t => t.withSyntax (some "deprel".toList) none (some 1)))
    (fun t => t.withSyntax (some "deprel".toList) (some 1) none))
  (Token.new 0 1 none none (some "deprel".toList) 0 none (some 1) none none)
#guard eqToken (bind' (mw 0 1 1 "replacement") (fun t => t.withMorphology none none)) (mw 0 1 1 "replacement")
#guard eqToken (bind' (mw 0 1 1 "replacement") (fun t => t.withSyntax none none none)) (mw 0 1 1 "replacement")

-- SentenceTest
#guard raisesAssertion (Sentence.new (-1) 1)
#guard raisesAssertion (Sentence.new 1 1)
#guard raisesAssertion (Sentence.new 3 2)

-- DocumentTest
def text := "Hello, world! This is babylondigger!"
def tokens := [tk 0 5, tk 5 6, tk 7 12, tk 12 13, tk 14 18, tk 19 21, tk 22 35, tk 35 36]
def multiwordTokens := [tk 0 5, tk 5 6, tk 7 12, tk 12 13, tk 14 18, tk 19 21, tk 35 36, mw 22 35 1 "digger",
  mw 22 35 0 "babylon"]
def syntaxTokens := [dh 0 5 2, dh 5 6 2, dh 7 12 (-1), dh 12 13 2, dh 14 18 6, dh 19 21 6, dh 22 35 (-1), dh 35 36 6]
def syntaxSentenceTokens := [sh 0 5 2, sh 5 6 2, sh 7 12 (-1), sh 12 13 2, sh 14 18 2, sh 19 21 2, sh 22 35 (-1),
  sh 35 36 2]
def sentences := [Sentence.new 0 4, Sentence.new 4 8]

#guard (doc "" [] (some []) false).toOption.any (fun d => d.text.isEmpty && d.tokens.length == 0 && d.sentences.length == 0)
#guard eqTokens (doc text tokens (some sentences) false) tokens
#guard (doc text tokens (some sentences) false).toOption.any
  (fun d => d.text == text.toList && d.tokens.length == 8 && d.sentences.length == 2)
#guard eqTokens (doc text multiwordTokens none false) (multiwordTokens.take 6 ++
  [mw 22 35 0 "babylon", mw 22 35 1 "digger", tk 35 36])
#guard raisesValue (doc text multiwordTokens.dropLast none false)
#guard (doc text tokens none false).toOption.any (fun d => d.sentences.length == 1)
#guard (bind' (doc text tokens none false) (fun d => d.getSentence 0)).toOption.any
  (fun s => (mapM' id tokens).toOption.any (fun ts => tokensEq s.tokens ts))
#guard raisesValue (doc text (tokens ++ [tk 37 38]) (some sentences) false)
#guard raisesValue (doc text (tokens ++ [tk 21 23]) (some sentences) false)
#guard raisesValue (doc text tokens (some (sentences ++ [Sentence.new 8 9])) false)
#guard raisesValue (doc text tokens (some (sentences ++ [Sentence.new 2 5])) false)
#guard raisesValue (doc text tokens (some (sentences.drop 1)) false)
#guard raisesValue (doc text tokens (some (sentences.take 1)) false)
#guard raisesValue (doc text tokens (some [Sentence.new 0 4, Sentence.new 5 8]) false)
#guard eqTokens (doc text syntaxTokens (some sentences) true) syntaxTokens
#guard raisesValue (doc text syntaxTokens none true)
#guard raisesValue (doc text (syntaxTokens.dropLast ++ [dh 35 36 3]) (some sentences) true)
#guard raisesValue (doc text (syntaxTokens.take 6 ++ [dh 22 35 7, dh 35 36 4]) (some sentences) true)
#guard raisesValue (doc text (syntaxTokens.dropLast ++ [dh 35 36 7]) (some sentences) true)
#guard raisesValue (doc text (syntaxTokens.dropLast ++ [tk 35 36]) (some sentences) true)
#guard raisesValue (doc text (tk 0 5 :: syntaxTokens.drop 1) (some sentences) true)
#guard eqTokens (doc text (syntaxTokens.take 4 ++ tokens.drop 4) (some sentences) true) (syntaxTokens.take 4 ++ tokens.drop 4)
#guard eqDocs (doc text syntaxTokens (some sentences) false) (doc text syntaxSentenceTokens (some sentences) false)
#guard (List.range' 1 6).all (fun i => eqDocs (doc text syntaxTokens (some sentences) false)
  (doc text (syntaxTokens.take i ++ syntaxSentenceTokens.drop i) (some sentences) false))
#guard eqDocs (doc text syntaxTokens (some sentences) false)
  (doc text (syntaxTokens.dropLast ++ [Token.new 35 36 none none none 0 none (some 6) (some 2) none]) (some sentences) false)
#guard raisesValue
  (doc text (syntaxTokens.dropLast ++ [Token.new 35 36 none none none 0 none (some 6) (some 1) none]) (some sentences) false)
#guard raisesValue (bind' (doc text tokens (some sentences) false) (fun d =>
  bind' (mapM' id tokens.dropLast) (fun ts => Document.fromDocument d ts)))
#guard raisesValue (bind' (doc text tokens (some sentences) false) (fun d =>
  bind' (mapM' id (tokens.dropLast ++ [tk 6 7])) (fun ts => Document.fromDocument d ts)))
#guard eqTokens (bind' (doc text tokens (some sentences) false) (fun d =>
    bind' (mapM' id (tokens.drop 1 ++
      [Token.new 0 5 (pos (some "N".toList) none []) (some "lemma".toList) none 0 none none none none]))
      (fun ts => Document.fromDocument d ts)))
  (Token.new 0 5 (pos (some "N".toList) none []) (some "lemma".toList) none 0 none none none none :: tokens.drop 1)

-- NavigableTokenTest
def navDoc : Res Document := doc text tokens (some sentences) false
/-- The index of a neighbour, `some none` for `None`. -/
def neighbour (t : Res NavToken) (f : NavToken → Res (Option NavToken)) : Option (Option Nat) :=
  (bind' t f).toOption.map (fun o => o.map (fun n => n.nav.index))

#guard (bind' navDoc (·.getToken 0)).toOption.any (fun t => t.nav.isFirst && !t.nav.isLast)
#guard neighbour (bind' navDoc (·.getToken 0)) NavToken.previous == some none
#guard neighbour (bind' navDoc (·.getToken 0)) NavToken.next == some (some 1)
#guard (bind' navDoc (·.getToken (-1))).toOption.any (fun t => !t.nav.isFirst && t.nav.isLast)
#guard neighbour (bind' navDoc (·.getToken (-1))) NavToken.previous == some (some 6)
#guard neighbour (bind' navDoc (·.getToken (-1))) NavToken.next == some none
#guard (bind' navDoc (·.getToken 2)).toOption.any (fun t => !t.nav.isFirst && !t.nav.isLast)
#guard neighbour (bind' navDoc (·.getToken 1)) NavToken.next == some (some 2)
#guard neighbour (bind' navDoc (·.getToken 3)) NavToken.previous == some (some 2)
#guard navDoc.toOption.map (fun d => d.tokens.map (fun t => String.ofList (tokText d.text t))) ==
  some ["Hello", ",", "world", "!", "This", "is", "babylondigger", "!"]
#guard (doc text multiwordTokens none false).toOption.map
    (fun d => d.tokens.map (fun t => String.ofList (tokText d.text t))) ==
  some ["Hello", ",", "world", "!", "This", "is", "babylon", "digger", "!"]

-- NavigableSentenceTest
/-- The index of a neighbour, `some none` for `None`. -/
def neighbourS (s : Res NavSentence) (f : NavSentence → Res (Option NavSentence)) : Option (Option Nat) :=
  (bind' s f).toOption.map (fun o => o.map (fun n => n.nav.index))

#guard (bind' navDoc (·.getSentence 0)).toOption.any (fun s => s.nav.isFirst && !s.nav.isLast)
#guard (bind' navDoc (·.getSentence (-1))).toOption.any (fun s => !s.nav.isFirst && s.nav.isLast)
#guard neighbourS (bind' navDoc (·.getSentence 0)) NavSentence.previous == some none
#guard neighbourS (bind' navDoc (·.getSentence 0)) NavSentence.next == some (some 1)
#guard neighbourS (bind' navDoc (·.getSentence (-1))) NavSentence.previous == some (some 0)
#guard neighbourS (bind' navDoc (·.getSentence (-1))) NavSentence.next == some none
#guard (bind' navDoc (fun d => mapM' (fun i => bind' (d.getSentence i) (·.text)) [0, 1])).toOption.map
    (List.map String.ofList) == some ["Hello, world!", "This is babylondigger!"]
#guard (bind' navDoc (·.getSentence 1)).toOption.any
  (fun s => s.tokens.length == 4 && (mapM' id (tokens.drop 4)).toOption.any (fun ts => tokensEq s.tokens ts))
#guard (bind' navDoc (·.getSentence 1)).toOption.map
    (fun s => s.tokens.map (fun t => String.ofList (tokText s.doc.text t))) == some ["This", "is", "babylondigger", "!"]
#guard (bind' (bind' navDoc (·.getSentence 0)) (·.getToken (-1))).toOption.any (fun t => t.nav.isLast)
#guard (bind' (bind' navDoc (·.getSentence 1)) (·.getToken 0)).toOption.any (fun t => t.nav.isFirst)

/-! ### tests/test_lemma.py -/

def rule (w l : String) : LemmaRule := { wordSuffix := w.toList, lemmaSuffix := l.toList, exc := false }
def getRule (w l : String) : LemmaRule := LemmaRule.getRule w.toList l.toList
/-- Both suffixes of a rule. -/
def suffixes (r : LemmaRule) : String × String := (String.ofList r.wordSuffix, String.ofList r.lemmaSuffix)

#guard (rule "ого" "").isApplicable "столичного".toList
#guard (rule "" "").isApplicable ",".toList
#guard (rule "" "").isApplicable "столичного".toList
#guard !(rule "ого" "").isApplicable ",".toList
#guard !(rule "гого" "").isApplicable ",".toList
#guard !(rule "гого" "").isApplicable "столичного".toList
#guard suffixes (getRule "хлібові" "хліб") == ("ові", "")
#guard suffixes (getRule "другого" "другий") == ("ого", "ий")
#guard suffixes (getRule "." ".") == ("", "")
#guard suffixes (getRule "його" "його") == ("", "")
#guard suffixes (getRule "єсть" "бути") == ("єсть", "бути")
#guard suffixes (getRule "сцен" "сцена") == ("", "а")

def trie : Trie := Trie.build [(getRule "хлібові" "хліб", 0), (getRule "другого" "другий", 1), (getRule "." ".", 2),
  (getRule "єсть" "бути", 3), (getRule "сцен" "сцена", 4)]
/-- The ids of the rules offered for a word; they determine the entries. -/
def offered (w : String) : List Nat := (trie.getApplicableRules w.toList).map Prod.snd

#guard offered "його" == [2, 4, 1]
#guard offered "єсть" == [2, 4, 3]
#guard offered "атласі" == [2, 4]
#guard offered "." == [2, 4]

/-! ### tests/evaluation/test_dataset.py -/

#guard decide (shuffledIter (fun k => 7 * k + 3) 100 ([] : List Nat) = .ok [])
#guard decide (shuffledIterNth (fun k => 11 * k) (fun s k => 13 * k + s) 100 (List.range 300) 0 ≠
  shuffledIterNth (fun k => 11 * k) (fun s k => 13 * k + s) 100 (List.range 300) 1)

/-! ### tests/evaluation/test_evaluation.py -/

def goldData : List Document := ((doc "Hello, world!" [
    Token.new 0 5 (pos (some "INTJ".toList) none []) (some "hello".toList) none 0 none none none none,
    Token.new 5 6 (pos (some "PUNCT".toList) none []) (some ",".toList) none 0 none none none none,
    Token.new 7 12 (pos (some "N".toList) none [("Number".toList, "Singular".toList)]) (some "world".toList) none 0 none
      none none none,
    Token.new 12 13 (pos (some "PUNCT".toList) none []) (some "!".toList) none 0 none none none none] none
    false).toOption).toList

/-- `_Tagger_Mock(upos)`. -/
def taggerMock (upos : String) (docs : List Document) : Res (List Document) :=
  mapM' (fun d => bind' (mapM' (fun t => Token.withMorphology t (pos (some upos.toList) none [])
    (some (tokText d.text t))) d.tokens) (fun ts => Document.fromDocument d ts)) docs

/-- `str.lower` on the letters that occur in the tests. -/
def lowerAscii (s : Str) : Str := s.map Char.toLower

/-- `(precision, recall, f1)` of a metric. -/
def prf (t : Res ScoreTable) (metric : String) : Option (Rat × Rat × Rat) :=
  (t.toOption.bind (fun t => t.get? metric.toList)).map (fun s => (s.precision, s.recall, s.f1))

def rightAnswer : Res ScoreTable := testDataSet lowerAscii defaultCols 1000 goldData (fun _ => .ok goldData)
def halfOfAnswers : Res ScoreTable := testDataSet lowerAscii defaultCols 1000 goldData (taggerMock "PUNCT")

#guard rightAnswer.toOption.any (fun t => t.entries.length == 11 &&
  t.entries.all (fun e => e.2.precision == 1 && e.2.recall == 1 && e.2.f1 == 1))
#guard prf halfOfAnswers "UPOS" == some (1 / 2, 1 / 2, 1 / 2)
#guard prf halfOfAnswers "Feats" == some (3 / 4, 3 / 4, 3 / 4)
#guard prf halfOfAnswers "Lemmas" == some (3 / 4, 3 / 4, 3 / 4)

-- ScoreComparatorTest
def sc (f1 : Rat) : Score := { (Score.new 1 1 1 none) with f1 := f1 }
def table (a b c : Rat) : Option ScoreTable :=
  some (Dict.ofList [("metric1".toList, sc a), ("metric2".toList, sc b), ("metric3".toList, sc c)])

#guard decide (scoreBetter ["metric1".toList] "f1".toList (table 1 (1/2) (7/10)) (table (9/10) (6/10) (1/2)) = .ok true)
#guard decide (scoreBetter ["metric1".toList] "f1".toList (table 1 (1/2) (7/10)) (table 1 (6/10) (7/10)) = .ok false)
#guard decide (scoreBetter ["metric1".toList, "metric2".toList] "f1".toList (table 1 (1/2) (7/10))
  (table (9/10) (6/10) (1/2)) = .ok false)
#guard decide (scoreBetter ["metric1".toList, "metric2".toList] "f1".toList (table 1 (6/10) (7/10))
  (table 1 (1/2) (7/10)) = .ok true)

-- ParameterEstimatorTest calls `ParametersEstimator` with other arguments than it has; the scores it is about are:
#guard prf (testDataSet lowerAscii defaultCols 1000 goldData (taggerMock "N")) "UPOS" == some (1 / 4, 1 / 4, 1 / 4)
#guard prf (testDataSet lowerAscii defaultCols 1000 goldData (taggerMock "INTJ")) "UPOS" == some (1 / 4, 1 / 4, 1 / 4)

/-! ### tests/evaluation/test_grid_eval.py -/

def o (l : List (String × Json)) : Json := .obj (l.map (fun e => (e.1.toList, e.2)))
def a (s : String) : Json := .atom s.toList
def es (l : List (String × Json)) : List (Str × Json) := l.map (fun e => (e.1.toList, e.2))
def gridOf (l : List (String × List (List (String × Json)))) : List (Str × List (List (Str × Json))) :=
  l.map (fun e => (e.1.toList, e.2.map es))

def optim (key value : String) : List (String × Json) :=
  [("nn_config", o [("general", o [("optimizer", o [(key, a value)])])])]
def lemmaShared (v : String) : String × Json := ("lemma", o [("config", o [("shared_name", a v)])])
def skip (v : String) : List (String × Json) :=
  [("nn_config", o [("shared_part", o [("config", o [("skip_connection", a v)])])]),
    lemmaShared "bilstm_and_word_features"]
def cell (v : String) : List (String × Json) :=
  [("nn_config", o [("shared_part", o [("config", o [("lstm_cell_size", a v)])])])]

def hyper1 : List (String × Json) := [("epochs", a "130"), ("batch_size", a "8")] ++ optim "type" "RMSProp" ++
  [("shared_part", o [("config", o [("char_cnn_kernels", a "[{size: 3, count: 100, dilation: 1}]")])])]
def hyper2 : List (String × Json) := optim "initial_lr" "0.007"
def toMerge2 : List (String × Json) := [("nn_config", o [("general", o [("type", a "RMSProp")])])]
def toMerge4 : List (String × Json) :=
  [("nn_config", o [("shared_part", o [("config", o [("char_cnn_kernels", o [("size", a "3")])])])])]

/-- `merge(hyper, grid)` on freshly built dictionaries. -/
def merge (hyper grid : List (String × Json)) : Res (List Json) := gridParams 100 [("g".toList, [o grid])] (o hyper)

#guard raisesValue (merge [] (optim "type" "RMSProp"))
#guard raisesValue (merge [] (optim "undefined_key" "RMSProp"))
example : merge hyper1 [] = .ok [o hyper1] := by rfl
example : merge [] [] = .ok [o []] := by rfl
example : merge hyper1 hyper1 = .ok [o hyper1] := by rfl
#guard raisesValue (merge hyper1 (optim "undefined_key" "RMSProp"))
#guard raisesValue (merge hyper2 (optim "type" "RMSProp"))
#guard raisesValue (merge hyper1 toMerge2)
#guard raisesValue (merge hyper2 (optim "undefined_key" "RMSProp"))
#guard raisesValue (merge hyper2 toMerge2)
#guard raisesValue (merge hyper1 toMerge4)
#guard raisesValue (checkGrid (gridOf [("param1", [[("epochs", a "100")], [("batch_size", a "8")]]),
  ("param2", [optim "type" "RMSProp"])]))
#guard raisesValue (checkGrid (gridOf [("param1", [[("epochs", a "100")]]), ("param2", [optim "type" "GD"]),
  ("param3", [optim "type" "RMSProp"])]))
#guard decide (checkGrid (gridOf [("param1", [[("epochs", a "100")]]), ("param2", [optim "type" "RMSProp"])]) = .ok ())
-- test_another_valid_grid expects acceptance; the code looks at the first key of each dictionary only and refuses.
#guard raisesValue (checkGrid (gridOf [("1", [[("nn_config", o [lemmaShared "bilstm"])], skip "sum", skip "concat"]),
  ("2", [cell "100", cell "200"])]))
-- test_grid_has_intersections2 expects ValueError; the code does not see the second key and accepts.
#guard decide (checkGrid (gridOf [("1", [skip "sum", skip "concat"]),
  ("2", [[("nn_config", o [lemmaShared "bilstm"])], [("nn_config", o [lemmaShared "bilstm_and_word_features"])]])]) =
    .ok ())
#guard decide (keyPath (es (optim "type" "RMSProp")) = some (["nn_config", "general", "optimizer", "type"].map String.toList))
#guard decide (keyPath (es [("epochs", a "100")]) = some ["epochs".toList])

/-! ### conll17_ud_eval.py:521-569 `TestAlignment` -/

/-- conll17_ud_eval.py:523-537 `_load_words`: the lines and the number of words so far. -/
def loadLines : List (List String) → Nat → List Str
  | [], _ => []
  | [w] :: ws, n =>
    (natStr (n + 1) ++ '\t' :: w.toList ++ "\t_\t_\t_\t_\t".toList ++ natStr (if 1 < n + 1 then 1 else 0) ++
      "\t_\t_\t_".toList) :: loadLines ws (n + 1)
  | (w :: parts) :: ws, n =>
    ((natStr (n + 1) ++ '-' :: natStr (n + parts.length) ++ '\t' :: w.toList ++ "\t_\t_\t_\t_\t_\t_\t_\t_".toList) ::
      (parts.zipIdx.map (fun p => natStr (n + p.2 + 1) ++ '\t' :: p.1.toList ++ "\t_\t_\t_\t_\t".toList ++
        natStr (if 1 < n + p.2 + 1 then 1 else 0) ++ "\t_\t_\t_".toList))) ++ loadLines ws (n + parts.length)
  | [] :: ws, n => loadLines ws n

def loadWords (ws : List (List String)) : Res UD := loadConllu 1000 (joinWith '\n' (loadLines ws 0 ++ [['\n']]))

def wordsOf (gold sys : List (List String)) : Res Metrics :=
  bind' (loadWords gold) (fun g => bind' (loadWords sys) (fun s => evaluate lowerAscii g s none))

def countWords (ws : List (List String)) : Nat := (ws.map (fun w => max 1 (w.length - 1))).sum

/-- `_test_ok`. -/
def alignOk (gold sys : List (List String)) (correct : Rat) : Bool :=
  (wordsOf gold sys).toOption.any (fun m => decide ((m.words.precision, m.words.recall, m.words.f1) =
    (correct / countWords sys, correct / countWords gold, 2 * correct / (countWords gold + countWords sys))))

#guard decide ((wordsOf [["a"]] [["b"]]).toOption.isNone)
#guard match wordsOf [["a"]] [["b"]] with | .error .udError => true | _ => false
#guard alignOk [["a"]] [["a"]] 1
#guard alignOk [["a"], ["b"], ["c"]] [["a"], ["b"], ["c"]] 3
#guard alignOk [["abc", "a", "b", "c"]] [["a"], ["b"], ["c"]] 3
#guard alignOk [["a"], ["bc", "b", "c"], ["d"]] [["a"], ["b"], ["c"], ["d"]] 4
#guard alignOk [["abcd", "a", "b", "c", "d"]] [["ab", "a", "b"], ["cd", "c", "d"]] 4
#guard alignOk [["abc", "a", "b", "c"], ["de", "d", "e"]] [["a"], ["bcd", "b", "c", "d"], ["e"]] 5
#guard alignOk [["abcd"]] [["a"], ["b"], ["c"], ["d"]] 0
#guard alignOk [["abc"], ["d"]] [["a"], ["b"], ["c"], ["d"]] 1
#guard alignOk [["a"], ["bc"], ["d"]] [["a"], ["b"], ["c"], ["d"]] 2
#guard alignOk [["a"], ["bc", "b", "c"], ["d"]] [["a"], ["b"], ["cd"]] 2
#guard alignOk [["abc", "a", "BX", "c"], ["def", "d", "EX", "f"]] [["ab", "a", "b"], ["cd", "c", "d"], ["ef", "e", "f"]] 4
#guard alignOk [["ab", "a", "b"], ["cd", "bc", "d"]] [["a"], ["bc"], ["d"]] 2
#guard alignOk [["a"], ["bc", "b", "c"], ["d"]] [["ab", "AX", "BX"], ["cd", "CX", "a"]] 1

end Verif.Conformance
