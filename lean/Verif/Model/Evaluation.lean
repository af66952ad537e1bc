import Verif.Model.ConlluIO
import Verif.Model.UdEval

/-!
# Model of evaluation/evaluation.py

Printing is modelled only as far as it can raise.  Paths are lists of names (the code joins them
with `os.path.join`; the names used here contain no separator).  Names of models and the seed are
assumed to contain no braces (`str.format` is applied to the joined path, evaluation.py:121, 137).
-/

namespace Verif

/-- What `conll17.evaluate` returns: a dictionary from metric names to scores. -/
abbrev ScoreTable := Dict Str Score

/-- conll17_ud_eval.py:426-442: the names of the metrics. -/
def Metrics.table (m : Metrics) : ScoreTable :=
  Dict.ofList ([("Tokens".toList, m.tokens), ("Sentences".toList, m.sentences),
    ("Words".toList, m.words), ("UPOS".toList, m.upos), ("XPOS".toList, m.xpos),
    ("Feats".toList, m.feats), ("AllTags".toList, m.allTags), ("Lemmas".toList, m.lemmas),
    ("UAS".toList, m.uas), ("LAS".toList, m.las), ("CLAS".toList, m.clas)] ++
    m.weighted.toList.map (fun s => ("WeightedLAS".toList, s)))

/-! ### Tester -/

/-- evaluation.py:62: `Token.with_syntax(Token.with_morphology(token))`. -/
def clearToken (t : Token) : Res Token :=
  match t.withMorphology none none with
  | .error e => .error e
  | .ok t' => t'.withSyntax none none none

/-- evaluation.py:61-63 `__clear_document`. -/
def clearDocument (d : Document) : Res Document :=
  match mapM' clearToken d.tokens with
  | .error e => .error e
  | .ok tokens => d.fromDocument tokens

/-- evaluation.py:60-65 `__prepare_test_data`; a `map` object is modelled by the list of its values
or the first exception. -/
def prepareTestData (docs : List Document) : Res (List Document) := mapM' clearDocument docs

/-- evaluation.py:54-58 `_convert_to_internal`: written with all columns and loaded by the
evaluation script.  `_save_and_read` (45-52) does the same through a file. -/
def convertToInternal (cols : Cols) (depth : Nat) (docs : List Document) : Res UD :=
  match writeToStr cols docs with
  | .error e => .error e
  | .ok text => loadConllu depth text

/-- evaluation.py:37-43 `TaggerTester.test`: `gold` are the documents of `_gold_data()`, `internal`
is the result of `_gold_data_internal()`.  The predictions are computed before the gold data are
loaded. -/
def testTagger (lower : Str → Str) (cols : Cols) (depth : Nat) (gold : List Document)
    (internal : Res UD) (tag : List Document → Res (List Document)) : Res ScoreTable :=
  match prepareTestData gold with
  | .error e => .error e
  | .ok testData =>
    match tag testData with
    | .error e => .error e
    | .ok predicted =>
      match convertToInternal cols depth predicted with
      | .error e => .error e
      | .ok system =>
        match internal with
        | .error e => .error e
        | .ok goldUd =>
          match evaluate lower goldUd system none with
          | .error e => .error e
          | .ok m => .ok m.table

/-- evaluation.py:68-77 `DataSetTaggerTester`: the gold data are converted like the predictions. -/
def testDataSet (lower : Str → Str) (cols : Cols) (depth : Nat) (gold : List Document)
    (tag : List Document → Res (List Document)) : Res ScoreTable :=
  testTagger lower cols depth gold (convertToInternal cols depth gold) tag

/-- dataset.py:10-16 `CoNLLUDataSet` with its default reader `CoNLLUReader(1)`: one document per sentence.
Simplification: all documents are read before the first one is used, so an exception of the reader comes
first (the code reads, tags and writes in turns). -/
def dataSetDocs (text : Str) : Res (List Document) :=
  match readFromStr 1 defaultCols text with
  | .error e => .error e
  | .ok (_, some e) => .error e
  | .ok (docs, none) => .ok docs

/-- evaluation.py:80-90 `FileTaggerTester`: the gold file, given by its content, is read as documents for
the tagger and loaded by the evaluation script as it is. -/
def testFile (lower : Str → Str) (depth : Nat) (text : Str) (tag : List Document → Res (List Document)) :
    Res ScoreTable :=
  match dataSetDocs text with
  | .error e => .error e
  | .ok docs => testTagger lower defaultCols depth docs (loadConllu depth text) tag

/-! ### Comparing, printing and averaging scores -/

/-- `getattr(score, metric)` on a `Score` (conll17_ud_eval.py:245-250) or `Scores`
(evaluation.py:232). -/
def scoreAttr (metric : Str) (s : Score) : Res (Option Rat) :=
  if metric = "precision".toList then .ok (some s.precision)
  else if metric = "recall".toList then .ok (some s.recall)
  else if metric = "f1".toList then .ok (some s.f1)
  else if metric = "aligned_accuracy".toList then .ok s.aligned
  else .error .attribute

/-- evaluation.py:206-207: one summand; `None` has no attributes and cannot be added. -/
def scoreAdd (metric : Str) (t : ScoreTable) (acc : Rat) (field : Str) : Res Rat :=
  match t.get? field with
  | none => .error .attribute
  | some s =>
    match scoreAttr metric s with
    | .error e => .error e
    | .ok none => .error .type
    | .ok (some v) => .ok (acc + v)

/-- evaluation.py:206-207 `__sum`; `None.get` is an `AttributeError`. -/
def scoreSum (fields : List Str) (metric : Str) : Option ScoreTable → Res Rat
  | none => if fields.isEmpty then .ok 0 else .error .attribute
  | some t => forM' (scoreAdd metric t) 0 fields

/-- evaluation.py:204-212 `score_comparator`, with the extractor of 291. -/
def scoreBetter (fields : List Str) (metric : Str) (new old : Option ScoreTable) : Res Bool :=
  match scoreSum fields metric new with
  | .error e => .error e
  | .ok a =>
    match scoreSum fields metric old with
    | .error e => .error e
    | .ok b => .ok (decide (b < a))

/-- evaluation.py:219-226: printing one metric. -/
def printMetric (scores : Option ScoreTable) (_ : Unit) (metric : Str) : Res Unit :=
  match scores with
  | none => .error .type
  | some t =>
    match t.getItem metric with
    | .error e => .error e
    | .ok _ => .ok ()

/-- evaluation.py:215-228 `get_metrics_printer`. -/
def printMetrics (metrics : List Str) (scores : Option ScoreTable) : Res Unit :=
  forM' (printMetric scores) () metrics

/-- evaluation.py:235: `defaultdict(int)`, a sum is present once something was added. -/
structure Sums where
  precision : Option Rat := none
  recall : Option Rat := none
  f1 : Option Rat := none
  aligned : Option Rat := none
  deriving DecidableEq

/-- evaluation.py:238-242. -/
def Sums.add (s : Sums) (x : Score) : Sums :=
  { precision := some (s.precision.getD 0 + x.precision)
    recall := some (s.recall.getD 0 + x.recall)
    f1 := some (s.f1.getD 0 + x.f1)
    aligned := match x.aligned with
      | none => s.aligned
      | some a => some (s.aligned.getD 0 + a) }

/-- evaluation.py:237-242: one metric of one score table. -/
def addMetric (score : Option ScoreTable) (sums : Dict Str Sums) (metric : Str) :
    Res (Dict Str Sums) :=
  match sums.getItem metric with
  | .error e => .error e
  | .ok s =>
    match score with
    | none => .error .type
    | some t =>
      match t.getItem metric with
      | .error e => .error e
      | .ok x => .ok (sums.set metric (s.add x))

/-- evaluation.py:236-242: one score table. -/
def addScores (metrics : List Str) (sums : Dict Str Sums) (score : Option ScoreTable) :
    Res (Dict Str Sums) := forM' (addMetric score) sums metrics

/-- evaluation.py:244: `_Scores(**{key: value / n ...})`; a missing argument is a `TypeError`. -/
def meanScore (n : Nat) (s : Sums) : Res Score :=
  match s.precision, s.recall, s.f1, s.aligned with
  | some p, some r, some f, some a => .ok ⟨p / n, r / n, f / n, some (a / n)⟩
  | _, _, _, _ => .error .type

/-- evaluation.py:244-245: one entry of the result. -/
def meanEntry (n : Nat) (sums : Dict Str Sums) (metric : Str) : Res (Str × Score) :=
  match sums.getItem metric with
  | .error e => .error e
  | .ok s =>
    match meanScore n s with
    | .error e => .error e
    | .ok m => .ok (metric, m)

/-- evaluation.py:231-247 `get_metrics_averager`. -/
def averageScores (metrics : List Str) (scores : List (Option ScoreTable)) : Res ScoreTable :=
  match forM' (addScores metrics) (Dict.ofList (metrics.map (fun m => (m, {})))) scores with
  | .error e => .error e
  | .ok sums =>
    match mapM' (meanEntry scores.length sums) metrics with
    | .error e => .error e
    | .ok l => .ok (Dict.ofList l)

/-! ### Selecting the best model -/

/-- Changes of the directory with the models: a trainer saves a model, the disposal callback removes
a directory. -/
inductive Ev where
  | save (path : List Str)
  | remove (path : List Str)
  deriving DecidableEq

/-- evaluation.py:95-96 `_is_better`. -/
def isBetter (better : Option ScoreTable → Option ScoreTable → Res Bool)
    (scores best : Option ScoreTable) : Res Bool :=
  match best with
  | none => .ok true
  | some b => better scores (some b)

/-- The variables of evaluation.py:124-125, 189 and the changes made so far. -/
structure Sel (τ : Type) where
  index : Nat := 0
  best : Option τ := none
  scores : Option ScoreTable := none
  path : Option (List Str) := none
  events : List Ev := []
  deriving DecidableEq

/-- evaluation.py:133-141, 195-200: one candidate has been evaluated. -/
def Sel.step {τ : Type} (better : Option ScoreTable → Option ScoreTable → Res Bool)
    (pathOf : Nat → List Str) (st : Sel τ) (cand : τ) (scores : Option ScoreTable)
    (done : List Ev) : Res (Sel τ) :=
  match isBetter better scores st.scores with
  | .error e => .error e
  | .ok true => .ok
      { index := st.index + 1
        best := some cand
        scores := scores
        path := some (pathOf st.index)
        events := st.events ++ done ++ st.path.toList.map Ev.remove }
  | .ok false => .ok
      { st with
        index := st.index + 1
        events := st.events ++ done ++ [.remove (pathOf st.index)] }

/-- evaluation.py:120-121, 137: `epoch-{}`. -/
def epochName (n : Nat) : Str := "epoch-".toList ++ natStr n

/-- evaluation.py:193: `params-{}`. -/
def paramsName (n : Nat) : Str := "params-".toList ++ natStr n

/-- evaluation.py:126-141: one epoch.  The trainer has saved the model before it yields
(neural_tagger.py:122-123). -/
def epochStep {τ : Type} (printer : Option ScoreTable → Res Unit)
    (better : Option ScoreTable → Option ScoreTable → Res Bool) (base : List Str) (st : Sel τ)
    (item : Option ScoreTable × τ) : Res (Sel τ) :=
  match printer item.1 with
  | .error e => .error e
  | .ok () => st.step better (fun i => base ++ [epochName i]) item.2 item.1
      [.save (base ++ [epochName st.index])]

/-- What an evaluator returns (the tagger stands for the function that tests it), and what it did to
the model directory. -/
abbrev EvalRes (μ : Type) := Res (μ × Option ScoreTable × List Ev)

/-- evaluation.py:116-150 `SingleSeedEvaluator.evaluate`: `items` are the values the trainer yields,
`failure` is the exception that ends its iteration, if any. -/
def singleEvaluate {τ : Type} (printer : Option ScoreTable → Res Unit)
    (better : Option ScoreTable → Option ScoreTable → Res Bool) (seed : Str) (path : List Str)
    (items : List (Option ScoreTable × τ)) (failure : Option Err) : EvalRes (Option τ) :=
  match forM' (epochStep printer better (path ++ [seed])) {} items with
  | .error e => .error e
  | .ok st =>
    match failure with
    | some e => .error e
    | none =>
      match printer st.scores with
      | .error e => .error e
      | .ok () => .ok (st.best, st.scores, st.events)

/-- evaluation.py:159-176 `AverageEvaluator.evaluate`; `evaluators` are the calls
`evaluator.evaluate(trainer, params, model_path)`. -/
def averageEvaluate {μ : Type} (averager : List (Option ScoreTable) → Res ScoreTable)
    (printer : Option ScoreTable → Res Unit) (evaluators : List (EvalRes μ)) :
    EvalRes (List μ) :=
  match mapM' id evaluators with
  | .error e => .error e
  | .ok rs =>
    match averager (rs.map (fun r => r.2.1)) with
    | .error e => .error e
    | .ok avg =>
      match printer (some avg) with
      | .error e => .error e
      | .ok () => .ok (rs.map Prod.fst, some avg, (rs.map (fun r => r.2.2)).flatten)

/-- evaluation.py:190-200: one parameter set. -/
def searchStep {π μ : Type} (better : Option ScoreTable → Option ScoreTable → Res Bool)
    (evaluator : π → List Str → EvalRes μ) (st : Sel (π × μ)) (params : π) : Res (Sel (π × μ)) :=
  match evaluator params [paramsName st.index] with
  | .error e => .error e
  | .ok r => st.step better (fun i => [paramsName i]) (params, r.1) r.2.1 r.2.2

/-- evaluation.py:188-201 `ParametersEstimator.params_search`. -/
def paramsSearch {π μ : Type} (better : Option ScoreTable → Option ScoreTable → Res Bool)
    (evaluator : π → List Str → EvalRes μ) (params : List π) : Res (Sel (π × μ)) :=
  forM' (searchStep better evaluator) {} params

/-- evaluation.py:301-307: the setting `random_seed` is one seed or a list of seeds, written here as
the strings `str(seed)`. -/
inductive Seeds where
  | one (seed : Str)
  | many (seeds : List Str)

/-- evaluation.py:287-309 `__build_estimator`: the evaluator; `train seed params` is what the trainer
yields for that seed and how it ends. -/
def buildEvaluator {π τ : Type} (printer : Option ScoreTable → Res Unit)
    (better : Option ScoreTable → Option ScoreTable → Res Bool)
    (averager : List (Option ScoreTable) → Res ScoreTable)
    (train : Str → π → List (Option ScoreTable × τ) × Option Err) :
    Seeds → π → List Str → EvalRes (List (Option τ))
  | .one seed, params, path =>
    match singleEvaluate printer better seed path (train seed params).1 (train seed params).2 with
    | .error e => .error e
    | .ok r => .ok ([r.1], r.2)
  | .many seeds, params, path =>
    averageEvaluate averager printer (seeds.map (fun seed =>
      singleEvaluate printer better seed path (train seed params).1 (train seed params).2))

end Verif
