import Verif.Model.EvalRun

/-!
# Model of the evaluation run with taggers that are read from the disk when they are used

The neural trainer stores the model of an epoch and yields a `LazyNeuralTagger`, which knows the directory only and reads it
whenever it tags (neural_tagger.py:34-40, 63-71, 122-123).  Here the model directory has contents, and the final test gets what
is there at the time.  The dev tester gets the model right after it was stored (neural_tagger.py:122-126), so that the scores of a
round are those of the model it stores.  What is printed and written for the user is Model/EvalRun.lean.
Two trainings of a run may have equal seeds, and need not have equal results then (Model/SharedData.lean).  So that they can be told
apart, seeds are given as labels here; `name` is the text of a seed, which is the name of its directory (evaluation.py:118).
-/

namespace Verif

/-- What is stored in which directory. -/
abbrev Store (μ : Type) := List Str → Option μ

/-- neural_tagger.py:34-40 `NeuralTagger.save`: the files are written anew. -/
def Store.save {μ : Type} (d : Store μ) (path : List Str) (m : μ) : Store μ := fun q => if q = path then some m else d q

/-- evaluation.py:294-295 `rmtree`: everything below is removed. -/
def Store.remove {μ : Type} (d : Store μ) (path : List Str) : Store μ := fun q => if path <+: q then none else d q

/-- evaluation.py:294-297 `disposable_callback`. -/
def RunArgs.lazyDispose {π μ : Type} (a : RunArgs π μ) (d : Store μ) (path : Option (List Str)) : Store μ :=
  match path with
  | none => d
  | some p => if a.deleteAfter then d.remove (a.modelDir ++ p) else d

/-- evaluation.py:133-141, 195-200: a candidate is compared with the best one so far. -/
def RunArgs.lazyChoose {π μ κ : Type} (a : RunArgs π μ) (path : List Str) (st : Pick κ) (cand : κ) (scores : Option ScoreTable)
    (d : Store μ) : Res (Pick κ × Store μ) :=
  match isBetter (scoreBetter a.cmpFields a.cmpMetric) scores st.scores with
  | .error e => .error e
  | .ok true => .ok (⟨st.index + 1, some cand, scores, some path⟩, a.lazyDispose d st.path)
  | .ok false => .ok ({ st with index := st.index + 1 }, a.lazyDispose d (some path))

/-- neural_tagger.py:122-134, evaluation.py:126-141: an epoch stores its model and yields a tagger for the directory. -/
def RunArgs.lazyEpoch {π μ : Type} (a : RunArgs π μ) (base : List Str) (s : Pick (List Str) × Store μ) (r : Round μ) :
    Res (Pick (List Str) × Store μ) :=
  match r.outcome with
  | .error e => .error e
  | .ok item =>
    match printMetrics a.printFields item.1 with
    | .error e => .error e
    | .ok _ => a.lazyChoose (base ++ [epochName s.1.index]) s.1 (a.modelDir ++ (base ++ [epochName s.1.index])) item.1
        (s.2.save (a.modelDir ++ (base ++ [epochName s.1.index])) item.2)

/-- evaluation.py:116-150: the selected tagger of a seed with its scores. -/
def RunArgs.lazySingle {π μ : Type} (a : RunArgs π μ) (name : Str → Str) (train : Str → π → List (Round μ)) (params : π) (path : List Str) (d : Store μ)
    (seed : Str) : Res ((Option (List Str) × Option ScoreTable) × Store μ) :=
  match forM' (a.lazyEpoch (path ++ [name seed])) ({}, d) (train seed params) with
  | .error e => .error e
  | .ok (st, d) =>
    match printMetrics a.printFields st.scores with
    | .error e => .error e
    | .ok _ => .ok ((st.best, st.scores), d)

/-- evaluation.py:162-165: the seeds in order. -/
def RunArgs.lazySeeds {π μ : Type} (a : RunArgs π μ) (name : Str → Str) (train : Str → π → List (Round μ)) (params : π) (path : List Str) :
    Store μ → List Str → Res (List (Option (List Str) × Option ScoreTable) × Store μ)
  | d, [] => .ok ([], d)
  | d, s :: ss =>
    match a.lazySingle name train params path d s with
    | .error e => .error e
    | .ok (r, d) =>
      match a.lazySeeds name train params path d ss with
      | .error e => .error e
      | .ok (rs, d) => .ok (r :: rs, d)

/-- evaluation.py:159-176, 300-309: one seed, or the average over several seeds. -/
def RunArgs.lazyEvaluate {π μ : Type} (a : RunArgs π μ) (name : Str → Str) (train : Str → π → List (Round μ)) (params : π) (path : List Str)
    (d : Store μ) : Res ((List (Option (List Str)) × Option ScoreTable) × Store μ) :=
  match a.seeds with
  | .one seed =>
    match a.lazySingle name train params path d seed with
    | .error e => .error e
    | .ok (r, d) => .ok (([r.1], r.2), d)
  | .many seeds =>
    match a.lazySeeds name train params path d seeds with
    | .error e => .error e
    | .ok (rs, d) =>
      match averageScores a.printFields (rs.map Prod.snd) with
      | .error e => .error e
      | .ok avg =>
        match printMetrics a.printFields (some avg) with
        | .error e => .error e
        | .ok _ => .ok ((rs.map Prod.fst, some avg), d)

/-- evaluation.py:190-200: one set of parameters. -/
def RunArgs.lazyParams {π μ : Type} (a : RunArgs π μ) (name : Str → Str) (train : Str → π → List (Round μ))
    (s : Pick (π × List (Option (List Str))) × Store μ) (params : π) : Res (Pick (π × List (Option (List Str))) × Store μ) :=
  match a.lazyEvaluate name train params [paramsName s.1.index] s.2 with
  | .error e => .error e
  | .ok (r, d) => a.lazyChoose [paramsName s.1.index] s.1 (params, r.1) r.2 d

/-- neural_tagger.py:68-71, 42-47: a tagger reads its directory and is tested.  `gone` is the exception if there is nothing
there, a `FileNotFoundError`. -/
def lazyLoad {μ : Type} (gone : Err) (test : Option μ → Bool × Res ScoreTable) (d : Store μ) : Option (List Str) → Res ScoreTable
  | none => (test none).2
  | some path =>
    match d path with
    | none => .error gone
    | some m => (test (some m)).2

/-- evaluation.py:149-150, 175-176, 276-281: the final test. -/
def RunArgs.lazyTest {π μ : Type} (a : RunArgs π μ) (gone : Err) (test : Option μ → Bool × Res ScoreTable) (d : Store μ) :
    Option (π × List (Option (List Str))) → Res ScoreTable
  | none => .error .type
  | some best =>
    match a.seeds with
    | .one _ =>
      match best.2 with
      | m :: _ => lazyLoad gone test d m
      | [] => .error .type
    | .many _ =>
      match mapM' (lazyLoad gone test d) best.2 with
      | .error e => .error e
      | .ok ts => averageScores a.printFields (ts.map some)

/-- evaluation.py:276-281: the test scores, if there is a test set. -/
def RunArgs.lazyScores {π μ : Type} (a : RunArgs π μ) (gone : Err) (d : Store μ) (best : Option (π × List (Option (List Str)))) :
    Res (Option ScoreTable) :=
  match a.test with
  | none => .ok none
  | some test =>
    match a.lazyTest gone test d best with
    | .error e => .error e
    | .ok t =>
      match printMetrics a.printFields (some t) with
      | .error e => .error e
      | .ok _ => .ok (some t)

/-- evaluation.py:253-284 `main`; `disk` are the files and directories before the run, `d` the models among them.  The report, and
the models that are there after the run. -/
def RunArgs.lazyRun {π μ : Type} (a : RunArgs π μ) (name : Str → Str) (gone : Err) (disk : List (List Str)) (d : Store μ) :
    Res (Final π × Store μ) :=
  if a.deleteAfter && hasContent disk a.modelDir then .error .value
  else match a.trainer with
    | none => .error .notImplemented
    | some train =>
      match forM' (a.lazyParams name train) ({}, d) (hyperList a.hyperparams) with
      | .error e => .error e
      | .ok (st, d) =>
        match printMetrics a.printFields st.scores with
        | .error e => .error e
        | .ok _ =>
          match a.lazyScores gone d st.best with
          | .error e => .error e
          | .ok t => .ok (⟨st.best.map Prod.fst, st.scores, t⟩, if a.deleteAfter then d.remove a.modelDir else d)

/-- evaluation.py:253-284 `main`: the report. -/
def RunArgs.lazyMain {π μ : Type} (a : RunArgs π μ) (name : Str → Str) (gone : Err) (disk : List (List Str)) (d : Store μ) :
    Res (Final π) :=
  match a.lazyRun name gone disk d with
  | .error e => .error e
  | .ok r => .ok r.1

end Verif
