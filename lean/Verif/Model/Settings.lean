import Verif.Model.EvalRun

/-!
# Model of the program with incomplete settings, evaluation.py:253-324

Model/EvalRun.lean assumes that the settings have all keys.  Here every key may be missing.  Simplification: the values
that are there have the documented types; a section that is missing and a section without the key are not
distinguished, because both are a `KeyError` at the same place.
-/

namespace Verif

/-- The settings file, method and hyperparameters.  `trainPath` says whether `train_set.path` is there, `dev` is `none`
if `dev_set.path` is missing, and holds the results path otherwise.  `test` is `none` if there is no section `test_set`,
`some none` if it has no path. -/
structure RawArgs (π τ : Type) where
  deleteAfter : Bool
  modelDir : Option (List Str)
  seeds : Option Seeds
  printFields : Option (List Str)
  cmpFields : Option (List Str)
  cmpMetric : Option Str
  trainPath : Bool
  dev : Option (Option (List Str))
  test : Option (Option (Option (List Str) × (Option τ → Bool × Res ScoreTable)))
  trainer : Option (Str → π → List (Round τ))
  hyperparams : π ⊕ List π

/-- `settings[key]`. -/
def needKey {α : Type} : Option α → Tr α
  | some a => .pure a
  | none => .lift (.error .key)

/-- evaluation.py:254-256: the check of the model directory, only with `--delete_after`. -/
def RawArgs.checkDir {π τ : Type} (a : RawArgs π τ) (disk : List (List Str)) : Tr Unit :=
  if a.deleteAfter then (needKey a.modelDir).bind (fun dir =>
    if hasContent disk dir then .lift (.error .value) else .pure ())
  else .pure ()

/-- evaluation.py:287-309 `__build_estimator` and 258-263: the settings that are needed before the search; those for the
test set are not read yet. -/
def RawArgs.prepare {π τ : Type} (a : RawArgs π τ) : Tr (RunArgs π τ) :=
  (needKey a.printFields).bind (fun printFields =>
    (match a.trainer with
      | some t => Tr.pure t
      | none => .lift (.error .notImplemented)).bind (fun trainer =>
    (needKey a.cmpFields).bind (fun cmpFields =>
      (needKey a.cmpMetric).bind (fun cmpMetric =>
        (needKey (if a.trainPath then some () else none)).bind (fun _ =>
          (needKey a.dev).bind (fun dev =>
            (needKey a.modelDir).bind (fun modelDir =>
              (needKey a.seeds).bind (fun seeds =>
                .pure ⟨modelDir, a.deleteAfter, seeds, printFields, cmpFields, cmpMetric, dev, some trainer, none, none,
                  a.hyperparams⟩))))))))

/-- evaluation.py:268: the search. -/
def RunArgs.search {π τ : Type} (a : RunArgs π τ) : Tr (Pick (π × List (List Str × Option τ))) :=
  match a.trainer with
  | none => .lift (.error .notImplemented)
  | some train => Tr.loop (a.paramsStep train) {} (hyperList a.hyperparams)

/-- evaluation.py:276-277: the tester of the test set is made after the search. -/
def RawArgs.withTest {π τ : Type} (a : RawArgs π τ) (r : RunArgs π τ) : Tr (RunArgs π τ) :=
  match a.test with
  | none => .pure r
  | some t => (needKey t).bind (fun t => .pure { r with testResults := t.1, test := some t.2 })

/-- evaluation.py:253-284 `main`. -/
def RawArgs.main {π τ : Type} (a : RawArgs π τ) (disk : List (List Str)) : Tr (Final π) :=
  (a.checkDir disk).bind (fun _ =>
    a.prepare.bind (fun r =>
      r.search.bind (fun st =>
        (Tr.lift (printMetrics r.printFields st.scores)).bind (fun _ =>
          (a.withTest r).bind (fun r' =>
            (r'.testScores st.best).bind (fun t =>
              (if a.deleteAfter then Tr.tell [.remove r.modelDir] else .pure ()).bind (fun _ =>
                .pure ⟨st.best.map Prod.fst, st.scores, t⟩)))))))

end Verif
