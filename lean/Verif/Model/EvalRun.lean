import Verif.Model.Evaluation

/-!
# Model of the evaluation run with its effects on the disk, evaluation.py:99-201, 253-324

The evaluators of Model/Evaluation.lean are repeated here so that what has been written and removed is
known when an exception ends the run, too; `--delete_after`, the prediction files of the testers and the
final test are added.  Paths are lists of names (the settings contain no `..` and the seeds no `/`).
Simplifications: the settings have all keys; `rmtree` removes everything below its argument and is never
refused; whatever is written to the model directory belongs to the model of an epoch; printing and the
formatting of numbers are left out.
-/

namespace Verif

/-- A computation that writes and removes files: what it has done, then its value or its exception. -/
structure Tr (α : Type) where
  events : List Ev
  value : Res α

/-- No effect. -/
def Tr.pure {α : Type} (a : α) : Tr α := ⟨[], .ok a⟩

/-- An exception, or a value, without effect. -/
def Tr.lift {α : Type} (r : Res α) : Tr α := ⟨[], r⟩

/-- Only effects. -/
def Tr.tell (evs : List Ev) : Tr Unit := ⟨evs, .ok ()⟩

/-- One after the other; an exception ends the run. -/
def Tr.bind {α β : Type} (x : Tr α) (f : α → Tr β) : Tr β :=
  match x.value with
  | .error e => ⟨x.events, .error e⟩
  | .ok a => ⟨x.events ++ (f a).events, (f a).value⟩

/-- A loop with a state. -/
def Tr.loop {σ α : Type} (f : σ → α → Tr σ) : σ → List α → Tr σ
  | s, [] => .pure s
  | s, a :: as => (f s a).bind (fun s' => Tr.loop f s' as)

/-- The calls in order, with their values. -/
def Tr.mapM {α β : Type} (f : α → Tr β) : List α → Tr (List β)
  | [] => .pure []
  | a :: as => (f a).bind (fun b => (Tr.mapM f as).bind (fun bs => .pure (b :: bs)))

/-- One round of a trainer (neural_tagger.py:77-87, 108-138): whether it stores the model, whether the
dev tester gets to write the predictions, and what it yields or raises.  A trainer that raises at its
end has a last round with neither. -/
structure Round (τ : Type) where
  saved : Bool
  written : Bool
  outcome : Res (Option ScoreTable × τ)

/-- evaluation.py:327-332: the arguments of the program with the settings that are read.  `trainer` is
`None` for an unknown method; `test` is the tester of the test set, which gets the selected tagger and
says whether it wrote the predictions. -/
structure RunArgs (π τ : Type) where
  modelDir : List Str
  deleteAfter : Bool
  seeds : Seeds
  printFields : List Str
  cmpFields : List Str
  cmpMetric : Str
  devResults : Option (List Str)
  trainer : Option (Str → π → List (Round τ))
  testResults : Option (List Str)
  test : Option (Option τ → Bool × Res ScoreTable)
  hyperparams : π ⊕ List π

/-- evaluation.py:294-297 `disposable_callback`. -/
def RunArgs.dispose {π τ : Type} (a : RunArgs π τ) (paths : List (List Str)) : Tr Unit :=
  if a.deleteAfter then .tell (paths.map (fun p => .remove (a.modelDir ++ p))) else .pure ()

/-- evaluation.py:124-125, 189: the variables of a search. -/
structure Pick (τ : Type) where
  index : Nat := 0
  best : Option τ := none
  scores : Option ScoreTable := none
  path : Option (List Str) := none

/-- evaluation.py:133-141, 195-200. -/
def RunArgs.choose {π τ μ : Type} (a : RunArgs π τ) (pathOf : Nat → List Str) (st : Pick μ) (cand : μ)
    (scores : Option ScoreTable) : Tr (Pick μ) :=
  (Tr.lift (isBetter (scoreBetter a.cmpFields a.cmpMetric) scores st.scores)).bind (fun b =>
    if b then (a.dispose st.path.toList).bind (fun _ =>
      .pure ⟨st.index + 1, some cand, scores, some (pathOf st.index)⟩)
    else (a.dispose [pathOf st.index]).bind (fun _ => .pure { st with index := st.index + 1 }))

/-- evaluation.py:122, 46: the file with the predictions of an epoch. -/
def epochDevName (n : Nat) : Str := epochName n ++ "-dev.conll".toList

/-- evaluation.py:46-49: a file is written if there is a directory for it. -/
def writeFile (results : Option (List Str)) (did : Bool) (path : List Str) : Tr Unit :=
  .tell (if did then results.toList.map (fun r => .save (r ++ path)) else [])

/-- A candidate is made, then compared with the best one so far. -/
def RunArgs.tryOne {π τ μ α : Type} (a : RunArgs π τ) (pathOf : Nat → List Str)
    (make : Nat → α → Tr (μ × Option ScoreTable)) (st : Pick μ) (x : α) : Tr (Pick μ) :=
  (make st.index x).bind (fun y => a.choose pathOf st y.1 y.2)

/-- evaluation.py:126-132: the trainer yields, the scores are printed. -/
def RunArgs.round {π τ : Type} (a : RunArgs π τ) (base : List Str) (n : Nat) (r : Round τ) :
    Tr (τ × Option ScoreTable) :=
  (Tr.tell (if r.saved then [.save (a.modelDir ++ base ++ [epochName n])] else [])).bind (fun _ =>
    (writeFile a.devResults r.written (base ++ [epochDevName n])).bind (fun _ =>
      (Tr.lift r.outcome).bind (fun item =>
        (Tr.lift (printMetrics a.printFields item.1)).bind (fun _ => .pure (item.2, item.1)))))

/-- evaluation.py:126-141: one epoch. -/
def RunArgs.epoch {π τ : Type} (a : RunArgs π τ) (base : List Str) : Pick τ → Round τ → Tr (Pick τ) :=
  a.tryOne (fun i => base ++ [epochName i]) (a.round base)

/-- evaluation.py:149-150: the function that tests the selected tagger of a seed. -/
def RunArgs.testOne {π τ : Type} (a : RunArgs π τ) (base : List Str) (tagger : Option τ)
    (test : Option τ → Bool × Res ScoreTable) : Tr ScoreTable :=
  (writeFile a.testResults (test tagger).1 (base ++ ["best-test.conll".toList])).bind (fun _ =>
    Tr.lift (test tagger).2)

/-- evaluation.py:116-150: the selected tagger of a seed, with the place of its files, and its scores. -/
def RunArgs.single {π τ : Type} (a : RunArgs π τ) (train : Str → π → List (Round τ)) (params : π)
    (path : List Str) (seed : Str) : Tr ((List Str × Option τ) × Option ScoreTable) :=
  (Tr.loop (a.epoch (path ++ [seed])) {} (train seed params)).bind (fun st =>
    (Tr.lift (printMetrics a.printFields st.scores)).bind (fun _ =>
      .pure ((path ++ [seed], st.best), st.scores)))

/-- evaluation.py:159-176, 300-309: one seed, or the average over several seeds. -/
def RunArgs.evaluateParams {π τ : Type} (a : RunArgs π τ) (train : Str → π → List (Round τ)) (params : π)
    (path : List Str) : Tr (List (List Str × Option τ) × Option ScoreTable) :=
  match a.seeds with
  | .one seed => (a.single train params path seed).bind (fun r => .pure ([r.1], r.2))
  | .many seeds =>
    (Tr.mapM (a.single train params path) seeds).bind (fun rs =>
      (Tr.lift (averageScores a.printFields (rs.map Prod.snd))).bind (fun avg =>
        (Tr.lift (printMetrics a.printFields (some avg))).bind (fun _ =>
          .pure (rs.map Prod.fst, some avg))))

/-- evaluation.py:190-194: one parameter set is evaluated. -/
def RunArgs.candidate {π τ : Type} (a : RunArgs π τ) (train : Str → π → List (Round τ)) (n : Nat)
    (params : π) : Tr ((π × List (List Str × Option τ)) × Option ScoreTable) :=
  (a.evaluateParams train params [paramsName n]).bind (fun r => .pure ((params, r.1), r.2))

/-- evaluation.py:190-200. -/
def RunArgs.paramsStep {π τ : Type} (a : RunArgs π τ) (train : Str → π → List (Round τ)) :
    Pick (π × List (List Str × Option τ)) → π → Tr (Pick (π × List (List Str × Option τ))) :=
  a.tryOne (fun i => [paramsName i]) (a.candidate train)

/-- evaluation.py:149-150, 175-176: what the selected function does with the tester. -/
def RunArgs.finalTest {π τ : Type} (a : RunArgs π τ) (test : Option τ → Bool × Res ScoreTable) :
    Option (π × List (List Str × Option τ)) → Tr ScoreTable
  | none => .lift (.error .type)
  | some best =>
    match a.seeds with
    | .one _ =>
      match best.2 with
      | m :: _ => a.testOne m.1 m.2 test
      | [] => .lift (.error .type)
    | .many _ =>
      (Tr.mapM (fun m : List Str × Option τ => a.testOne m.1 m.2 test) best.2).bind (fun ts =>
        .lift (averageScores a.printFields (ts.map some)))

/-- evaluation.py:270-281: what is printed at the end. -/
structure Final (π : Type) where
  params : Option π
  dev : Option ScoreTable
  test : Option ScoreTable

/-- evaluation.py:276-281: the test scores, if there is a test set. -/
def RunArgs.testScores {π τ : Type} (a : RunArgs π τ) (best : Option (π × List (List Str × Option τ))) :
    Tr (Option ScoreTable) :=
  match a.test with
  | none => .pure none
  | some test => (a.finalTest test best).bind (fun t =>
      (Tr.lift (printMetrics a.printFields (some t))).bind (fun _ => .pure (some t)))

/-- evaluation.py:254: the model directory exists and contains something. -/
def hasContent (disk : List (List Str)) (dir : List Str) : Bool :=
  disk.any (fun p => dir.isPrefixOf p && decide (dir ≠ p))

/-- evaluation.py:264-266. -/
def hyperList {π : Type} : π ⊕ List π → List π
  | .inl p => [p]
  | .inr ps => ps

/-- evaluation.py:253-284 `main`; `disk` are the files and directories before the run. -/
def RunArgs.main {π τ : Type} (a : RunArgs π τ) (disk : List (List Str)) : Tr (Final π) :=
  if a.deleteAfter && hasContent disk a.modelDir then .lift (.error .value)
  else match a.trainer with
    | none => .lift (.error .notImplemented)
    | some train =>
      (Tr.loop (a.paramsStep train) {} (hyperList a.hyperparams)).bind (fun st =>
        (Tr.lift (printMetrics a.printFields st.scores)).bind (fun _ =>
          (a.testScores st.best).bind (fun t =>
            (if a.deleteAfter then Tr.tell [.remove a.modelDir] else .pure ()).bind (fun _ =>
              .pure ⟨st.best.map Prod.fst, st.scores, t⟩))))

end Verif
