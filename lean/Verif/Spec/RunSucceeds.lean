import Verif.Spec.EvalRun

/-! # Vocabulary for evaluation runs that end with a report -/

namespace Verif

/-- A table of scores that a tester returns: the evaluation script has compared two treebanks. -/
def FromTester (t : ScoreTable) : Prop :=
  ∃ lower gold sys m, evaluate lower gold sys none = .ok m ∧ t = m.table

/-- The metrics that a tester reports. -/
def reported : List Str := ["Tokens", "Sentences", "Words", "UPOS", "XPOS", "Feats", "AllTags", "Lemmas", "UAS", "LAS",
  "CLAS"].map String.toList

/-- The metrics that have an aligned accuracy. -/
def withAccuracy : List Str := ["UPOS", "XPOS", "Feats", "AllTags", "Lemmas", "UAS", "LAS", "CLAS"].map String.toList

/-- Everything the program calls succeeds: there is a trainer, for each seed and parameter set it yields at least one
tagger, never raises, and the testers report on each tagger; there are parameters and seeds; the directory for the models is
acceptable. -/
structure RunArgs.Works {π τ : Type} (a : RunArgs π τ) (disk : List (List Str)) (train : Str → π → List (Round τ)) :
    Prop where
  trainer : a.trainer = some train
  folder : a.deleteAfter = true → ∀ p ∈ disk, a.modelDir <+: p → p = a.modelDir
  params : hyperList a.hyperparams ≠ []
  seeds : a.seeds.list ≠ []
  epochs : ∀ s ∈ a.seeds.list, ∀ p ∈ hyperList a.hyperparams, train s p ≠ []
  yields : ∀ s ∈ a.seeds.list, ∀ p ∈ hyperList a.hyperparams, ∀ r ∈ train s p,
    ∃ t tagger, r.outcome = .ok (some t, tagger) ∧ FromTester t
  tests : ∀ test, a.test = some test → ∀ tagger, ∃ t, (test tagger).2 = .ok t ∧ FromTester t

/-- The settings name metrics that are reported, each one is printed once, and the number compared exists. -/
structure RunArgs.Named {π τ : Type} (a : RunArgs π τ) : Prop where
  printed : ∀ f ∈ a.printFields, f ∈ reported
  once : a.printFields.Nodup
  compared : (∀ f ∈ a.cmpFields, f ∈ reported) ∧ a.cmpMetric ∈ ["precision", "recall", "f1"].map String.toList ∨
    (∀ f ∈ a.cmpFields, f ∈ withAccuracy) ∧ a.cmpMetric = "aligned_accuracy".toList

end Verif
