import Verif.Model.SharedData

/-!
# What differs from one call of the program to the next

Everything that is neither a setting nor the content of a file: the clock, and the numbers of the generator of the process, which
nobody seeds (builder.py:188).  Simplifications: TensorFlow computes the same whenever its seed is the same (network.py:132); the
numbers of `Random(seed)` depend on the seed only.
-/

namespace Verif

/-- A call of the program: `int(time.time())` when the data set is made (dataset.py:26-27), and the results of `random.random()`
(builder.py:188): `draw n e o k i` is the `i`-th number for feature `k` of token `o` in epoch `e` of the training that starts when
the data set has been iterated over `n` times. -/
structure World where
  now : Int
  draw : Nat → Nat → Obj → Str → Nat → Rat

/-- dataset.py:20: the arguments of `ShuffledDataset`, the setting `shuffler`. -/
structure ShuffleCfg where
  seed : Option Int := none
  maxBatchSize : Int := 50

/-- dataset.py:23-28: the seed. -/
def ShuffleCfg.seedIn (c : ShuffleCfg) (now : Int) : Int :=
  match c.seed with
  | some s => s
  | none => now

/-- The settings, the hyperparameters and what the program does with them: the documents of the training file, the providers, how
the builders use the data set (`pos`, `builds`), the rate of sparsification, and the network for a seed.  The trainer in `args` is
not used. -/
structure Experiment (π F μ τ : Type) where
  args : RunArgs π τ
  docs : List Document
  shuffler : Option ShuffleCfg
  lower : Str → Str
  float : Str → Res F
  zero : F
  other : TextToken
  providers : π → List Provider
  pos : π → LeafSpec → Nat
  builds : π → Nat
  rate : π → Rat
  build : Str → π → Dict Str Shape → Dict Str (InitRows F) → Res μ
  opt : Str → π → μ → Features × Features → Rat → Res (μ × Rat)
  cfg : π → TrainCfg
  dir : Str → π → List Str
  dev : Str → π → Seen → Option (Nat → List Str × μ → Res ScoreTable)
  tagger : Str → π → List Str × μ → τ
  written : Bool

section
variable {π F μ τ : Type} (gen : Int → Nat → Nat)

/-- evaluation.py:318-324, dataset.py:15-16, 30-45: what the data set gives when it is iterated over for the `k`-th time.
`gen seed` are the numbers of `Random(seed)`. -/
def Experiment.pass (x : Experiment π F μ τ) (w : World) (k : Nat) : Res (List Document) :=
  match x.shuffler with
  | none => .ok x.docs
  | some c => shuffledIterNth (gen (c.seedIn w.now)) (fun s => gen (s : Int)) c.maxBatchSize x.docs k

/-- builder.py:174-192: sparsification in a training. -/
def Experiment.sparsify (x : Experiment π F μ τ) (w : World) (n : Nat) (p : π) (e : Nat) : Sparsify :=
  fun o k f => (sparseRate (w.draw n e o k) (x.rate p) f 0).map Prod.fst

/-- neural_tagger.py:92-138: the training that starts when the data set has been iterated over `n` times.  Iterating raises
either every time or never (`pass_fails`); if it does, nothing is stored.  (Simplification: a training that never iterates over
the data set, without epochs and without tables, would not notice.) -/
def Experiment.rounds (x : Experiment π F μ τ) (w : World) (n : Nat) (s : Str) (p : π) : List (Round τ) :=
  match x.pass gen w 0 with
  | .error e => [⟨false, false, .error e⟩]
  | .ok _ => roundsOf (x.tagger s p) x.written
      (neuralAt x.lower x.float x.zero x.other (x.sparsify w n p) (x.providers p)
        (fun k => (x.pass gen w k).toOption.getD []) (x.pos p) (x.builds p) (x.build s p) (x.opt s p) (x.cfg p) (x.dir s p)
        (x.dev s p) n)

/-- evaluation.py:253-284: the program. -/
def Experiment.run (x : Experiment π F μ τ) (w : World) (disk : List (List Str)) : Tr (Final (π × Nat)) :=
  (x.args.shared (fun p => x.builds p + (x.cfg p).epochs.toNat) (x.rounds gen w)).main disk

end

end Verif
