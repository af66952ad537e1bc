import Verif.Model.Feeding

/-! # Vocabulary for a whole training run -/

namespace Verif

/-- The optimiser turns parameters `m` into `m'` by going through the steps once, with one learning rate. -/
inductive Optimised {μ : Type} (opt : μ → Features × Features → Rat → Res (μ × Rat)) (lr : Rat) :
    μ → List (Features × Features) → μ → Prop
  | nil (m : μ) : Optimised opt lr m [] m
  | cons {m m1 m2 : μ} {step : Features × Features} {steps : List (Features × Features)} {loss : Rat} :
      opt m step lr = .ok (m1, loss) → Optimised opt lr m1 steps m2 → Optimised opt lr m (step :: steps) m2

/-- Settings with which no learning rate is divided by zero. -/
structure TrainCfg.Divides (cfg : TrainCfg) : Prop where
  decay : ∀ n : Nat, n < cfg.epochs → 1 + cfg.decay * n ≠ 0
  factor : cfg.factor ≠ 0

end Verif
