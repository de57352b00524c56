import Mathlib.Probability.Independence.Integration
import Verif.Tf.Index

/-! # Independent standardized draws -/

namespace T3f

open MeasureTheory ProbabilityTheory

/-- `z ω k idx` is the draw for position `idx` of core `k`: independent random variables with mean zero and variance one. -/
structure StandardDraws {Ω : Type} [MeasurableSpace Ω] (μ : Measure Ω) (z : Ω → ℕ → List ℕ → ℝ) : Prop where
  meas : ∀ k idx, Measurable fun ω => z ω k idx
  indep : iIndepFun (fun (q : ℕ × List ℕ) ω => z ω q.1 q.2) μ
  memLp : ∀ k idx, MemLp (fun ω => z ω k idx) 2 μ
  mean : ∀ k idx, ∫ ω, z ω k idx ∂μ = 0
  var : ∀ k idx, ∫ ω, z ω k idx ^ 2 ∂μ = 1

/-- The entries of a random tensor of shape `s` are square integrable, have mean zero and variance `v`, and
are pairwise uncorrelated. -/
def WhiteNoise {Ω : Type} [MeasurableSpace Ω] (μ : Measure Ω) (F : Ω → List ℕ → ℝ) (s : List ℕ) (v : ℝ) : Prop :=
  ∀ i, Valid s i → MemLp (fun ω => F ω i) 2 μ ∧ ∫ ω, F ω i ∂μ = 0 ∧
    ∀ j, Valid s j → ∫ ω, F ω i * F ω j ∂μ = if i = j then v else 0

end T3f
