import Mathlib.Probability.Distributions.Gaussian.Real

/-! # Specification: probability densities -/

open MeasureTheory

namespace Spec

/-- a probability density on a space with a measure -/
structure IsDensity {Ω : Type} [MeasureSpace Ω] (f : Ω → ℝ) : Prop where
  nonneg : ∀ x, 0 ≤ f x
  integrable : Integrable f
  total : ∫ x, f x = 1

/-- density of the normal distribution with mean `μ` and standard deviation `σ` -/
noncomputable def normalDensity (μ σ x : ℝ) : ℝ := 1 / (σ * Real.sqrt (2 * Real.pi)) * Real.exp (-(x - μ) ^ 2 / (2 * σ ^ 2))

/-- density of the Laplace distribution with mean `μ` and scale `b` -/
noncomputable def laplaceDensity (μ b x : ℝ) : ℝ := 1 / (2 * b) * Real.exp (-(|x - μ| / b))

/-- probability of `k` events for a rate `r` -/
noncomputable def poissonMass (r : ℝ) (k : ℕ) : ℝ := Real.exp (-r) * r ^ k / (k.factorial : ℝ)

end Spec
