import Mathlib.Probability.Independence.Basic
import Mathlib.Analysis.SpecialFunctions.Log.Basic
import Mathlib.MeasureTheory.Integral.Bochner.Basic

/-! # Independent observations, and which of two descriptions of them is better (C96, C107) -/

open MeasureTheory ProbabilityTheory

namespace Spec

/-- `X 0, X 1, …` are independent random variables with the given distribution -/
structure IID {Ω Y : Type} [MeasurableSpace Ω] [MeasurableSpace Y] (P : Measure Ω) (X : ℕ → Ω → Y) (law : Measure Y) : Prop where
  measurable : ∀ i, Measurable (X i)
  indep : iIndepFun X P
  law : ∀ i, P.map (X i) = law

/-- The density `f` describes observations with distribution `μ` worse than the density `g`: it excludes some of them, or the logarithm of the likelihood ratio is negative on average. -/
def Worse {Y : Type} [MeasurableSpace Y] (μ : Measure Y) (f g : Y → ℝ) : Prop :=
  μ {y | f y = 0} ≠ 0 ∨ (Integrable (fun y => Real.log (f y / g y)) μ ∧ ∫ y, Real.log (f y / g y) ∂μ < 0)

/-- The density `f` does not describe observations with distribution `μ` better than the density `g`: it excludes some of them, or the logarithm of the likelihood ratio is not positive on average. -/
def NotBetter {Y : Type} [MeasurableSpace Y] (μ : Measure Y) (f g : Y → ℝ) : Prop :=
  μ {y | f y = 0} ≠ 0 ∨ (Integrable (fun y => Real.log (f y / g y)) μ ∧ ∫ y, Real.log (f y / g y) ∂μ ≤ 0)

end Spec
