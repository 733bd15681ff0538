import Mathlib.Analysis.SpecialFunctions.Log.Basic

/-! # Accuracy of numbers computed in log-space -/

namespace Spec

/-- A computed number `b` approximates `a ≥ 0`: both are zero, or their logarithms differ by at most `η` (a relative error of about `η`). -/
def ValApprox (η a b : ℝ) : Prop := (b = 0 ∧ a = 0) ∨ (0 < b ∧ 0 < a ∧ |Real.log b - Real.log a| ≤ η)

/-- A computed log-space number approximates the logarithm of `e ≥ 0`: it is `-inf` (`none`) if `e = 0`, else its error is at most `η`. -/
def EvApprox (η e : ℝ) (l : Option ℝ) : Prop := (l = none ∧ e = 0) ∨ ∃ A, l = some A ∧ 0 < e ∧ |A - Real.log e| ≤ η

/-- Error of a sum of `n` terms in log-space: `η` is the accuracy of the single results, `κ` the accuracy of the arithmetic, `M` a bound of the logarithms. -/
noncomputable def logAcc (κ η M : ℝ) (n : ℕ) : ℝ := 3 * η + (2 * n + 10) * κ * M

/-- Relative error of a sum of `N` exponentials of numbers with error `a`; `τ` is the error of results that underflow. -/
noncomputable def sumAcc (κ τ a : ℝ) (N : ℕ) : ℝ := a + 12 * N * τ + 2 * κ * N

/-- Relative error of exponentials divided by their sum. -/
noncomputable def quotAcc (κ τ a : ℝ) (N : ℕ) : ℝ := 2 * κ + a + sumAcc κ τ a N

/-- Relative error of a mean value over `N` grid points, if the distribution has the relative error `r`. -/
noncomputable def meanAcc (κ : ℝ) (N : ℕ) (r : ℝ) : ℝ := r + (1 + N) * κ / (1 - (1 + N) * κ) * (1 + r)

/-- `b` approximates `a ≥ 0` with relative error `exp Ω - 1` (about `Ω`) and absolute error `θ`. -/
def Off (Ω θ a b : ℝ) : Prop := |b - a| ≤ (Real.exp Ω - 1) * a + θ

end Spec
