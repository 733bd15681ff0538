import Verif.Spec.Density
import Verif.Model.Parser
import Mathlib.LinearAlgebra.Matrix.Determinant.Basic

/-! # Specification: Fisher information and Jeffreys prior -/

open MeasureTheory

namespace Spec
open BL

/-- `g` is integrable and its integral is `v` -/
def IntegralIs {Ω : Type} [MeasureSpace Ω] (g : Ω → ℝ) (v : ℝ) : Prop := Integrable g ∧ ∫ x, g x = v

/-- the sum of all values of `g` is `v` -/
def SumIs {Ω : Type} (g : Ω → ℝ) (v : ℝ) : Prop := HasSum g v

/-- derivative of the logarithm of the probability (density) `f` of the observation `x` with respect to parameter `j` -/
noncomputable def score {Ω : Type} (f : (ℕ → ℝ) → Ω → ℝ) (θ : ℕ → ℝ) (j : ℕ) (x : Ω) : ℝ := deriv (fun s => Real.log (f (Function.update θ j s) x)) (θ j)

/-- `I` is the Fisher information matrix of the first `k` parameters: the expectation values of the products of scores.  `T g v`: the sum or integral of `g` exists and is `v`. -/
def IsFisher {Ω : Type} (T : (Ω → ℝ) → ℝ → Prop) (f : (ℕ → ℝ) → Ω → ℝ) (k : ℕ) (θ : ℕ → ℝ) (I : Matrix (Fin k) (Fin k) ℝ) : Prop :=
  ∀ i j : Fin k, T (fun x => score f θ i x * score f θ j x * f θ x) (I i j)

/-- `prior` is a constant multiple of the root of the determinant of the Fisher information, for all parameter values with property `P`. -/
def IsJeffreys {Ω : Type} (T : (Ω → ℝ) → ℝ → Prop) (f : (ℕ → ℝ) → Ω → ℝ) (k : ℕ) (P : (ℕ → ℝ) → Prop) (prior : (ℕ → ℝ) → FV ℝ) : Prop :=
  ∃ c > 0, ∀ θ, P θ → ∃ I : Matrix (Fin k) (Fin k) ℝ, IsFisher T f k θ I ∧ 0 < I.det ∧ prior θ = .fin (c * Real.sqrt I.det)

end Spec
