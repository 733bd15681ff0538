import Verif.Spec.Jeffreys
import Verif.Model.SymJeffreys
import Mathlib.Analysis.Calculus.FDeriv.Basic

/-! # Specification: Jeffreys prior of a distribution given by SymPy -/

open MeasureTheory

namespace Spec
open BL

/-- The sum over all integers, or the integral over all real numbers, from `lo` to `hi` exists and is `v`. -/
def TotalIs (discrete : Bool) (lo hi : EReal) (g : ℝ → ℝ) (v : ℝ) : Prop :=
  match discrete with
  | true => HasSum (fun k : {k : ℤ // lo ≤ ((k : ℝ) : EReal) ∧ ((k : ℝ) : EReal) ≤ hi} => g (k : ℤ)) v
  | false => IntegrableOn g {x : ℝ | lo ≤ (x : EReal) ∧ (x : EReal) ≤ hi} ∧ ∫ x in {x : ℝ | lo ≤ (x : EReal) ∧ (x : EReal) ≤ hi}, g x = v

/-- `P` holds for all possible observations: all integers, or almost all real numbers, from `lo` to `hi` -/
def Almost (discrete : Bool) (lo hi : EReal) (P : ℝ → Prop) : Prop :=
  match discrete with
  | true => ∀ k : ℤ, lo ≤ ((k : ℝ) : EReal) → ((k : ℝ) : EReal) ≤ hi → P k
  | false => ∀ᵐ x : ℝ, lo ≤ (x : EReal) → (x : EReal) ≤ hi → P x

variable {k : ℕ}

/-- derivative of the logarithm of the probability (density) `f` of the observation `x` with respect to parameter `i` -/
noncomputable def scoreAt (f : (Fin k → ℝ) → ℝ → ℝ) (v : Fin k → ℝ) (i : Fin k) (x : ℝ) : ℝ :=
  deriv (fun s => Real.log (f (Function.update v i s) x)) (v i)

/-- `I` is the Fisher information matrix of the distribution at the parameter values `v`. -/
def FisherInfo (L : SymLaw k) (v : Fin k → ℝ) (I : Matrix (Fin k) (Fin k) ℝ) : Prop :=
  ∀ i j, TotalIs L.iterable (L.inf v) (L.sup v)
    (fun x => scoreAt (fun v x => L.density x v) v i x * scoreAt (fun v x => L.density x v) v j x * L.density x v) (I i j)

/-- the names of the parameters are different from each other, and none of them is the name which SymPy uses for the observation -/
def ProperNames (L : SymLaw k) : Prop := Function.Injective L.free ∧ ∀ i, L.free i ≠ "x"

/-- probabilities of possible observations are not negative -/
def ProperDensity (L : SymLaw k) (v : Fin k → ℝ) : Prop :=
  Almost L.iterable (L.inf v) (L.sup v) fun x => 0 ≤ L.density x v

end Spec
