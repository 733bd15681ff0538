import Verif.Model.Fit

/-! # Specification: arrays without zeros -/

namespace Spec
open BL
variable {K : Type} [Field K] [LinearOrder K] {d : ℕ} {gs : Fin d → ℕ}

/-- priors that exclude no parameter value -/
def FullPrior : PriorSpec K gs → Prop
  | .none => True
  | .array (some v) => ∀ x, 0 < v x
  | .func v => ∀ x, 0 < v x
  | .funcConst c => 0 < c
  | .rvs n ok v => n = d ∧ ok = true ∧ ∀ x, 0 < v x
  | _ => False

mutual
/-- Well-formed models of all kinds except NotEqual (which is undefined for a flat distribution, property C18); the kernel of an alpha-stable walk is non-negative and positive
at zero; the spline shift used by Deterministic keeps positive arrays positive. -/
def Spreading (E : Env K gs) : TM K → Prop
  | .leaf .static _ _ _ => True
  | .leaf (.grw target) _ vs _ => (∃ a, E.axis target = .ok a) ∧ ∃ σ, vs = [.scalar σ]
  | .leaf (.alphaStable target) _ vs _ => (d = 1 ∨ (d = 2 ∧ ∀ b, gs b % 2 = 0)) ∧ ∃ a c α, E.axis target = .ok a ∧ vs = [.scalar c, .scalar α] ∧
      (∀ k, 0 ≤ E.ext.stableKer (c / E.lattice a) α k) ∧ 0 < E.ext.stableKer (c / E.lattice a) α 0
  | .leaf .changePoint _ vs _ => ∃ v, vs = [.scalar v]
  | .leaf .independent _ _ _ => True
  | .leaf .regimeSwitch _ vs _ => ∃ v, vs = [.scalar v]
  | .leaf .notEqual _ _ _ => False
  | .leaf (.deterministic _ target) _ vs _ => (∃ a, E.axis target = .ok a ∧ ∀ s p, (∀ x, 0 < p x) → ∀ x, 0 < E.ext.shift a s p x) ∧ ∀ v ∈ vs, ∃ c, v = .scalar c
  | .leaf .bivariate _ vs _ => d = 2 ∧ ∃ s1 s2 ρ, 0 < s1 ∧ 0 < s2 ∧ ρ * ρ < 1 ∧ vs = [.scalar s1, .scalar s2, .scalar ρ]
  | .leaf .breakPoint _ _ _ => False
  | .combined ms => SpreadingAll E ms
  | .serial _ vs _ _ ms => (∀ v ∈ vs, ∃ c, v = .scalar c) ∧ ms.length = vs.length + 1 ∧ SpreadingAll E ms
/-- all sub-models -/
def SpreadingAll (E : Env K gs) : List (TM K) → Prop
  | [] => True
  | m :: ms => Spreading E m ∧ SpreadingAll E ms
end

end Spec
