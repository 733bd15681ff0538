import Verif.Spec.Fragment

/-! # Specification: probabilities of data sets -/

namespace Spec
open BL
variable {K : Type} [Field K] [LinearOrder K] {d : ℕ} {gs : Fin d → ℕ} {X : Type}

/-- a probability distribution on the parameter grid -/
structure IsDist (p : Idx gs → K) : Prop where
  nonneg : ∀ x, 0 ≤ p x
  sum_one : ∑ x, p x = 1

/-- An observation model on a finite set of possible observations: probability of an observation, given the earlier observations and the parameters. -/
structure Normalised [Fintype X] (lik : List X → X → Idx gs → K) : Prop where
  nonneg : ∀ h x θ, 0 ≤ lik h x θ
  total : ∀ h θ, ∑ x, lik h x θ = 1

/-- likelihoods of a sequence of observations that follows the observations `h` -/
def likelihoods (lik : List X → X → Idx gs → K) : List X → List X → List (Idx gs → K)
  | _, [] => []
  | h, x :: xs => lik h x :: likelihoods lik (h ++ [x]) xs

/-- The external functions: filter weights are a symmetric distribution, the kernels of the bivariate walk are non-negative and positive at zero. -/
structure ProperExt (Z : Ext K gs) : Prop where
  gauss : GaussOK Z
  biv_nonneg : ∀ a b c k l, 0 ≤ Z.bivKer a b c k l
  biv_pos : ∀ a b c, 0 < a → 0 < b → c * c < 1 → 0 < Z.bivKer a b c 0 0

/-- priors from which a distribution for resets can be determined -/
def ProperPrior : PriorSpec K gs → Prop
  | .none => True
  | .array (some v) => (∀ x, 0 ≤ v x) ∧ 0 < ∑ x, v x
  | .func v => (∀ x, 0 ≤ v x) ∧ 0 < ∑ x, v x
  | .rvs _ _ _ => True
  | _ => False

mutual
/-- Well-formed models of all kinds except NotEqual (which is undefined for a flat distribution, property C18); change-points only if the cells of the
parameter grid have volume one (property C02); the kernel of an alpha-stable walk is non-negative and positive at zero; the spline shift used by Deterministic is non-negative and does not vanish. -/
def Conserving (E : Env K gs) : TM K → Prop
  | .leaf .static _ _ _ => True
  | .leaf (.grw target) _ vs _ => (∃ a, E.axis target = .ok a) ∧ ∃ σ, vs = [.scalar σ]
  | .leaf (.alphaStable target) _ vs _ => (d = 1 ∨ (d = 2 ∧ ∀ b, gs b % 2 = 0)) ∧ ∃ a c α, E.axis target = .ok a ∧ vs = [.scalar c, .scalar α] ∧
      (∀ k, 0 ≤ E.ext.stableKer (c / E.lattice a) α k) ∧ 0 < E.ext.stableKer (c / E.lattice a) α 0
  | .leaf .changePoint _ vs _ => E.cell = 1 ∧ ∃ v, vs = [.scalar v]
  | .leaf .independent _ _ _ => True
  | .leaf .regimeSwitch _ vs _ => ∃ v, vs = [.scalar v]
  | .leaf .notEqual _ _ _ => False
  | .leaf (.deterministic _ target) _ vs _ => (∃ a, E.axis target = .ok a ∧ ∀ s p, IsDist p → (∀ x, 0 ≤ E.ext.shift a s p x) ∧ 0 < ∑ x, E.ext.shift a s p x) ∧ ∀ v ∈ vs, ∃ c, v = .scalar c
  | .leaf .bivariate _ vs _ => d = 2 ∧ ∃ s1 s2 ρ, 0 < s1 ∧ 0 < s2 ∧ ρ * ρ < 1 ∧ vs = [.scalar s1, .scalar s2, .scalar ρ]
  | .leaf .breakPoint _ _ _ => False
  | .combined ms => ConservingAll E ms
  | .serial _ vs _ mask ms => (true ∈ mask → E.cell = 1) ∧ (∀ v ∈ vs, ∃ c, v = .scalar c) ∧ ms.length = vs.length + 1 ∧ ConservingAll E ms
/-- all sub-models -/
def ConservingAll (E : Env K gs) : List (TM K) → Prop
  | [] => True
  | m :: ms => Conserving E m ∧ ConservingAll E ms
end

end Spec
