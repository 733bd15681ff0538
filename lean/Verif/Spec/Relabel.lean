import Verif.Model.Transition
import Verif.Model.Likelihood
import Mathlib.Logic.Equiv.Fin.Basic
import Mathlib.Data.Fin.Rev

/-! # Other order and orientation of the parameters (specification for C76) -/

set_option linter.unusedSectionVars false

namespace Spec
open BL

variable {K : Type} [Field K] [LinearOrder K] {d : ℕ} {gs : Fin d → ℕ}

/-- Points of the grid after a change of order and orientation: the new parameter `b` is the old parameter `τ b`, counted backwards if `s b`. -/
def relabel (τ : Fin d ≃ Fin d) (s : Fin d → Bool) : Idx gs ≃ Idx fun b => gs (τ b) :=
  (Equiv.piCongrLeft' (fun a => Fin (gs a)) τ.symm).trans (Equiv.piCongrRight fun b => if s b then Fin.revPerm else Equiv.refl _)

/-- The same study environment with the parameters in another order and orientation.  The filter weights and the alpha-stable kernel are symmetric; the bivariate kernel changes as a bivariate
normal distribution does; the spline interpolation acts along the axis it is applied to. -/
structure EnvRelabel (τ : Fin d ≃ Fin d) (s : Fin d → Bool) (E : Env K gs) (E' : Env K fun b => gs (τ b)) : Prop where
  names : ∀ b, E'.names b = E.names (τ b)
  distinct : Function.Injective E.names
  lattice : ∀ b, E'.lattice b = E.lattice (τ b)
  pow10 : E'.ext.pow10 = E.ext.pow10
  gaussR : E'.ext.gaussR = E.ext.gaussR
  gaussW : E'.ext.gaussW = E.ext.gaussW
  stableKer : E'.ext.stableKer = E.ext.stableKer
  bivKer : E'.ext.bivKer = E.ext.bivKer
  gauss_even : ∀ w k, E.ext.gaussW w (-k) = E.ext.gaussW w k
  stable_even : ∀ c α k, E.ext.stableKer c α (-k) = E.ext.stableKer c α k
  biv_even : ∀ a b ρ k l, E.ext.bivKer a b ρ (-k) (-l) = E.ext.bivKer a b ρ k l
  biv_swap : ∀ a b ρ k l, E.ext.bivKer b a ρ l k = E.ext.bivKer a b ρ k l
  biv_neg : ∀ a b ρ k l, E.ext.bivKer a b (-ρ) (-k) l = E.ext.bivKer a b ρ k l
  shift : ∀ b v p x, E'.ext.shift b (if s b then -v else v) (fun y => p ((relabel τ s).symm y)) (relabel τ s x) = E.ext.shift (τ b) v p x

/-- The same elementary model; `sgn n`: the parameter with name `n` is counted backwards.  The curve of Deterministic changes sign with its parameter, the correlation coefficient of BivariateRandomWalk
if one of the two parameters does; the two widths follow the order of the parameters. -/
inductive LeafRelabel (τ : Fin d ≃ Fin d) (s : Fin d → Bool) (sgn : String → Bool) : Leaf K → List (HVal K) → Leaf K → List (HVal K) → Prop
  | static (vals : List (HVal K)) : LeafRelabel τ s sgn .static vals .static vals
  | grw (target : String) (vals : List (HVal K)) : LeafRelabel τ s sgn (.grw target) vals (.grw target) vals
  | alphaStable (target : String) (vals : List (HVal K)) : LeafRelabel τ s sgn (.alphaStable target) vals (.alphaStable target) vals
  | changePoint (vals : List (HVal K)) : LeafRelabel τ s sgn .changePoint vals .changePoint vals
  | independent (vals : List (HVal K)) : LeafRelabel τ s sgn .independent vals .independent vals
  | regimeSwitch (vals : List (HVal K)) : LeafRelabel τ s sgn .regimeSwitch vals .regimeSwitch vals
  | notEqual (vals : List (HVal K)) : LeafRelabel τ s sgn .notEqual vals .notEqual vals
  | deterministic (f : K → List K → K) (target : String) (vals : List (HVal K)) :
      LeafRelabel τ s sgn (.deterministic f target) vals (.deterministic (fun t vs => if sgn target then -f t vs else f t vs) target) vals
  | bivariate (h0 : 0 < d) (h1 : 1 < d) (σ : Fin d → K) (ρ : K) :
      LeafRelabel τ s sgn .bivariate [.scalar (σ ⟨0, h0⟩), .scalar (σ ⟨1, h1⟩), .scalar ρ]
        .bivariate [.scalar (σ (τ ⟨0, h0⟩)), .scalar (σ (τ ⟨1, h1⟩)), .scalar (if s ⟨0, h0⟩ = s ⟨1, h1⟩ then ρ else -ρ)]

mutual
/-- the same transition model for the parameters in the other order and orientation -/
def Relabelled (τ : Fin d ≃ Fin d) (s : Fin d → Bool) (sgn : String → Bool) : TM K → TM K → Prop
  | .leaf k _ vals _, .leaf k' _ vals' _ => LeafRelabel τ s sgn k vals k' vals'
  | .combined ms, .combined ms' => RelabelledAll τ s sgn ms ms'
  | .serial _ vals _ mask ms, .serial _ vals' _ mask' ms' => vals' = vals ∧ mask' = mask ∧ RelabelledAll τ s sgn ms ms'
  | _, _ => False
/-- the same for all members of a list -/
def RelabelledAll (τ : Fin d ≃ Fin d) (s : Fin d → Bool) (sgn : String → Bool) : List (TM K) → List (TM K) → Prop
  | [], [] => True
  | m :: ms, m' :: ms' => Relabelled τ s sgn m m' ∧ RelabelledAll τ s sgn ms ms'
  | _, _ => False
end

/-- the same prior for the parameters in the other order and orientation: an array is rearranged, a function of the parameters has the same values at the same points -/
inductive PriorRelabel (τ : Fin d ≃ Fin d) (s : Fin d → Bool) : PriorSpec K gs → PriorSpec K (fun b => gs (τ b)) → Prop
  | flat : PriorRelabel τ s .none .none
  | array (p : Idx gs → K) : PriorRelabel τ s (.array (some p)) (.array (some fun y => p ((relabel τ s).symm y)))
  | func (p : Idx gs → K) : PriorRelabel τ s (.func p) (.func fun y => p ((relabel τ s).symm y))
  | funcConst (c : K) : PriorRelabel τ s (.funcConst c) (.funcConst c)
  | rvs (n : ℕ) (ok : Bool) (p : Idx gs → K) : PriorRelabel τ s (.rvs n ok p) (.rvs n ok fun y => p ((relabel τ s).symm y))

/-- parameters that change their sign (or `p` to `1 - p`) if the data do -/
def mirrorParameter : OM → ℕ → Bool
  | .gaussian, 0 => true
  | .laplace, 0 => true
  | .gaussianMean, 0 => true
  | .bernoulli, 0 => true
  | _, _ => false

/-- observation models of data that can be mirrored (`x` to `o - x`); Bernoulli: success and failure exchanged; without location parameter: only the sign -/
def CanMirror (m : OM) (o : ℝ) : Prop := m = .gaussian ∨ m = .laplace ∨ m = .gaussianMean ∨ (m = .bernoulli ∧ o = 1) ∨ ((m = .whiteNoise ∨ m = .ar1 ∨ m = .scaledAR1) ∧ o = 0)

/-- the mirrored data; standard errors (second column, GaussianMean) stay as they are -/
noncomputable def mirrorData (m : OM) (o : ℝ) : Seg ℝ → Seg ℝ
  | .flat xs => .flat (xs.map (Option.map fun x => o - x))
  | .rows w xs => .rows w (xs.map fun r j => if m = .gaussianMean ∧ j.val = 1 then r j else (r j).map fun x => o - x)

/-- data segment as the study passes it to the observation model; Bernoulli: zeros and ones -/
def MirrorSegment (m : OM) : Seg ℝ → Prop
  | .flat xs => m ≠ .gaussianMean ∧ xs.length = m.segmentLength ∧ (m = .bernoulli → ∀ x, some x ∈ xs → x = 0 ∨ x = 1)
  | .rows w xs => xs.length = m.segmentLength ∧ (m = .gaussianMean → w = 2) ∧ (m = .bernoulli → ∀ r ∈ xs, ∀ j x, r j = some x → x = 0 ∨ x = 1)

end Spec
