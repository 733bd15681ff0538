import Verif.Model.Transition

/-! # Change of units of parameters and data (specification for C75) -/

set_option linter.unusedSectionVars false

namespace Spec
open BL

variable {K : Type} [Field K] [LinearOrder K] {d : ℕ} {gs : Fin d → ℕ}

/-- The same elementary transition model, expressed in other units: the values of the parameter with name `n` are multiplied by `u n`.  Widths of random walks and the curves of Deterministic are multiplied by the
factor of their parameter, times and shape parameters are kept.  The smallest probability density of RegimeSwitch and NotEqual is divided by the product `V` of all factors.  ChangePoint is left out. -/
inductive LeafUnits (pow10 : K → K) (names : Fin d → String) (u : String → K) (V : K) : Leaf K → List (HVal K) → Leaf K → List (HVal K) → Prop
  | static (vals : List (HVal K)) : LeafUnits pow10 names u V .static vals .static vals
  | grw (target : String) (σ : K) : LeafUnits pow10 names u V (.grw target) [.scalar σ] (.grw target) [.scalar (u target * σ)]
  | alphaStable (target : String) (c α : K) : LeafUnits pow10 names u V (.alphaStable target) [.scalar c, .scalar α] (.alphaStable target) [.scalar (u target * c), .scalar α]
  | independent (vals : List (HVal K)) : LeafUnits pow10 names u V .independent vals .independent vals
  | regimeSwitch (v v' : K) (h : pow10 v' = pow10 v / V) : LeafUnits pow10 names u V .regimeSwitch [.scalar v] .regimeSwitch [.scalar v']
  | notEqual (v v' : K) (h : pow10 v' = pow10 v / V) : LeafUnits pow10 names u V .notEqual [.scalar v] .notEqual [.scalar v']
  | deterministic (f : K → List K → K) (target : String) (vals : List (HVal K)) :
      LeafUnits pow10 names u V (.deterministic f target) vals (.deterministic (fun t vs => u target * f t vs) target) vals
  | bivariate (h0 : 0 < d) (h1 : 1 < d) (s1 s2 ρ : K) :
      LeafUnits pow10 names u V .bivariate [.scalar s1, .scalar s2, .scalar ρ] .bivariate [.scalar (u (names ⟨0, h0⟩) * s1), .scalar (u (names ⟨1, h1⟩) * s2), .scalar ρ]

mutual
/-- The same transition model in other units.  Serial models have break-points only (no change-points). -/
def InUnits (pow10 : K → K) (names : Fin d → String) (u : String → K) (V : K) : TM K → TM K → Prop
  | .leaf k _ vals _, .leaf k' _ vals' _ => LeafUnits pow10 names u V k vals k' vals'
  | .combined ms, .combined ms' => InUnitsAll pow10 names u V ms ms'
  | .serial _ vals _ mask ms, .serial _ vals' _ mask' ms' => vals' = vals ∧ (∀ b ∈ mask, b = false) ∧ mask' = mask ∧ InUnitsAll pow10 names u V ms ms'
  | _, _ => False
/-- the same for all members of a list -/
def InUnitsAll (pow10 : K → K) (names : Fin d → String) (u : String → K) (V : K) : List (TM K) → List (TM K) → Prop
  | [], [] => True
  | m :: ms, m' :: ms' => InUnits pow10 names u V m m' ∧ InUnitsAll pow10 names u V ms ms'
  | _, _ => False
end

/-- The same prior in other units: flat; proportional values of a function or of an array (not summing to exactly one); densities of random variables divided by `V`. -/
inductive PriorUnits (V : K) : PriorSpec K gs → PriorSpec K gs → Prop
  | flat : PriorUnits V .none .none
  | func (v : Idx gs → K) (c : K) (hc : 0 < c) (h : ∑ x, v x ≠ 1) (h' : ∑ x, c * v x ≠ 1) : PriorUnits V (.func v) (.func fun x => c * v x)
  | array (v : Idx gs → K) (c : K) (hc : 0 < c) (h : ∑ x, v x ≠ 1) (h' : ∑ x, c * v x ≠ 1) : PriorUnits V (.array (some v)) (.array (some fun x => c * v x))
  | rvs (n : ℕ) (ok : Bool) (v : Idx gs → K) : PriorUnits V (.rvs n ok v) (.rvs n ok fun x => v x / V)

/-- The same study environment in other units: every lattice constant is multiplied by the factor of its parameter. -/
structure EnvUnits (u : String → K) (E E' : Env K gs) : Prop where
  names : E'.names = E.names
  ext : E'.ext = E.ext
  lattice : ∀ a, E'.lattice a = u (E.names a) * E.lattice a

end Spec
