import Verif.Model.Transition

/-!
# Specification: the prior probabilities a user's prior stands for
-/

namespace Spec
open BL

variable {K : Type} [Field K] [LinearOrder K] {d : ℕ} {gs : Fin d → ℕ}

/-- `PriorMass cell p π`: the prior `p` (values on a grid with cell volume `cell`) stands for the
probabilities `π`.  No prior: uniform.  Arrays and functions: proportional to the given values.
Random variables: density times cell volume.
The condition `∑ v ≠ 1 ∨ cell = 1` excludes the inputs for which the implementation skips the division
by the cell volume (see property C16). -/
inductive PriorMass (cell : K) : PriorSpec K gs → (Idx gs → K) → Prop
  | flat : PriorMass cell .none (fun _ => 1 / (Fintype.card (Idx gs) : K))
  | array (v : Idx gs → K) (h0 : ∀ x, 0 ≤ v x) (h1 : 0 < ∑ x, v x) (h2 : ∑ x, v x ≠ 1 ∨ cell = 1) :
      PriorMass cell (.array (some v)) (fun x => v x / ∑ y, v y)
  | func (v : Idx gs → K) (h0 : ∀ x, 0 ≤ v x) (h1 : 0 < ∑ x, v x) (h2 : ∑ x, v x ≠ 1 ∨ cell = 1) :
      PriorMass cell (.func v) (fun x => v x / ∑ y, v y)
  | const (c : K) (h0 : 0 < c) (h2 : ∑ _x : Idx gs, c ≠ 1 ∨ cell = 1) :
      PriorMass cell (.funcConst c) (fun _ => 1 / (Fintype.card (Idx gs) : K))
  | rvs (v : Idx gs → K) (h0 : ∀ x, 0 ≤ v x) : PriorMass cell (.rvs d true v) (fun x => v x * cell)

end Spec
