import Verif.Model.TM
import Mathlib.Data.Fintype.BigOperators
import Mathlib.Algebra.BigOperators.Fin
import Mathlib.Algebra.Field.Defs

/-!
# Specification: data with change-points

`changeEvidence π r τ L` is the probability of the data if the parameter is constant within every piece of the data, takes a new value
(drawn from `π`, independently of all other pieces) after every change-point in `r`, and `L i x` is the likelihood of the data at time `τ i`
for the parameter value `x`.
-/

namespace Spec
open BL
variable {K : Type}

/-- The number of change-points before time `t`: the number of the piece to which the data at time `t` belong. -/
def pieceOf [LinearOrder K] (r : List K) (t : K) : ℕ := (r.filter (· < t)).length

/-- Product over all pieces of the evidence of a constant parameter with prior `π`. -/
def changeEvidence [Field K] [LinearOrder K] {ι : Type} [Fintype ι] {n : ℕ} (π : ι → K) (r : List K) (τ : Fin n → K) (L : Fin n → ι → K) : K :=
  ∏ s ∈ Finset.range (r.length + 1), ∑ x, π x * ∏ i with pieceOf r (τ i) = s, L i x

/-- Posterior probability of the value `x` at time `τ i` if the change-points are `r`: Bayes' theorem for a constant parameter, applied to the data of the piece which contains `τ i`. -/
def piecePosterior [Field K] [LinearOrder K] {ι : Type} [Fintype ι] {n : ℕ} (π : ι → K) (r : List K) (τ : Fin n → K) (L : Fin n → ι → K) (i : Fin n) (x : ι) : K :=
  (π x * ∏ j with pieceOf r (τ j) = pieceOf r (τ i), L j x) / ∑ y, π y * ∏ j with pieceOf r (τ j) = pieceOf r (τ i), L j y

/-- Prior probability `q.2` of the change-points `q.1` times the value `f q.1`, summed over all combinations in which the change-points increase. -/
def overOrdered [Field K] [LinearOrder K] (rows : List (List K)) (ps : List K) (f : List K → K) : K :=
  (((rows.zip ps).filter fun q => decide (q.1.Pairwise (· < ·))).map fun q => q.2 * f q.1).sum

mutual
/-- The parameters change at the change-points of the model and at no other time: Static, ChangePoint, combinations of these, and Static models in series that
are separated by change-points. -/
def StepModel : TM K → Prop
  | .leaf .static names _ _ => names = []
  | .leaf .changePoint names vs _ => names.length = 1 ∧ vs.length = 1
  | .leaf _ _ _ _ => False
  | .combined ms => StepModelAll ms
  | .serial names vs _ mask ms => vs.length = names.length ∧ mask = List.replicate names.length true ∧ ms.length = names.length + 1 ∧
      ∀ m ∈ ms, ∃ pr, m = .leaf .static [] [] pr
/-- all sub-models -/
def StepModelAll : List (TM K) → Prop
  | [] => True
  | m :: ms => StepModel m ∧ StepModelAll ms
end

end Spec
