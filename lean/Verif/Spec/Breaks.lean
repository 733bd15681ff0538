import Verif.Spec.Kernel
import Verif.Spec.Paths
import Verif.Spec.Changepoint
import Verif.Spec.Hyper

/-!
# Specification: data with structural breaks

Between two structural breaks the parameters follow one of the sub-models of a serial transition model, e.g. a random walk; at a structural
break the sub-model changes, the parameters are not drawn afresh.  All hyper-parameters of the model (times of the breaks, standard deviations of the
random walks) may be uncertain: `r` is one combination of their values.
-/

namespace Spec
open BL
variable {K : Type} [Field K] [LinearOrder K] {d : ℕ} {gs : Fin d → ℕ}

/-- Probability of the data for one combination `r` of hyper-parameter values: sum over all parameter paths of the weight of the path. -/
def rowEvidence (E : Env K gs) (π : Idx gs → K) (tm : TM K) {n : ℕ} (τ : Fin (n + 1) → K) (L : Fin (n + 1) → Idx gs → K) (r : List K) : K :=
  evidence π (fun i : Fin n => kernel E π (modelAt tm r) (τ i.castSucc)) L

/-- Probability of the parameter value `x` at time `τ i`, given all data and the combination `r` of hyper-parameter values. -/
def rowPosterior (E : Env K gs) (π : Idx gs → K) (tm : TM K) {n : ℕ} (τ : Fin (n + 1) → K) (L : Fin (n + 1) → Idx gs → K) (r : List K) (i : Fin (n + 1)) (x : Idx gs) : K :=
  posterior π (fun i : Fin n => kernel E π (modelAt tm r) (τ i.castSucc)) L i x

/-- Prior probability `q.2` of the combination `q.1` times the value `f q.1`, summed over all combinations in which the breaks are in order. -/
def overInOrder (tm : TM K) (rows : List (List K)) (ps : List K) (f : List K → K) : K :=
  (((rows.zip ps).filter fun q => decide (InOrder tm q.1)).map fun q => q.2 * f q.1).sum

mutual
/-- Models in which the parameters are never drawn afresh: Static, GaussianRandomWalk (of an existing parameter), combinations of these, and such models in series, separated by structural breaks. -/
def WalkModel (E : Env K gs) : TM K → Prop
  | .leaf .static _ _ _ => True
  | .leaf (.grw target) names vs _ => (∃ a, E.axis target = .ok a) ∧ names.length = 1 ∧ vs.length = 1
  | .leaf _ _ _ _ => False
  | .combined ms => WalkModelAll E ms
  | .serial names vs _ mask ms => vs.length = names.length ∧ true ∉ mask ∧ ms.length = names.length + 1 ∧ WalkModelAll E ms
/-- all sub-models -/
def WalkModelAll (E : Env K gs) : List (TM K) → Prop
  | [] => True
  | m :: ms => WalkModel E m ∧ WalkModelAll E ms
end

end Spec
