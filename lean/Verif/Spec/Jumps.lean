import Verif.Spec.Breaks

/-!
# Specification: change-points together with random walks and structural breaks

Between two change-points the parameters need not be constant, e.g. they may follow a random walk; at a change-point they are drawn afresh.
-/

namespace Spec
open BL
variable {K : Type} [Field K] [LinearOrder K] {d : ℕ} {gs : Fin d → ℕ}

mutual
/-- Names of the hyper-parameters which are times of change-points, i.e. times after which the parameters are drawn afresh (structural breaks are not among them). -/
def changeNames : TM K → List String
  | .leaf .changePoint names _ _ => names
  | .leaf _ _ _ _ => []
  | .combined ms => changeNamesAll ms
  | .serial names _ _ mask _ => ((names.zip mask).filter (·.2)).map (·.1)
/-- all sub-models -/
def changeNamesAll : List (TM K) → List String
  | [] => []
  | m :: ms => changeNames m ++ changeNamesAll ms
end

mutual
/-- Static, GaussianRandomWalk (of an existing parameter), ChangePoint, combinations of these, and models without change-points (`WalkModel`) in series, separated by change-points and structural breaks. -/
def JumpModel (E : Env K gs) : TM K → Prop
  | .leaf .static _ _ _ => True
  | .leaf (.grw target) names vs _ => (∃ a, E.axis target = .ok a) ∧ names.length = 1 ∧ vs.length = 1
  | .leaf .changePoint names vs _ => names.length = 1 ∧ vs.length = 1
  | .leaf _ _ _ _ => False
  | .combined ms => JumpModelAll E ms
  | .serial names vs _ mask ms => vs.length = names.length ∧ mask.length = names.length ∧ ms.length = names.length + 1 ∧ WalkModelAll E ms
/-- all sub-models -/
def JumpModelAll (E : Env K gs) : List (TM K) → Prop
  | [] => True
  | m :: ms => JumpModel E m ∧ JumpModelAll E ms
end

/-- The times which a combination `row` of hyper-parameter values gives to the change-points. -/
def changesOf (tm : TM K) (row : List K) : List K :=
  ((((entries tm).map (·.1)).zip row).filter fun p => decide (p.1 ∈ changeNames tm)).map (·.2)

end Spec
