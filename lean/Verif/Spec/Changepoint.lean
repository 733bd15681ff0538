import Verif.Spec.Hyper
import Mathlib.Algebra.Order.Group.Abs
import Mathlib.Algebra.Field.Defs

/-! # Specification: change-point studies -/

namespace Spec
open BL
variable {K : Type}

mutual
/-- Names of all change-points and break-points of a transition model. -/
def pointNames : TM K → List String
  | .leaf .changePoint names _ _ => names
  | .leaf _ _ _ _ => []
  | .combined ms => pointNamesAll ms
  | .serial names _ _ _ ms => pointNamesAll ms ++ names
/-- all sub-models -/
def pointNamesAll : List (TM K) → List String
  | [] => []
  | m :: ms => pointNames m ++ pointNamesAll ms
end

/-- The values which a row of the hyper-grid gives to the change/break-points, in the order of the model. -/
def pointsOf (tm : TM K) (row : List K) : List K :=
  ((((entries tm).map (·.1)).zip row).filter fun p => decide (p.1 ∈ pointNames tm)).map (·.2)

/-- In this row every change/break-point lies strictly before the next one. -/
def InOrder [LT K] (tm : TM K) (row : List K) : Prop := (pointsOf tm row).Pairwise (· < ·)

instance [LinearOrder K] (tm : TM K) (row : List K) : Decidable (InOrder tm row) := by unfold InOrder; infer_instance

/-- The value of the hyper-parameter named `n` in a row of the hyper-grid. -/
def valueIn [Zero K] (tm : TM K) (row : List K) (n : String) : K := row.getD (((entries tm).map (·.1)).idxOf n) 0

/-- Distance between two change/break-points in a row of the hyper-grid. -/
def distance [Field K] [LinearOrder K] (tm : TM K) (n1 n2 : String) (row : List K) : K := |valueIn tm row n1 - valueIn tm row n2|

end Spec
