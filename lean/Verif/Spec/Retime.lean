import Verif.Model.Transition

/-! # Specification: another time axis -/

namespace Spec
open BL
variable {K : Type}

/-- change-point or break-point times on the new time axis -/
def retimeVal (φ : K → K) : HVal K → HVal K
  | .scalar v => .scalar (φ v)
  | .array vs => .array (vs.map φ)
  | .pylist vs => .pylist (vs.map φ)
  | .none => .none
  | .all => .all

mutual
/-- The same transition model for a new time axis: all change-points and break-points are moved to the new times. -/
def retime (φ : K → K) : TM K → TM K
  | .leaf .changePoint names vals pr => .leaf .changePoint names (vals.map (retimeVal φ)) pr
  | .leaf k names vals pr => .leaf k names vals pr
  | .combined ms => .combined (retimeAll φ ms)
  | .serial names vals pr mask ms => .serial names (vals.map (retimeVal φ)) pr mask (retimeAll φ ms)
/-- all sub-models -/
def retimeAll (φ : K → K) : List (TM K) → List (TM K)
  | [] => []
  | m :: ms => retime φ m :: retimeAll φ ms
end

mutual
/-- no sub-model prescribes values as a function of time (Deterministic) -/
def NoClock : TM K → Prop
  | .leaf (.deterministic _ _) _ _ _ => False
  | .leaf _ _ _ _ => True
  | .combined ms => NoClockAll ms
  | .serial _ _ _ _ ms => NoClockAll ms
/-- all sub-models -/
def NoClockAll : List (TM K) → Prop
  | [] => True
  | m :: ms => NoClock m ∧ NoClockAll ms
end

end Spec
