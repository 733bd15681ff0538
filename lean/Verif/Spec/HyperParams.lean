import Verif.Model.TM

/-! # Specification: named hyper-parameters of a nested transition model -/

namespace Spec
open BL
variable {K : Type}

/-- not a raw Python list -/
def Plain : HVal K → Prop
  | .pylist _ => False
  | _ => True

mutual
/-- A transition model as built by the constructors: as many values as names, no stand-alone break-point, values are no raw
Python lists. -/
def Proper : TM K → Prop
  | .leaf .breakPoint _ _ _ => False
  | .leaf _ names vals _ => names.length = vals.length ∧ ∀ v ∈ vals, Plain v
  | .combined ms => ProperAll ms
  | .serial names vals _ _ ms => names.length = vals.length ∧ (∀ v ∈ vals, Plain v) ∧ ProperAll ms
/-- all sub-models -/
def ProperAll : List (TM K) → Prop
  | [] => True
  | m :: ms => Proper m ∧ ProperAll ms
end

mutual
/-- Hyper-parameters with their names, in the documented order: sub-models from left to right, then the model's own. -/
def entries : TM K → List (String × HVal K)
  | .leaf _ names vals _ => names.zip vals
  | .combined ms => entriesAll ms
  | .serial names vals _ _ ms => entriesAll ms ++ names.zip vals
/-- all sub-models -/
def entriesAll : List (TM K) → List (String × HVal K)
  | [] => []
  | m :: ms => entries m ++ entriesAll ms
end

mutual
/-- The same transition model in which every hyper-parameter named `n` with value `v` has the value `g n v`. -/
def withValues (g : String → HVal K → HVal K) : TM K → TM K
  | .leaf k names vals pr => .leaf k names (List.zipWith g names vals) pr
  | .combined ms => .combined (withValuesAll g ms)
  | .serial names vals pr mask ms => .serial names (List.zipWith g names vals) pr mask (withValuesAll g ms)
/-- all sub-models -/
def withValuesAll (g : String → HVal K → HVal K) : List (TM K) → List (TM K)
  | [] => []
  | m :: ms => withValues g m :: withValuesAll g ms
end

/-- value assigned to `n` by the assignments `ns[k] := xs[k]`, `v` if `n` is not among them -/
def assigned (ns : List String) (xs : List (HVal K)) (n : String) (v : HVal K) : HVal K :=
  match (ns.zip xs).find? fun p => p.1 = n with
  | some p => p.2
  | none => v

end Spec
