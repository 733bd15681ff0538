import Verif.Model.TM
import Mathlib.Data.List.Chain

/-! # Specification: argument lists of serial models; rewriting of combined models -/

namespace Spec
open BL
variable {K : Type} [Field K] [LinearOrder K]

/-- break times (name, value, hyper-prior, is it a change-point?) in an argument list, in order -/
def breaksOf : List (TM K) → List (String × HVal K × Nest (HPrior K) × Bool)
  | .leaf .breakPoint [n] [v] (some pr) :: l => (n, v, pr, false) :: breaksOf l
  | .leaf .changePoint [n] [v] (some pr) :: l => (n, v, pr, true) :: breaksOf l
  | _ :: l => breaksOf l
  | [] => []

/-- sub-models in an argument list, in order -/
def modelsOf : List (TM K) → List (TM K)
  | .leaf .breakPoint _ _ _ :: l => modelsOf l
  | .leaf .changePoint _ _ _ :: l => modelsOf l
  | m :: l => m :: modelsOf l
  | [] => []

/-- The argument was created by a constructor call with a value: a number, a non-empty list or `'all'` for break times. -/
def ProperArg : TM K → Prop
  | .leaf .breakPoint ns vs pr => ∃ n v p, ns = [n] ∧ vs = [v] ∧ pr = some p ∧ (v = .all ∨ (∃ c, v = .scalar c) ∨ ∃ c l, v = .array (c :: l))
  | .leaf .changePoint ns vs pr => ∃ n v p, ns = [n] ∧ vs = [v] ∧ pr = some p ∧ (v = .all ∨ (∃ c, v = .scalar c) ∨ ∃ c l, v = .array (c :: l))
  | _ => True

/-- first time given for a break (none for `'all'`) -/
def firstTime : HVal K → Option K
  | .scalar v => some v
  | .array (v :: _) => some v
  | _ => none

/-- neighbouring break times with given first values increase -/
def Increasing (vs : List (HVal K)) : Prop :=
  vs.IsChain fun x y => ∀ a b, firstTime x = some a → firstTime y = some b → a < b

end Spec
