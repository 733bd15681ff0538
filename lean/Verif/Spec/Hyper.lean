import Verif.Spec.HyperParams
import Mathlib.Algebra.BigOperators.Group.List.Basic

/-! # Specification: hyper-grids -/

namespace Spec
open BL
variable {K : Type}

/-- The values a hyper-parameter can take: a single number, the entries of an array, or (`'all'`) every time stamp except the last. -/
def valuesOf (ts : List K) : HVal K → List K
  | .scalar v => [v]
  | .array l => l
  | .all => ts.dropLast
  | _ => []

/-- Values of all hyper-parameters of a model, in the order of the model. -/
def axes (tm : TM K) (ts : List K) : List (List K) := (entries tm).map fun e => valuesOf ts e.2

/-- Position along axis `a` of the `k`-th point (C order: last axis fastest) of a grid of shape `ns`. -/
def digit (ns : List ℕ) (k a : ℕ) : ℕ := k / (ns.drop (a + 1)).prod % (ns[a]?.getD 1)

/-- Prior probabilities of the values of one hyper-parameter: uniform by default, otherwise the given function or array divided by its
sum.  The density of a sympy random variable is multiplied by the grid constant `c`. -/
def weights [Field K] (c : K) (vals : List K) : HPrior K → List K
  | .none => vals.map fun _ => 1 / (vals.length : K)
  | .func f => vals.map fun v => f v / (vals.map f).sum
  | .arr l => l.map fun p => p / l.sum
  | .rv pdf => vals.map fun v => pdf v * c
  | .num _ => []

/-- A transition model as built by the constructors, all hyper-parameter names distinct (as `_checkConsistency` demands) and none of them the
string `" "`. -/
def WellNamed (tm : TM K) : Prop :=
  Proper tm ∧ ((entries tm).map (·.1)).Nodup ∧ " " ∉ (entries tm).map (·.1)

/-- The user's model with the numbers of one row of the hyper-grid. -/
def modelAt (tm : TM K) (row : List K) : TM K := withValues (assigned ((entries tm).map (·.1)) (row.map .scalar)) tm

end Spec
