import Verif.Model.Transition

/-!
# Constructors of the compound transition models (transitionModels.py 618-627, 690-751)
-/

namespace BL
variable {K : Type} [Field K] [LinearOrder K]

/-- `CombinedTransitionModel(*args)`, transitionModels.py 618-627. -/
def mkCombined (args : List (TM K)) : Except PyErr (TM K) :=
  if args.any (fun m => match m with | .leaf .breakPoint _ _ _ => true | _ => false) then .error .configuration
  else .ok (.combined args)

/-- An argument of `SerialTransitionModel`: break time with name, value, hyper-prior and entry of `changePointMask`,
or sub-model (transitionModels.py 700-728). -/
inductive SerialArg (K : Type)
  | brk (name : String) (value : HVal K) (prior : Nest (HPrior K)) (cp : Bool)
  | model (m : TM K)

/-- entries appended to `hyperParameterNames`, `hyperParameterValues`, `prior`, `changePointMask` (702-726) -/
def SerialArg.brk? : SerialArg K → Option (String × HVal K × Nest (HPrior K) × Bool)
  | .brk n v p c => some (n, v, p, c)
  | .model _ => none

/-- entries appended to `models` (728) -/
def SerialArg.model? : SerialArg K → Option (TM K)
  | .brk _ _ _ _ => none
  | .model m => some m

/-- transitionModels.py 700-728: the branch taken for one argument (`str(arg)` decides).  BreakPoint stores `name`, `value`, `prior`;
ChangePoint stores `hyperParameterNames[0]`, `hyperParameterValues[0]`, `prior`.  Lists and tuples have been converted to arrays by
the constructors (276-277, 832-833). -/
def serialArg : TM K → Except PyErr (SerialArg K)
  | .leaf .breakPoint (n :: _) (v :: _) (some pr) => .ok (.brk n v pr false)
  | .leaf .breakPoint _ _ _ => .error .attributeError
  | .leaf .changePoint (n :: _) (v :: _) (some pr) => .ok (.brk n v pr true)
  | .leaf .changePoint _ _ none => .error .attributeError
  | .leaf .changePoint _ _ (some _) => .error .indexError
  | m => .ok (.model m)

/-- the loop 700-728 -/
def serialArgs : List (TM K) → Except PyErr (List (SerialArg K))
  | [] => .ok []
  | m :: ms => do
      let a ← serialArg m
      let l ← serialArgs ms
      .ok (a :: l)

/-- Entry of `firstValues`, transitionModels.py 736-741: `none` stands for `'all'`; `some none` for `None`. -/
def firstValue : HVal K → Except PyErr (Option (Option K))
  | .all => .ok none
  | .array (v :: _) => .ok (some (some v))
  | .array [] => .error .indexError
  | .pylist (v :: _) => .ok (some (some v))
  | .pylist [] => .error .indexError
  | .scalar v => .ok (some (some v))
  | .none => .ok (some none)

/-- transitionModels.py 734-741 -/
def firstValues : List (HVal K) → Except PyErr (List (Option (Option K)))
  | [] => .ok []
  | v :: vs => do
      let a ← firstValue v
      let l ← firstValues vs
      .ok (a :: l)

/-- transitionModels.py 743-744: `all(...)` over neighbouring pairs (stops at the first `False`; comparison with `None`
raises `TypeError`). -/
def increasing : List (Option (Option K)) → Except PyErr Bool
  | x :: y :: l =>
      match x, y with
      | some (some a), some (some b) => if a < b then increasing (y :: l) else .ok false
      | some _, some _ => .error .typeError
      | _, _ => increasing (y :: l)
  | _ => .ok true

/-- `SerialTransitionModel(*args)`, transitionModels.py 690-751. -/
def mkSerial (args : List (TM K)) : Except PyErr (TM K) := do
  let l ← serialArgs args
  let brks := l.filterMap SerialArg.brk?
  let models := l.filterMap SerialArg.model?
  let vals := brks.map fun b => b.2.1
  let fv ← firstValues vals
  let inc ← increasing fv
  if !inc then .error .configuration                               -- 745
  else if ¬ models.length = vals.length + 1 then .error .configuration   -- 749-750
  else .ok (.serial (brks.map fun b => b.1) vals (brks.map fun b => b.2.2.1) (brks.map fun b => b.2.2.2) models)

end BL
