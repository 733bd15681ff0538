import Verif.Model.Construct

/-!
# Hyper-parameter plumbing of nested transition models (helper.py 11-62, core.py 623-839, 1501-1533) and the
constructors of the elementary models

Simplification: transition models are values, i.e. the same Python object is not used at two places of a nested model.
-/

set_option linter.unusedSectionVars false

namespace BL
variable {K : Type} [Field K] [LinearOrder K] {α β : Type}

/-! ## Nested lists -/

mutual
/-- `flatten`, helper.py 47-62, for one element -/
def Nest.flat : Nest α → List α
  | .item a => [a]
  | .list l => flatten l
/-- `flatten(lst)`, helper.py 47-62 -/
def flatten : List (Nest α) → List α
  | [] => []
  | e :: r => e.flat ++ flatten r
end

mutual
/-- The body of the loop of `recursiveIndex`, helper.py 37-43, for one element: `some path` if it is the query (`path = []`) or
a list which contains it. -/
def Nest.find [DecidableEq α] (q : α) : Nest α → Option (List ℕ)
  | .item a => if a = q then some [] else none
  | .list l => match findFrom q 0 l with
      | [] => none
      | i :: p => some (i :: p)
/-- the loop of `recursiveIndex`, helper.py 37-44, starting at index `i`; `[]`: not found -/
def findFrom [DecidableEq α] (q : α) : ℕ → List (Nest α) → List ℕ
  | _, [] => []
  | i, e :: r => match e.find q with
      | some p => i :: p
      | none => findFrom q (i + 1) r
end

/-- `recursiveIndex(nestedList, query)`, helper.py 26-44 -/
def recursiveIndex [DecidableEq α] (l : List (Nest α)) (q : α) : List ℕ := findFrom q 0 l

/-- `assignNestedItem(lst, index, value)`, helper.py 11-23 -/
def assignNested : List (Nest α) → List ℕ → α → Except PyErr (List (Nest α))
  | _, [], _ => .error .indexError                               -- `index[-1]`
  | l, [i], v => if i < l.length then .ok (l.set i (.item v)) else .error .indexError
  | l, i :: p, v => match (l[i]? : Option (Nest α)) with
      | some (.list l') => do
          let r ← assignNested l' p v
          .ok (l.set i (.list r))
      | some (.item _) => .error .typeError
      | none => .error .indexError

/-! ## Unpacking -/

mutual
/-- `_unpackHyperParameters(transitionModel)`, core.py 623-647: names.  BreakPoint and Combined have no attribute
`hyperParameterNames`. -/
def TM.nameTree : TM K → List (Nest String)
  | .leaf .breakPoint _ _ _ => []
  | .leaf _ names _ _ => names.map .item
  | .combined ms => TM.nameTrees ms
  | .serial names _ _ _ ms => TM.nameTrees ms ++ names.map .item
/-- the loop 637-638 -/
def TM.nameTrees : List (TM K) → List (Nest String)
  | [] => []
  | m :: ms => .list (TM.nameTree m) :: TM.nameTrees ms
end

/-- A stored value as element of the nested list: a Python list is a list there. -/
def HVal.nest : HVal K → Nest (HVal K)
  | .pylist l => .list (l.map fun v => .item (.scalar v))
  | v => .item v

mutual
/-- `_unpackHyperParameters(transitionModel, values=True)`, core.py 623-647 -/
def TM.valueTree : TM K → List (Nest (HVal K))
  | .leaf .breakPoint _ _ _ => []
  | .leaf _ _ vals _ => vals.map HVal.nest
  | .combined ms => TM.valueTrees ms
  | .serial _ vals _ _ ms => TM.valueTrees ms ++ vals.map HVal.nest
/-- the loop 637-638 -/
def TM.valueTrees : List (TM K) → List (Nest (HVal K))
  | [] => []
  | m :: ms => .list (TM.valueTree m) :: TM.valueTrees ms
end

mutual
/-- `_unpackHyperPriors(transitionModel)`, core.py 1501-1524 -/
def TM.priorTree : TM K → List (Nest (HPrior K))
  | .leaf .breakPoint _ _ (some pr) => [pr]
  | .leaf .breakPoint _ _ none => []
  | .leaf _ names _ (some pr) => if names.length > 0 then [pr] else []
  | .leaf _ _ _ none => []
  | .combined ms => TM.priorTrees ms                              -- no attribute `prior`
  | .serial names _ pr _ ms => TM.priorTrees ms ++ if names.length > 0 then [.list pr] else []
/-- the loop 1513-1514 -/
def TM.priorTrees : List (TM K) → List (Nest (HPrior K))
  | [] => []
  | m :: ms => .list (TM.priorTree m) :: TM.priorTrees ms
end

/-- `_unpackAllHyperParameters(values=False)`, core.py 649-656 -/
def TM.flatNames (tm : TM K) : List String := flatten tm.nameTree
/-- `_unpackAllHyperParameters()`, core.py 649-656 -/
def TM.flatValues (tm : TM K) : List (HVal K) := flatten tm.valueTree
/-- `_unpackAllHyperPriors()`, core.py 1526-1533 -/
def TM.flatPriors (tm : TM K) : List (HPrior K) := flatten tm.priorTree

mutual
/-- `_unpackChangepointNames`, core.py 761-780 -/
def TM.cpNameTree : TM K → List (Nest String)
  | .leaf .changePoint names _ _ => names.map .item
  | .leaf _ _ _ _ => []
  | .combined ms => TM.cpNameTrees ms
  | .serial _ _ _ _ ms => TM.cpNameTrees ms
/-- the loop 772-773 -/
def TM.cpNameTrees : List (TM K) → List (Nest String)
  | [] => []
  | m :: ms => .list (TM.cpNameTree m) :: TM.cpNameTrees ms
end

mutual
/-- `_unpackBreakpointNames`, core.py 782-801 (only serial models, change-points of a serial model included) -/
def TM.bpNameTree : TM K → List (Nest String)
  | .leaf _ _ _ _ => []
  | .combined ms => TM.bpNameTrees ms
  | .serial names _ _ _ ms => TM.bpNameTrees ms ++ names.map .item
/-- the loop 793-794 -/
def TM.bpNameTrees : List (TM K) → List (Nest String)
  | [] => []
  | m :: ms => .list (TM.bpNameTree m) :: TM.bpNameTrees ms
end

/-! ## Setting and getting -/

/-- `values[names.index(name)] = v` -/
def setOwn (names : List String) (vals : List (HVal K)) (name : String) (v : HVal K) : Except PyErr (List (HVal K)) :=
  if name ∈ names then
    if names.idxOf name < vals.length then .ok (vals.set (names.idxOf name) v) else .error .indexError
  else .error .valueError

/-- core.py 711-716 / 749-754: descend along `path` through `.models`, then
`model.hyperParameterValues[model.hyperParameterNames.index(name)] = v`. -/
def TM.setNamed : TM K → List ℕ → String → HVal K → Except PyErr (TM K)
  | .leaf .breakPoint _ _ _, [], _, _ => .error .attributeError
  | .leaf k names vals pr, [], name, v => do
      let vals' ← setOwn names vals name v
      .ok (.leaf k names vals' pr)
  | .combined _, [], _, _ => .error .attributeError
  | .serial names vals pr mask ms, [], name, v => do
      let vals' ← setOwn names vals name v
      .ok (.serial names vals' pr mask ms)
  | .leaf _ _ _ _, _ :: _, _, _ => .error .attributeError        -- no attribute `models`
  | .combined ms, i :: p, name, v => match (ms[i]? : Option (TM K)) with
      | some m => do
          let m' ← TM.setNamed m p name v
          .ok (.combined (ms.set i m'))
      | none => .error .indexError
  | .serial names vals pr mask ms, i :: p, name, v => match (ms[i]? : Option (TM K)) with
      | some m => do
          let m' ← TM.setNamed m p name v
          .ok (.serial names vals pr mask (ms.set i m'))
      | none => .error .indexError

/-- The loops of `_setAllHyperParameters` (core.py 708-720, `sel = false`) and `_setSelectedHyperParameters` (744-758, `sel = true`):
`tree` is `nameTree`, `xs` is `paramList`. -/
def setLoop (sel : Bool) : List String → List (Nest String) → List (HVal K) → TM K → Except PyErr (TM K)
  | [], _, _, tm => .ok tm
  | n :: ns, tree, xs, tm =>
      let index := recursiveIndex tree n
      if sel && index.isEmpty then .error .configuration           -- 746-747
      else match xs with
        | [] => .error .indexError                                 -- `paramList[0]`
        | x :: xs' => do
            let tm' ← tm.setNamed index.dropLast n x
            let tree' ← assignNested tree index " "
            setLoop sel ns tree' xs' tm'

/-- `_setAllHyperParameters(x)`, core.py 696-720 -/
def TM.setAll (tm : TM K) (xs : List (HVal K)) : Except PyErr (TM K) :=
  setLoop false tm.flatNames tm.nameTree xs tm

/-- `_setSelectedHyperParameters(x)`, core.py 722-759; `sel` is `selectedHyperParameters` -/
def TM.setSelected (tm : TM K) (sel : List String) (xs : List (HVal K)) : Except PyErr (TM K) :=
  if sel = [] then tm.setAll xs else setLoop true sel tm.nameTree xs tm

/-- `for i in iFound: value = value[i]`, core.py 684-686 -/
def Nest.at : Nest α → List ℕ → Option (Nest α)
  | x, [] => some x
  | .list l, i :: p => match (l[i]? : Option (Nest α)) with
      | some e => Nest.at e p
      | none => none
  | .item _, _ :: _ => none

/-- The loop of `_unpackSelectedHyperParameters`, core.py 678-691.  Simplification: indexing failures are `IndexError`; the value found is
a leaf of the value tree. -/
def unpackLoop (vt : List (Nest (HVal K))) : List String → List (Nest String) → Except PyErr (List (HVal K))
  | [], _ => .ok []
  | n :: ns, tree =>
      let index := recursiveIndex tree n
      if index.isEmpty then .error .configuration                  -- 681-682
      else match (Nest.list vt).at index with
        | some (.item v) => do
            let tree' ← assignNested tree index " "
            let r ← unpackLoop vt ns tree'
            .ok (v :: r)
        | _ => .error .indexError

/-- `_unpackSelectedHyperParameters()`, core.py 658-694 -/
def TM.unpackSelected (tm : TM K) (sel : List String) : Except PyErr (List (HVal K)) :=
  if sel = [] then .ok tm.flatValues else unpackLoop tm.valueTree sel tm.nameTree

/-- `_getHyperParameterIndex`, core.py 803-824 -/
def TM.hyperIndex (tm : TM K) (name : String) : Except PyErr ℕ :=
  if name ∈ tm.flatNames then .ok (tm.flatNames.idxOf name) else .error .postProcessing

/-- `getHyperParameterValue`, core.py 826-839 -/
def TM.getValue (tm : TM K) (name : String) : Except PyErr (HVal K) := do
  let i ← tm.hyperIndex name
  match (tm.flatValues[i]? : Option (HVal K)) with
  | some v => .ok v
  | none => .error .indexError

/-! ## Constructors of the elementary models -/

/-- Value argument of a constructor: a value that is stored as is, or a Python list/tuple of numbers (converted by `np.array`). -/
inductive VArg (K : Type)
  | val (v : HVal K)
  | list (l : List K)

/-- `if isinstance(value, (list, tuple)): value = np.array(value)`, e.g. transitionModels.py 79-80 -/
def VArg.conv : VArg K → HVal K
  | .val v => v
  | .list l => .array l

/-- `Static()`, transitionModels.py 38-44 -/
def mkStatic : TM K := .leaf .static [] [] (some (.item .none))
/-- `Independent()`, transitionModels.py 328-334 -/
def mkIndependent : TM K := .leaf .independent [] [] (some (.item .none))
/-- `GaussianRandomWalk(name, value, target, prior)`, transitionModels.py 78-91 -/
def mkGRW (name : String) (value : VArg K) (target : Option String) (prior : Nest (HPrior K)) : Except PyErr (TM K) :=
  match target with
  | none => .error .configuration
  | some tg => .ok (.leaf (.grw tg) [name] [value.conv] (some prior))
/-- `AlphaStableRandomWalk(...)`, transitionModels.py 136-153 -/
def mkAlphaStable (n1 : String) (v1 : VArg K) (n2 : String) (v2 : VArg K) (target : Option String) (prior : Nest (HPrior K)) :
    Except PyErr (TM K) :=
  match target with
  | none => .error .configuration
  | some tg => .ok (.leaf (.alphaStable tg) [n1, n2] [v1.conv, v2.conv] (some prior))
/-- `ChangePoint(name, value, prior)`, transitionModels.py 275-284 -/
def mkChangePoint (name : String) (value : VArg K) (prior : Nest (HPrior K)) : TM K :=
  .leaf .changePoint [name] [value.conv] (some prior)
/-- `RegimeSwitch(name, value, prior)`, transitionModels.py 380-389 -/
def mkRegimeSwitch (name : String) (value : VArg K) (prior : Nest (HPrior K)) : TM K :=
  .leaf .regimeSwitch [name] [value.conv] (some prior)
/-- `NotEqual(name, value, prior)`, transitionModels.py 436-445 -/
def mkNotEqual (name : String) (value : VArg K) (prior : Nest (HPrior K)) : TM K :=
  .leaf .notEqual [name] [value.conv] (some prior)
/-- `BreakPoint(name, value, prior)`, transitionModels.py 831-837 -/
def mkBreakPoint (name : String) (value : VArg K) (prior : Nest (HPrior K)) : TM K :=
  .leaf .breakPoint [name] [value.conv] (some prior)
/-- `BivariateRandomWalk(...)`, transitionModels.py 848-867.  A list passed as `value3` is converted into `value2` (857-858) and
stays a list itself. -/
def mkBivariate (n1 : String) (v1 : VArg K) (n2 : String) (v2 : VArg K) (n3 : String) (v3 : VArg K) (prior : Nest (HPrior K)) : TM K :=
  match v3 with
  | .val v3 => .leaf .bivariate [n1, n2, n3] [v1.conv, v2.conv, v3] (some prior)
  | .list l => .leaf .bivariate [n1, n2, n3] [v1.conv, .array l, .pylist l] (some prior)
/-- The argument `prior` of `Deterministic`: `None`, an iterable (list, tuple, array), or a single callable/random variable. -/
inductive DetPrior (K : Type)
  | none
  | iter (l : List (Nest (HPrior K)))
  | single (p : HPrior K)
/-- `Deterministic(function, target, prior)`, transitionModels.py 503-543; `args` are the keyword arguments of the function with their default
values.  An iterable of the right length is accepted, but the attribute `prior` is never assigned (536-543). -/
def mkDeterministic (f : K → List K → K) (args : List (String × VArg K)) (target : Option String) (prior : DetPrior K) :
    Except PyErr (TM K) :=
  match target with
  | Option.none => .error .configuration
  | some tg =>
      let names := args.map (·.1)
      let vals := args.map (·.2.conv)
      match prior with
      | .none => .ok (.leaf (.deterministic f tg) names vals (some (.list (List.replicate args.length (.item .none)))))
      | .iter l => if l.length ≠ args.length then .error .configuration
          else .ok (.leaf (.deterministic f tg) names vals Option.none)
      | .single p => .ok (.leaf (.deterministic f tg) names vals (some (.list [.item p])))

end BL
