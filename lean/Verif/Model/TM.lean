import Verif.Model.Basic

/-!
# Transition-model objects (transitionModels.py)

Objects are immutable values here; the attributes `study`, `latticeConstant`, `tOffset`, which
the code pushes into sub-models before every use (transitionModels.py 646-648, 657-659,
770-772, 781-783), are passed as arguments of the compute functions instead.
-/

namespace BL

/-- Nested Python lists/tuples (used by `_unpackHyperParameters`, `_unpackHyperPriors`,
`helper.flatten`, `helper.recursiveIndex`, `helper.assignNestedItem`). -/
inductive Nest (α : Type)
  | item (a : α)
  | list (l : List (Nest α))

/-- Value of a hyper-parameter as stored in `hyperParameterValues`:
`None`, a number, a numpy array (lists/tuples are converted by the constructors,
e.g. transitionModels.py 79-80) or the string `'all'`.  A Python list is stored only by BivariateRandomWalk
(transitionModels.py 857-858 converts the wrong variable). -/
inductive HVal (K : Type)
  | none
  | scalar (v : K)
  | array (vs : List K)
  | all
  | pylist (vs : List K)
  deriving DecidableEq

/-- A single hyper-prior: `None`, a callable, a numpy array, a sympy random variable (given by its
density, evaluated externally), or a plain number (left over when a Python list of probabilities is flattened). -/
inductive HPrior (K : Type)
  | none
  | func (f : K → K)
  | arr (l : List K)
  | rv (pdf : K → K)
  | num (v : K)

/-- Kinds of elementary transition models. -/
inductive Leaf (K : Type)
  /-- transitionModels.py 34-63 -/
  | static
  /-- 66-118; `target` is the attribute `selectedParameter` -/
  | grw (target : String)
  /-- 121-260 -/
  | alphaStable (target : String)
  /-- 263-317 -/
  | changePoint
  /-- 320-363 -/
  | independent
  /-- 366-415 -/
  | regimeSwitch
  /-- 418-474 -/
  | notEqual
  /-- 477-606; `f t values` is the user function with keyword arguments in the order of
  `hyperParameterNames` -/
  | deterministic (f : K → List K → K) (target : String)
  /-- 843-911 -/
  | bivariate
  /-- 821-840; has no attribute `hyperParameterNames` -/
  | breakPoint

/-- Transition model objects.  `prior` is the attribute of that name; `none` = the
attribute does not exist on the object. -/
inductive TM (K : Type)
  | leaf (k : Leaf K) (names : List String) (values : List (HVal K)) (prior : Option (Nest (HPrior K)))
  /-- CombinedTransitionModel, transitionModels.py 609-662 -/
  | combined (models : List (TM K))
  /-- SerialTransitionModel, transitionModels.py 665-818; `mask` is `changePointMask` -/
  | serial (names : List String) (values : List (HVal K)) (prior : List (Nest (HPrior K)))
      (mask : List Bool) (models : List (TM K))

end BL
