import Verif.Model.Fit
import Verif.Model.HyperParams
import Verif.Model.Config

/-!
# `Study.optimize` (core.py 488-565)

The minimisation routine of scipy is external: it calls `_optimizationStep` at some points, each possibly chosen depending on the values returned before,
and ends with a result.  The model takes the list `points` of these points and the result `best` as arguments; statements for all such lists hold for every behaviour of the
routine.  It is assumed that scipy passes flat arrays of the length of the start vector and needs a start vector of numbers.
-/

set_option linter.unusedSectionVars false

namespace BL
variable {K : Type} [Field K] [LinearOrder K] {d : ℕ} {gs : Fin d → ℕ}

/-- The parts of a study `optimize` does not change: data and observation model are set, so that `_checkConsistency` reduces to the check of the names. -/
structure OptConf (K : Type) {d : ℕ} (gs : Fin d → ℕ) where
  E : Env K gs
  grid : (a : Fin d) → Fin (gs a) → K
  liks : List (Idx gs → K)
  ts : List K

/-- The parts it changes; `selected` is `selectedHyperParameters`. -/
structure OptState (K : Type) {d : ℕ} (gs : Fin d → ℕ) where
  tm : TM K
  selected : List String
  res : FitState K gs

/-- `_checkConsistency`, core.py 1110-1115 -/
def checkNames (tm : TM K) : Except PyErr Unit := if (duplicates tm.flatNames).length > 0 then .error .configuration else .ok ()

/-- `_setSelectedHyperParameters(x)` followed by `fit`, core.py 557-560 and 541-544.  Simplification: if setting or fitting raises, the state is that before the call that
raised (in the code some of the hyper-parameters may already be set). -/
def OptState.setFit (c : OptConf K gs) (s : OptState K gs) (x : List K) (forwardOnly evidenceOnly : Bool) : OptState K gs × Option PyErr :=
  match s.tm.setSelected s.selected (x.map .scalar) with
  | .error e => (s, some e)
  | .ok tm => match checkNames tm with
      | .error e => ({ s with tm := tm }, some e)
      | .ok _ => match fit c.E c.grid tm c.liks c.ts forwardOnly evidenceOnly s.res with
          | .error e => ({ s with tm := tm }, some e)
          | .ok r => ({ s with tm := tm, res := r }, none)

/-- The calls of `_optimizationStep` (core.py 549-565); the list contains the evidences whose negative logarithms are returned to the routine. -/
def OptState.steps (c : OptConf K gs) : OptState K gs → List (List K) → OptState K gs × List (LogV K) × Option PyErr
  | s, [] => (s, [], none)
  | s, x :: xs => match s.setFit c x false true with
      | (s', some e) => (s', [], some e)
      | (s', none) =>
          let r := OptState.steps c s' xs
          (r.1, s'.res.logEv :: r.2.1, r.2.2)

/-- the value is a number -/
def HVal.isScalar : HVal K → Bool
  | .scalar _ => true
  | _ => false

/-- the names to be optimised, core.py 507-524 -/
def selection (tm : TM K) (parameterList : List String) : List String :=
  if parameterList = [] then
    tm.flatNames.filter fun n => n ∉ flatten tm.cpNameTree ++ flatten tm.bpNameTree      -- 521-524
  else parameterList

/-- `optimize(parameterList, forwardOnly)`, core.py 488-547 -/
def OptState.optimize (c : OptConf K gs) (s : OptState K gs) (parameterList : List String) (forwardOnly : Bool) (points : List (List K)) (best : List K) :
    OptState K gs × List (LogV K) × Option PyErr :=
  match checkNames s.tm with                                                             -- 513
  | .error e => ({ s with selected := parameterList }, [], some e)
  | .ok _ =>
      let s1 := { s with selected := selection s.tm parameterList }
      match s1.tm.unpackSelected s1.selected with                                         -- 527
      | .error e => (s1, [], some e)
      | .ok x0 =>
          if x0.length = 0 then ({ s1 with selected := [] }, [], some .configuration)    -- 530-533
          else if x0.all HVal.isScalar = false then (s1, [], some .valueError)            -- scipy: start vector
          else match s1.steps c points with                                              -- 536
            | (s2, evs, some e) => (s2, evs, some e)
            | (s2, evs, none) => match s2.setFit c best forwardOnly false with             -- 541-544
                | (s3, some e) => (s3, evs, some e)
                | (s3, none) => ({ s3 with selected := [] }, evs, none)                  -- 547

end BL
