import Verif.Model.HyperParams
import Verif.Model.Observation

/-!
# Configuration of a study: data, models, consistency check (core.py 93-182, 267-354, 1098-1115; helper.py 90-120)

Methods that may raise after having changed attributes return the new state together with the exception.
-/

set_option linter.unusedSectionVars false

namespace BL
variable {K D : Type} [Field K] [LinearOrder K]

/-- `np.linspace(start, stop, num)` for `num ≥ 0` -/
def linspace (a b : K) (num : ℕ) : List K :=
  (List.range num).map fun i : ℕ => a + (i : K) * ((b - a) / ((num - 1 : ℕ) : K))

/-- `cint(start, stop, num)`, helper.py 107-120 -/
def cint (a b : K) (num : ℕ) : List K := linspace a b num

/-- `oint(start, stop, num)`, helper.py 90-104: `np.linspace(start, stop, num+2)[1:-1]` -/
def oint (a b : K) (num : ℕ) : List K := ((linspace a b (num + 2)).drop 1).dropLast

/-- What the configuration methods use of an observation model: parameter names, parameter values (`None` = estimate),
`estimateParameterValues(name, rawData)` (`none` = exception), `segmentLength`. -/
structure OModel (K D : Type) where
  names : List String
  values : List (Option (List K))
  est : String → List D → Option (List K)
  seg : ℕ

/-- Attributes of a study set by the user (core.py 46-58).  `tm` carries its attribute `latticeConstant`. -/
structure Cfg (K D : Type) where
  rawData : List D
  rawTimestamps : Option (List K)
  om : Option (OModel K D)
  tm : Option (TM K × List K)
  marginalGrid : List (List K)
  lattice : List K
  /-- the grid last created by `np.meshgrid` (169), given by its axes -/
  grid : List (List K)

/-- `Study()`, core.py 45-66 -/
def Cfg.init : Cfg K D := ⟨[], none, none, none, [], [], []⟩

/-- The first argument of `loadData`. -/
inductive DataArg (D : Type)
  | ndarray (l : List D)
  | list (l : List D)
  | other

/-- `loadData(array, timestamps)`, core.py 93-122 -/
def Cfg.loadData (S : Cfg K D) (arg : DataArg D) (ts : Option (List K)) : Cfg K D × Option PyErr :=
  let stamps (data : List D) : Cfg K D :=
    match ts with
    | some ts =>
        if ts.length = data.length then { S with rawData := data, rawTimestamps := some ts }   -- 112-113
        else { S with rawData := data }                                                       -- 115-116: warning only
    | none => { S with rawData := data, rawTimestamps := some ((List.range data.length).map fun i : ℕ => (i : K)) }  -- 118-119
  match arg with
  | .ndarray l => (stamps l, none)
  | .list l => (stamps l, none)
  | .other => (S, some .configuration)                                                        -- 109-110

/-- `v[i+1] - v[i]` -/
def diff : List K → List K
  | x :: y :: l => (y - x) :: diff (y :: l)
  | _ => []

/-- `np.any(np.abs(np.diff(np.diff(v))) > 10 ** -10)`, core.py 161 -/
def irregular (v : List K) : Bool := (diff (diff v)).any fun x => decide (1 / 10 ^ 10 < |x|)

/-- The loop of `setObservationModel`, core.py 145-166: marginal grid and lattice constants built so far, and the exception, if any. -/
def gridLoop (est : String → List D → Option (List K)) (data : List D) :
    List (Option (List K) × String) → List (List K) → List K → (List (List K) × List K) × Option PyErr
  | [], mg, lat => ((mg, lat), none)
  | (v?, n) :: rest, mg, lat =>
      match (match v? with | some v => some v | none => est n data) with
      | none => ((mg, lat), some .configuration)                       -- 152
      | some v =>
          match v with
          | [] => ((mg ++ [v], lat), some .indexError)                 -- 158: `v[0]`
          | [_] => ((mg ++ [v], lat), some .indexError)                -- 166: `v[1]`
          | x :: y :: _ =>
              gridLoop est data rest (mg ++ [v]) (lat ++ [if irregular v then 1 else |x - y|])

/-- `setObservationModel(L)`, core.py 130-176 -/
def Cfg.setOM (S : Cfg K D) (om : OModel K D) : Cfg K D × Option PyErr :=
  let r := gridLoop om.est S.rawData (om.values.zip om.names) [] []
  match r.2 with
  | some e => ({ S with om := some om, marginalGrid := r.1.1, lattice := r.1.2 }, some e)
  | none => ({ S with om := some om, marginalGrid := r.1.1, lattice := r.1.2, grid := r.1.1,
                      tm := S.tm.map fun m => (m.1, r.1.2) }, none)                    -- 172-173

/-- `setTransitionModel(T)`, core.py 267-285 -/
def Cfg.setTM (S : Cfg K D) (tm : TM K) : Cfg K D × Option PyErr :=
  match tm with
  | .leaf .breakPoint _ _ _ => (S, some .configuration)
  | tm => ({ S with tm := some (tm, S.lattice) }, none)

/-- An argument of `set`. -/
inductive SetArg (K D : Type)
  | om (m : OModel K D)
  | tm (m : TM K)
  | other

/-- The loop of `set`, core.py 310-328; `om`, `tm` are the local flags. -/
def setArgs : Bool → Bool → List (SetArg K D) → Cfg K D → Cfg K D × Option PyErr
  | _, _, [], S => (S, none)
  | om, tm, .om m :: l, S =>
      if om then (S, some .configuration)
      else match S.setOM m with
        | (S', some e) => (S', some e)
        | (S', none) => setArgs true tm l S'
  | om, tm, .tm m :: l, S =>
      if tm then (S, some .configuration)
      else match S.setTM m with
        | (S', some e) => (S', some e)
        | (S', none) => setArgs om true l S'
  | _, _, .other :: _, S => (S, some .configuration)

/-- `set(*args)`, core.py 293-328 (keyword arguments other than `silent` are not modelled) -/
def Cfg.set (S : Cfg K D) (args : List (SetArg K D)) : Cfg K D × Option PyErr := setArgs false false args S

/-- `u[np.bincount(i) > 1]` for `u, i = np.unique(names, return_inverse=True)`, core.py 1112-1113 -/
def duplicates (names : List String) : List String := names.dedup.filter fun n => names.count n > 1

/-- `_checkConsistency`, core.py 1098-1115 -/
def Cfg.check (S : Cfg K D) : Except PyErr Unit :=
  if S.rawData.length = 0 then .error .configuration
  else match S.om with
    | none => .error .configuration
    | some _ => match S.tm with
      | none => .error .configuration
      | some tm => if (duplicates tm.1.flatNames).length > 0 then .error .configuration else .ok ()

/-- `a[n-1:]` for `n ≥ 1` -/
def timestampsOf (ts : List K) (n : ℕ) : List K := ts.drop (n - 1)

/-- Beginning of `Study.fit`, core.py 344-350: consistency check, data segments and their timestamps. -/
def Cfg.fitStart (S : Cfg K D) : Except PyErr (List (List D) × List K) := do
  S.check
  match S.om, S.rawTimestamps with
  | some om, some ts => .ok (movingWindow S.rawData om.seg, timestampsOf ts om.seg)
  | some _, none => .error .typeError                        -- `None[...]`
  | none, _ => .error .attributeError                        -- unreachable after the check

/-- Beginning of `HyperStudy.fit`, core.py 1267-1269: here the data are formatted before anything is checked. -/
def Cfg.hyperFitStart (S : Cfg K D) : Except PyErr (List (List D) × List K) :=
  match S.om, S.rawTimestamps with
  | some om, some ts => .ok (movingWindow S.rawData om.seg, timestampsOf ts om.seg)
  | some _, none => .error .typeError
  | none, _ => .error .attributeError

end BL
