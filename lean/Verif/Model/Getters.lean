import Verif.Model.HyperStudy

/-!
# Queries of a fitted study: mean values and marginal parameter distributions (core.py 567-602, 841-999)

Plotting is not modelled.  `posteriorSequence` is a list of arrays (`none`: the array contains entries that are not numbers or were never
written); `computed = false` is the initial value `[]` of the attribute.
-/

set_option linter.unusedSectionVars false

namespace BL
variable {K : Type} [Field K] [LinearOrder K] {d : ℕ} {gs : Fin d → ℕ}

/-- Attributes of a study read by the queries. -/
structure Fitted (K : Type) {d : ℕ} (gs : Fin d → ℕ) where
  /-- `observationModel.parameterNames` -/
  names : Fin d → String
  /-- `marginalGrid` -/
  grid : (a : Fin d) → Fin (gs a) → K
  /-- `latticeConstant` -/
  lattice : Fin d → K
  /-- `formattedTimestamps` -/
  ts : List K
  /-- `posteriorSequence` -/
  posts : List (Arr K gs)
  /-- `posteriorMeanValues` -/
  means : Fin d → List K
  computed : Bool

/-- The attributes after a fit (core.py 355-356, 480-483); `posteriorSequence == []` (880, 950) holds if no fit has stored posteriors.  Arrays that contain values
that are not numbers, and entries that were never written, are `none`. -/
def FitState.fitted (E : Env K gs) (grid : (a : Fin d) → Fin (gs a) → K) (ts : List K) (S : FitState K gs) : Fitted K gs :=
  ⟨E.names, grid, E.lattice, ts, S.posts.map Cell.get?, S.means, !S.posts.isEmpty⟩

/-- The time argument of `getParameterDistribution`. -/
inductive TimeArg (K : Type)
  | at (t : K)
  | avg

/-- Search for a parameter name, core.py 852-860, 897-905, 960-968: the loop keeps the last match. -/
def paramIndex (names : Fin d → String) (name : String) : Option (Fin d) :=
  (List.finRange d).foldl (fun acc i => if names i = name then some i else acc) none

/-- `np.squeeze(np.apply_over_axes(np.sum, dist, axesToMarginalize))`, core.py 915, 979-980: sum over all other parameters.  Simplification: a parameter with a
single value, for which `squeeze` removes the axis, cannot be configured (core.py 166). -/
def marginal (a : Fin d) (p : Idx gs → K) : List K :=
  (List.finRange (gs a)).map fun i => ∑ x, if x a = i then p x else 0

/-- `p /= dx`, core.py 917-918, 982-983 -/
def toDensity (density : Bool) (dx : K) (l : List K) : Option (List K) :=
  if density then (if dx = 0 then none else some (l.map (· / dx))) else some l

/-- `np.sum(posteriorSequence, axis=0)/len(posteriorSequence)`, core.py 886 -/
def timeAverage (posts : List (Arr K gs)) : Arr K gs :=
  if posts.length = 0 then none
  else (allSome posts).map fun ps x => (ps.map fun p => p x).sum / (posts.length : K)

/-- `list(l).index(t)` after the check `t in l` -/
def indexOf? (l : List K) (t : K) : Option ℕ := if t ∈ l then some (l.idxOf t) else none

/-- `Study.getParameterMeanValues`, core.py 841-862 -/
def Fitted.meanValues (F : Fitted K gs) (name : String) : Except PyErr (List K) :=
  match paramIndex F.names name with
  | none => .error .postProcessing
  | some a => .ok (F.means a)

/-- the selected posterior distribution, core.py 884-894 -/
def Fitted.pick (F : Fitted K gs) : TimeArg K → Except PyErr (Arr K gs)
  | .avg => .ok (timeAverage F.posts)
  | .at t => match indexOf? F.ts t with
      | none => .error .postProcessing
      | some k => match F.posts[k]? with
          | none => .error .indexError
          | some p => .ok p

/-- `Study.getParameterDistribution`, core.py 864-928.  The second component of the result is `none` if it is not finite. -/
def Fitted.distribution (F : Fitted K gs) (t : TimeArg K) (name : String) (density : Bool) :
    Except PyErr (List K × Option (List K)) :=
  if F.computed = false then .error .postProcessing
  else match F.pick t with
    | .error e => .error e
    | .ok dist => match paramIndex F.names name with
        | none => .error .postProcessing
        | some a => .ok (List.ofFn (F.grid a), dist.bind fun p => toDensity density (F.lattice a) (marginal a p))

/-- `Study.getPD`, core.py 930-934 -/
def Fitted.getPD (F : Fitted K gs) (t : TimeArg K) (name : String) (density : Bool) := F.distribution t name density

/-- `Study.getParameterDistributions`, core.py 936-999.  `dt[0]` (955) needs two time stamps. -/
def Fitted.distributions (F : Fitted K gs) (name : String) (density : Bool) :
    Except PyErr (List K × List (Option (List K))) :=
  if F.computed = false then .error .postProcessing
  else if F.ts.length < 2 then .error .indexError
  else match paramIndex F.names name with
    | none => .error .postProcessing
    | some a => .ok (List.ofFn (F.grid a), F.posts.map fun p => p.bind fun p => toDensity density (F.lattice a) (marginal a p))

/-- `Study.simulate`, core.py 567-602; `pdf x` is `observationModel.pdf(grid, [x])` (a function of one observation, segment length one).
The result is `none` if it is not finite.  Simplification: `formattedTimestamps` exists (it is `None` before the first fit, where a time argument raises a
`TypeError`). -/
def Fitted.simulate {D : Type} (F : Fitted K gs) (segmentLength : ℕ) (pdf : D → Idx gs → K) (xs : List D) (t : Option K) (density : Bool) :
    Except PyErr (Option (List K)) :=
  if segmentLength > 1 then .error .notImplemented                     -- 582-584
  else match F.pick (t.elim .avg .at) with                                -- 587-594
    | .error e => .error e
    | .ok none => .ok (if xs.isEmpty then some [] else none)
    | .ok (some post) =>
        let prob := xs.map fun xi => ∑ g, pdf xi g * post g            -- 597
        .ok (if density then some prob                                 -- 599-600
          else if xs.isEmpty then some []
          else if prob.sum = 0 then none else some (prob.map (· / prob.sum)))

end BL
