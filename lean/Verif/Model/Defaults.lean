import Verif.Model.Likelihood
import Verif.Model.Study
import Verif.Model.Parser
import Verif.Model.Fit

/-!
# Automatic parameter values and default priors of the built-in observation models (observationModels.py 394-917)

Used if the user gives neither parameter values nor a prior.  Here values that are not finite matter, so the priors have values in `FV`.
-/

set_option linter.unusedSectionVars false

namespace BL

/-- the observations that are not missing (`np.ravel(rawData)` without nan); for GaussianMean the first components (720) -/
def present (raw : List (Option ℝ)) : List ℝ := raw.filterMap id

/-- `np.nanmean`; `none` = nan -/
noncomputable def nanMean (raw : List (Option ℝ)) : Option ℝ :=
  if present raw = [] then none else some ((present raw).sum / ((present raw).length : ℝ))

/-- `np.nanstd`: root of the mean squared deviation from the mean -/
noncomputable def nanStd (raw : List (Option ℝ)) : Option ℝ :=
  (nanMean raw).map fun m => Real.sqrt (((present raw).map fun x => (x - m) ^ 2).sum / ((present raw).length : ℝ))

/-- `np.nanmax` -/
noncomputable def nanMax (raw : List (Option ℝ)) : Option ℝ := listMax (present raw)

/-- `np.nanmin` -/
noncomputable def nanMin (raw : List (Option ℝ)) : Option ℝ := (listMax ((present raw).map (- ·))).map (- ·)

/-- `estimateParameterValues` for parameter number `j`: 441-458, 504-520, 569-589, 637-657, 708-728, 769-786, 833-852, 898-917.  `none`: an exception, or
(without any observation) a grid of nan. -/
noncomputable def OM.estimate (m : OM) (j : ℕ) (raw : List (Option ℝ)) : Option (List ℝ) :=
  match m, j with
  | .bernoulli, 0 => some (cint 0 1 1000)                                                       -- 456
  | .poisson, 0 => (nanMax raw).map fun M => oint 0 (5 / 4 * M) 1000                              -- 518
  | .gaussian, 0 | .laplace, 0 => (nanMean raw).bind fun μ => (nanStd raw).map fun s => cint (μ - 2 * s) (μ + 2 * s) 200
  | .gaussian, 1 => (nanStd raw).map fun s => oint 0 (2 * s) 200
  | .laplace, 1 => (nanStd raw).map fun s => oint 0 (Real.sqrt 2 * s) 200
  | .gaussianMean, 0 => (nanMin raw).bind fun a => (nanMax raw).map fun b => oint (a - (b - a)) (b + (b - a)) 1000
  | .whiteNoise, 0 => (nanStd raw).map fun s => oint 0 (2 * s) 1000
  | .ar1, 0 | .scaledAR1, 0 => some (oint (-1) 1 200)
  | .ar1, 1 | .scaledAR1, 1 => (nanStd raw).map fun s => oint 0 (2 * s) 200
  | _, _ => none

/-- `np.sqrt` -/
noncomputable def FV.sqrt : FV ℝ → FV ℝ
  | .fin x => if x < 0 then .nan else .fin (Real.sqrt x)
  | .pinf => .pinf
  | _ => .nan

/-- The default prior at one point of the grid: the methods `jeffreys`, lines 460-464, 522-526, 591-595, 659-663, 788-792; `none`: flat prior (691, 816, 878). -/
noncomputable def OM.defaultPrior (m : OM) : Option ((ℕ → ℝ) → FV ℝ) :=
  match m with
  | .bernoulli => some fun θ => FV.div (.fin 1) (FV.sqrt (.fin (θ 0 * (1 - θ 0))))
  | .poisson => some fun θ => FV.sqrt (FV.div (.fin 1) (.fin (θ 0)))
  | .gaussian | .laplace => some fun θ => FV.div (.fin 1) (.fin (θ 1 ^ 2))
  | .whiteNoise => some fun θ => FV.div (.fin 1) (.fin (θ 0))
  | .gaussianMean | .ar1 | .scaledAR1 => none

variable {d : ℕ} {gs : Fin d → ℕ}

/-- a finite value -/
def FV.fin? : FV ℝ → Option ℝ
  | .fin x => some x
  | _ => none

open Classical in
/-- A prior given as a function with possibly infinite values, core.py 224-235.  If one of its values is infinite or nan, so is the sum, and the quotient contains nan: an array that is not finite.
(The attribute itself stays the function.  This makes no difference for a fit of non-empty data, which ends at the first data point.) -/
noncomputable def functionPrior (v : Idx gs → FV ℝ) : PriorSpec ℝ gs :=
  if ∀ x, (v x).fin?.isSome then .func fun x => (v x).fin?.getD 0 else .array none

/-- the attribute `prior` of a model created without the argument `prior`, on a parameter grid -/
noncomputable def OM.defaultSpec (m : OM) (grid : (a : Fin d) → Fin (gs a) → ℝ) : PriorSpec ℝ gs :=
  match m.defaultPrior with
  | none => .none
  | some f => functionPrior fun x => f (gridPoint grid x)

/-- A model created without arguments, as `setObservationModel` sees it.  `names`: the parameter names, `obs`: the observation in an entry of the data (`none` = nan). -/
noncomputable def OM.auto {D : Type} (m : OM) (names : List String) (obs : D → Option ℝ) : OModel ℝ D :=
  ⟨names, names.map fun _ => none, fun n raw => m.estimate (names.idxOf n) (raw.map obs), m.segmentLength⟩

end BL
