import Verif.Model.Observation
import Mathlib.Analysis.SpecialFunctions.Log.Basic
import Mathlib.Analysis.SpecialFunctions.Pow.Real
import Mathlib.Analysis.Real.Pi.Bounds

/-!
# The built-in observation models (observationModels.py 394-917)

Numbers are real numbers here (`numpy` functions `exp`, `log`, `sqrt` are the real functions; rounding is not modelled).  The models NumPy, SciPy and SymPy
(observationModels.py 59-391) evaluate a density supplied by the user; they are covered by the theorems about arbitrary likelihoods.
-/

set_option linter.unusedSectionVars false

namespace BL

/-- observation models -/
inductive OM
  | bernoulli | poisson | gaussian | laplace | gaussianMean | whiteNoise | ar1 | scaledAR1
  deriving DecidableEq

/-- `segmentLength`, lines 409, 481, 545, 614, 687, 746, 813, 875 -/
def OM.segmentLength : OM → ℕ
  | .ar1 | .scaledAR1 => 2
  | _ => 1

/-- `multiplyLikelihoods`, lines 412, 484, 548, 617, 690, 749, 817, 879 -/
def OM.multiplyLikelihoods : OM → Bool
  | .gaussianMean => false
  | _ => true

/-- number of parameters -/
def OM.nParameters : OM → ℕ
  | .bernoulli | .poisson | .gaussianMean | .whiteNoise => 1
  | .gaussian | .laplace | .ar1 | .scaledAR1 => 2

/-- `dataSegment[i]`; called only if no entry is missing (line 53) and `i < segmentLength`, so the default value is never used. -/
def Seg.num (s : Seg ℝ) (i : ℕ) : ℝ :=
  match s with
  | .flat xs => ((xs[i]?).bind id).getD 0
  | .rows _ _ => 0

/-- `dataSegment[i, j]` -/
def Seg.num2 (s : Seg ℝ) (i j : ℕ) : ℝ :=
  match s with
  | .flat _ => 0
  | .rows w xs => ((xs[i]?).bind fun r => if h : j < w then r ⟨j, h⟩ else none).getD 0

/-- `temp[temp > 1.] = 0.; temp[temp < 0.] = 0.`, lines 431-432 -/
noncomputable def clip01 (p : ℝ) : ℝ := if p > 1 then 0 else if p < 0 then 0 else p

/-- logarithmic form of the Gaussian density used in lines 566-567, 705-706, 767, 830-831, 895-896 -/
noncomputable def gaussForm (sq var : ℝ) : ℝ := Real.exp (-sq / (2 * var) - 1 / 2 * Real.log (2 * Real.pi * var))

/-- the method `pdf` of each model at one point of the parameter grid; `θ n` is the value of `grid[n]` there.  Poisson: the observation must be a non-negative integer (`np.math.factorial`
raises a ValueError otherwise, line 502); other observations are not modelled (value 0). -/
noncomputable def OM.pdf (m : OM) (θ : ℕ → ℝ) (s : Seg ℝ) : ℝ :=
  match m with
  | .bernoulli => if s.num 0 ≠ 0 then clip01 (θ 0) else 1 - clip01 (θ 0)  -- 430-439
  | .poisson =>  -- 502
      if s.num 0 = (⌊s.num 0⌋₊ : ℝ) then θ 0 ^ ⌊s.num 0⌋₊ * Real.exp (-θ 0) / (Nat.factorial ⌊s.num 0⌋₊ : ℝ) else 0
  | .gaussian => gaussForm ((s.num 0 - θ 0) ^ 2) (θ 1 ^ 2)  -- 566-567
  | .laplace => Real.exp (-|s.num 0 - θ 0| / θ 1) / (2 * θ 1)  -- 635
  | .gaussianMean => gaussForm ((s.num2 0 0 - θ 0) ^ 2) (s.num2 0 1 ^ 2)  -- 705-706
  | .whiteNoise => gaussForm (s.num 0 ^ 2) (θ 0 ^ 2)  -- 767
  | .ar1 => gaussForm ((s.num 1 - θ 0 * s.num 0) ^ 2) (θ 1 ^ 2)  -- 830-831
  | .scaledAR1 => gaussForm ((s.num 1 - θ 0 * s.num 0) ^ 2) ((θ 1 * Real.sqrt (1 - θ 0 ^ 2)) ^ 2)  -- 892-896

variable {d : ℕ} {gs : Fin d → ℕ}

/-- parameter values at a point of the grid, in the order of the parameters -/
def gridPoint (grid : (a : Fin d) → Fin (gs a) → ℝ) (x : Idx gs) (n : ℕ) : ℝ := if h : n < d then grid ⟨n, h⟩ (x ⟨n, h⟩) else 0

/-- `processedPdf` of a built-in model -/
noncomputable def OM.likelihood (m : OM) (grid : (a : Fin d) → Fin (gs a) → ℝ) (s : Seg ℝ) : Idx gs → ℝ :=
  processedPdf m.multiplyLikelihoods (fun s x => m.pdf (gridPoint grid x) s) s

end BL
