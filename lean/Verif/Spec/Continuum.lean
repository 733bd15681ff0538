import Verif.Model.TM
import Mathlib.MeasureTheory.Integral.IntervalIntegral.Basic
import Mathlib.MeasureTheory.Measure.Lebesgue.Basic
import Mathlib.Analysis.SpecialFunctions.Exp
import Mathlib.Analysis.SpecialFunctions.Pow.Real

/-!
# The model without a grid

Bayesian inference with parameters that take all values in a box; nothing here mentions grids or sums.
-/

namespace Spec
open BL MeasureTheory

/-- a function of the parameters (density, likelihood) -/
abbrev Dens (d : ℕ) := (Fin d → ℝ) → ℝ

variable {d : ℕ}

/-- integral over the box from `a` to `b` -/
noncomputable def boxMass (a b : Fin d → ℝ) (ρ : Dens d) : ℝ := ∫ y in Set.Icc a b, ρ y

/-- divided by the integral -/
noncomputable def unitMass (a b : Fin d → ℝ) (ρ : Dens d) : Dens d := fun y => ρ y / boxMass a b ρ

/-- reflection at the ends of an interval: distance from the nearest even multiple of its length, measured from `lo` -/
noncomputable def mirror (lo hi y : ℝ) : ℝ := lo + |y - lo - 2 * (hi - lo) * round ((y - lo) / (2 * (hi - lo)))|

/-- Gaussian random walk of parameter `k`: the step `u` has the density `exp(-u²/2σ²)`, cut off at four standard deviations; at the ends of the parameter range the walk is reflected -/
noncomputable def gaussWalk (a b : Fin d → ℝ) (σ : ℝ) (k : Fin d) (ρ : Dens d) : Dens d := fun y =>
  (∫ u in (-(4 * σ))..(4 * σ), Real.exp (-(u ^ 2) / (2 * σ ^ 2)) * ρ (Function.update y k (mirror (a k) (b k) (y k + u)))) / ∫ u in (-(4 * σ))..(4 * σ), Real.exp (-(u ^ 2) / (2 * σ ^ 2))

/-- How an elementary transition model changes the density of the parameters between the time `t` and the next one.  `reset` is the density after a change-point.  The number counts the change-points
since the last data point (0 or 1), see `Filtered`. -/
def LeafMoves (names : Fin d → String) (a b : Fin d → ℝ) (reset : Dens d) (kind : Leaf ℝ) (vals : List (HVal ℝ)) (t : ℝ) (s s' : Dens d × ℕ) : Prop :=
  match kind with
  | .static => s' = s
  | .grw target => ∃ (k : Fin d) (σ : ℝ), names k = target ∧ (∀ i < k, names i ≠ target) ∧ vals[0]? = some (.scalar σ) ∧ s' = (if 0 < σ then gaussWalk a b σ k s.1 else s.1, s.2)
  | .changePoint => ∃ τ : ℝ, vals[0]? = some (.scalar τ) ∧ s' = if t = τ then (reset, 1) else s
  | .independent => s' = (reset, 0)
  | .regimeSwitch => ∃ v : ℝ, vals[0]? = some (.scalar v) ∧ s.2 = 0 ∧ s' = (unitMass a b fun y => max (s.1 y) ((10 : ℝ) ^ v), 0)
  | .notEqual => ∃ v M : ℝ, vals[0]? = some (.scalar v) ∧ IsGreatest (s.1 '' Set.Icc a b) M ∧ 0 < boxMass a b (fun y => M - s.1 y) ∧
      s' = (unitMass a b fun y => max (unitMass a b (fun y => M - s.1 y) y) ((10 : ℝ) ^ v), 0)
  | _ => False

mutual
/-- The same for all transition models; combined models act one after the other, of a serial model the part after the last break-point up to `t` acts. -/
def Moves (names : Fin d → String) (a b : Fin d → ℝ) (reset : Dens d) : TM ℝ → ℝ → Dens d × ℕ → Dens d × ℕ → Prop
  | .leaf kind _ vals _, t, s, s' => LeafMoves names a b reset kind vals t s s'
  | .combined ms, t, s, s' => MovesAll names a b reset ms t s s'
  | .serial _ vals _ mask ms, t, s, s' => ∃ vs : List ℝ, vals = vs.map .scalar ∧ ∃ s₁, MovesNth names a b reset ms (vs.countP fun v => decide (v ≤ t)) t s s₁ ∧
      s' = if ∃ p ∈ vs.zip mask, p.2 = true ∧ p.1 = t then (reset, 1) else s₁
def MovesAll (names : Fin d → String) (a b : Fin d → ℝ) (reset : Dens d) : List (TM ℝ) → ℝ → Dens d × ℕ → Dens d × ℕ → Prop
  | [], _, s, s' => s' = s
  | m :: ms, t, s, s' => ∃ s₁, Moves names a b reset m t s s₁ ∧ MovesAll names a b reset ms t s₁ s'
def MovesNth (names : Fin d → String) (a b : Fin d → ℝ) (reset : Dens d) : List (TM ℝ) → ℕ → ℝ → Dens d × ℕ → Dens d × ℕ → Prop
  | [], _, _, _, _ => False
  | m :: _, 0, t, s, s' => Moves names a b reset m t s s'
  | _ :: ms, i + 1, t, s, s' => MovesNth names a b reset ms i t s s'
end

/-- Bayesian filtering: with the density `ρ` before the first data point, likelihoods `L` and times, the result contains for every data point its probability density given the earlier ones and the density of the
parameters given the data up to this point.  The last number counts the change-points between data points. -/
inductive Filtered (a b : Fin d → ℝ) (moves : ℝ → Dens d × ℕ → Dens d × ℕ → Prop) : Dens d × ℕ → List (Dens d × ℝ) → List (ℝ × Dens d) → ℕ → Prop
  | done (s) : Filtered a b moves s [] [] 0
  | data (s s' : Dens d × ℕ) (L : Dens d) (t : ℝ) (rest out n) :
      0 < boxMass a b (fun y => s.1 y * L y) → moves t (unitMass a b fun y => s.1 y * L y, 0) s' → Filtered a b moves s' rest out n →
      Filtered a b moves s ((L, t) :: rest) ((boxMass a b (fun y => s.1 y * L y), unitMass a b fun y => s.1 y * L y) :: out) (s.2 + n)

/-- Bayesian smoothing: from densities given the data up to each time, likelihoods and times (in this order) to the densities given all data, and the normalised likelihood of the data as function of the
parameters at the first time before -/
inductive Smoothed (a b : Fin d → ℝ) (moves : ℝ → Dens d × ℕ → Dens d × ℕ → Prop) : List (Dens d × Dens d × ℝ) → List (Dens d) → Dens d → Prop
  | done : Smoothed a b moves [] [] (unitMass a b fun _ => 1)
  | data (ρ L : Dens d) (t : ℝ) (rest posts β) (s' : Dens d × ℕ) :
      Smoothed a b moves rest posts β → 0 < boxMass a b (fun y => ρ y * β y) → moves (t - 1) (fun y => β y * L y, 0) s' → boxMass a b s'.1 ≠ 0 →
      Smoothed a b moves ((ρ, L, t) :: rest) ((unitMass a b fun y => ρ y * β y) :: posts) (unitMass a b s'.1)

/-- the attribute `prior` of an observation model: nothing, a function of the parameters, or random variables with density `π` -/
inductive UserPrior (d : ℕ)
  | none
  | func (π : Dens d)
  | randomVars (π : Dens d)

/-- density before the first data point -/
noncomputable def UserPrior.start (a b : Fin d → ℝ) : UserPrior d → Dens d
  | .none => unitMass a b fun _ => 1
  | .func π => unitMass a b π
  | .randomVars π => π

/-- density after a change-point (random variables are ignored by the transition models, see C05) -/
noncomputable def UserPrior.reset (a b : Fin d → ℝ) : UserPrior d → Dens d
  | .none => unitMass a b fun _ => 1
  | .func π => unitMass a b π
  | .randomVars _ => unitMass a b fun _ => 1

/-- continuous, and functions have an integral that is not zero -/
def UserPrior.Regular (a b : Fin d → ℝ) : UserPrior d → Prop
  | .none => True
  | .func π => ContinuousOn π (Set.Icc a b) ∧ boxMass a b π ≠ 0
  | .randomVars π => ContinuousOn π (Set.Icc a b)

/-- not negative on the box -/
def UserPrior.Nonneg (a b : Fin d → ℝ) : UserPrior d → Prop
  | .none => True
  | .func π => ∀ y ∈ Set.Icc a b, 0 ≤ π y
  | .randomVars π => ∀ y ∈ Set.Icc a b, 0 ≤ π y

/-- continuous and positive on the box -/
def UserPrior.Positive (a b : Fin d → ℝ) : UserPrior d → Prop
  | .none => True
  | .func π => ContinuousOn π (Set.Icc a b) ∧ ∀ y ∈ Set.Icc a b, 0 < π y
  | .randomVars π => ContinuousOn π (Set.Icc a b) ∧ ∀ y ∈ Set.Icc a b, 0 < π y

end Spec
