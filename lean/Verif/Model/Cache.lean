import Verif.Model.Transition

/-!
# Kernel caches of AlphaStableRandomWalk and BivariateRandomWalk

Both models keep the convolution kernel and the hyper-parameter values it was made for (transitionModels.py 148-149, 170-187 and 865-866, 884-890) and make a new one
only if the values differ.  The main model (Model/Transition.lean) ignores the cache; here it is added.  A transition model may outlive the parameter grid: `setObservationModel`
gives it the new lattice constants (core.py 172-173), `gridSize` and `parameterNames` are read from the study.

Simplifications: hyper-parameter values are compared as values (lists of numbers; for arrays numpy refuses the comparison).  A kernel is a function of the
offset between two grid points, so a kernel made for another grid can be applied (as in the code, where the convolution accepts kernels of any shape).
-/

set_option linter.unusedSectionVars false

namespace BL
variable {K : Type} [Field K] [LinearOrder K] {d : ℕ}

/-- the two models with a kernel -/
inductive KernelModel
  | alphaStable (target : String)
  | bivariate
  deriving DecidableEq

/-- a kernel: weight of each offset -/
abbrev Kernel (K : Type) (d : ℕ) := (Fin d → ℤ) → K

/-- `createKernel` with normalised widths, transitionModels.py 171-185 and 885-889 -/
def makeKernel {gs : Fin d → ℕ} (E : Env K gs) (m : KernelModel) (vals : List (HVal K)) : Except PyErr (Kernel K d) :=
  match m with
  | .alphaStable target => do
      let c ← scalarAt vals 0
      let al ← scalarAt vals 1
      let a ← E.axis target
      if d = 1 ∨ (d = 2 ∧ ∀ b, gs b % 2 = 0) then
        if E.lattice a = 0 then .error .overflow
        else .ok fun v => if ∀ b, b ≠ a → v b = 0 then E.ext.stableKer (c / E.lattice a) al (v a) else 0
      else if d = 2 then .error .valueError
      else .error .configuration
  | .bivariate => do
      let s1 ← numberAt vals 0
      let s2 ← numberAt vals 1
      let rho ← numberAt vals 2
      if h : d = 2 then
        let a0 : Fin d := ⟨0, by omega⟩
        let a1 : Fin d := ⟨1, by omega⟩
        if E.lattice a0 = 0 ∨ E.lattice a1 = 0 then .error .overflow
        else if s1 ≤ 0 ∨ s2 ≤ 0 ∨ 1 ≤ rho * rho then .error .valueError
        else .ok fun v => E.ext.bivKer (s1 / E.lattice a0) (s2 / E.lattice a1) rho (v a0) (v a1)
      else .error .valueError

/-- convolution and normalisation, transitionModels.py 189-191 and 892-894 -/
def applyKernel {gs : Fin d → ℕ} (k : Kernel K d) (p : Arr K gs) : Arr K gs := p.bind fun q => normalize (convSame k q)

/-- A parameter grid: sizes, and names and lattice constants. -/
abbrev GridEnv (K : Type) (d : ℕ) := (gs : Fin d → ℕ) × Env K gs

/-- The model object: current grid, current hyper-parameter values, `kernelParameters` and `kernel`. -/
structure KState (K : Type) (d : ℕ) where
  grid : GridEnv K d
  vals : List (HVal K)
  cache : Option (List (HVal K) × Kernel K d)

/-- a new object -/
def KState.new (g : GridEnv K d) (vals : List (HVal K)) : KState K d := ⟨g, vals, none⟩

/-- The kernel used by `computeForwardPrior`, and the state afterwards: transitionModels.py 170-187, 884-890. -/
def KState.kernel (m : KernelModel) (s : KState K d) : KState K d × Except PyErr (Kernel K d) :=
  match s.cache with
  | some (v, k) =>
      if v = s.vals then (s, .ok k)
      else match makeKernel s.grid.2 m s.vals with
        | .error e => (s, .error e)
        | .ok k => ({ s with cache := some (s.vals, k) }, .ok k)
  | none => match makeKernel s.grid.2 m s.vals with
      | .error e => (s, .error e)
      | .ok k => ({ s with cache := some (s.vals, k) }, .ok k)

/-- `computeForwardPrior(posterior, t)` (and `computeBackwardPrior`, 193-194, 896-897): new state and result -/
def KState.forward (m : KernelModel) (s : KState K d) (p : Arr K s.grid.1) : KState K d × Except PyErr (Arr K s.grid.1) :=
  ((s.kernel m).1, (s.kernel m).2.map fun k => applyKernel k p)

/-- What can happen to the object: the observation model of the study is replaced, hyper-parameter values are set, a transition is computed. -/
inductive KEvent (K : Type) (d : ℕ)
  | grid (g : GridEnv K d)
  | vals (v : List (HVal K))
  | forward

/-- effect of one event -/
def KState.event (m : KernelModel) (s : KState K d) : KEvent K d → KState K d
  | .grid g => { s with grid := g }
  | .vals v => { s with vals := v }
  | .forward => (s.kernel m).1

/-- effect of a history -/
def KState.run (m : KernelModel) (s : KState K d) (evs : List (KEvent K d)) : KState K d := evs.foldl (KState.event m) s

end BL
