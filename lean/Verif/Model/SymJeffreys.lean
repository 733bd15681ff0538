import Verif.Model.Jeffreys
import Mathlib.MeasureTheory.Integral.Bochner.Set
import Mathlib.MeasureTheory.Measure.Lebesgue.Basic
import Mathlib.Analysis.Calculus.Deriv.Basic
import Mathlib.LinearAlgebra.Matrix.Determinant.Basic
import Mathlib.Topology.Algebra.InfiniteSum.Defs

/-! # Model of `getJeffreysPrior` (jeffreys.py)

SymPy is idealised: derivatives, sums, integrals, determinants and simplifications are assumed to be exact.  Expressions are modelled by their values: functions of the
values of all symbols. -/

open MeasureTheory

namespace BL

/-- A random variable of `sympy.stats`: the free symbols of its distribution in the (arbitrary) order of `freeSymbols` (helper.py 122-143; symbols are identified with their
names), its density or probability mass as a function of the observation and the values of the free symbols, its support, which may depend on these values (`iterable`: a range of integers, otherwise an interval),
and the values of the free symbols that are compatible with the assumptions about the symbols (e.g. `positive=True`).
Simplification: iterable supports are ranges of integers; other finite sets are not modelled. -/
structure SymLaw (k : ℕ) where
  free : Fin k → String
  density : ℝ → (Fin k → ℝ) → ℝ
  iterable : Bool
  inf : (Fin k → ℝ) → EReal
  sup : (Fin k → ℝ) → EReal
  admissible : (Fin k → ℝ) → Prop

variable {k : ℕ}

/-- an expression: its value for given values of all symbols -/
abbrev SymExpr : Type := (String → ℝ) → ℝ

/-- `density(rv)(x)` with `x = abc.x`, jeffreys.py lines 43-46: the symbol of the name "x" stands for the observation, also if a parameter has this name -/
def SymLaw.pdf (L : SymLaw k) : SymExpr := fun e => L.density (e "x") fun i => e (L.free i)

/-- `diff(f, n)`, lines 56-57 -/
noncomputable def symDiff (f : SymExpr) (n : String) : SymExpr := fun e => deriv (fun s => f (Function.update e n s)) (e n)

/-- `ln(f)`, lines 56-57 -/
noncomputable def symLn (f : SymExpr) : SymExpr := fun e => Real.log (f e)

/-- `func(f, (x, support.inf, support.sup))`, lines 52, 55-58: `summation` for iterable supports, `integrate` for the others -/
noncomputable def SymLaw.total (L : SymLaw k) (f : SymExpr) : SymExpr := fun e =>
  let v : Fin k → ℝ := fun i => e (L.free i)
  if L.iterable then ∑' n : {n : ℤ // L.inf v ≤ ((n : ℝ) : EReal) ∧ ((n : ℝ) : EReal) ≤ L.sup v}, f (Function.update e "x" (n : ℤ))
  else ∫ x in {x : ℝ | L.inf v ≤ (x : EReal) ∧ (x : EReal) ≤ L.sup v}, f (Function.update e "x" x)

/-- the matrix `G`, lines 48-58 -/
noncomputable def SymLaw.info (L : SymLaw k) (e : String → ℝ) : Matrix (Fin k) (Fin k) ℝ :=
  Matrix.of fun i j => L.total (fun e => L.pdf e * symDiff (symLn L.pdf) (L.free i) e * symDiff (symLn L.pdf) (L.free j) e) e

/-- `sqrt(G.det())`, line 61 -/
noncomputable def SymLaw.jeffreys (L : SymLaw k) : SymExpr := fun e => Real.sqrt (L.info e).det

open Classical in
/-- the values of the symbols in a call with positional arguments; symbols that are no arguments do not occur in the expression (value 0) -/
noncomputable def symBind (names : Fin k → String) (v : Fin k → ℝ) : String → ℝ :=
  fun n => if h : ∃ i, names i = n then v h.choose else 0

open Classical in
/-- `getJeffreysPrior(rv)`, jeffreys.py lines 17-68: the function made from the expression (line 68).  `none`: the exception of lines 63-65, raised if the expression is zero, that is, if it vanishes for all
values of the symbols that are compatible with the assumptions about them. -/
noncomputable def getJeffreysPrior (L : SymLaw k) : Option ((Fin k → ℝ) → ℝ) :=
  if ∀ v, L.admissible v → L.jeffreys (symBind L.free v) = 0 then none
  else some fun v => L.jeffreys (symBind L.free v)

end BL
