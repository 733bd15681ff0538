import Mathlib.Algebra.Order.Field.Basic
import Mathlib.Algebra.BigOperators.Group.Finset.Basic
import Mathlib.Algebra.BigOperators.Fin
import Mathlib.Data.Fintype.Pi
import Mathlib.Data.Fintype.BigOperators

/-!
# Basic vocabulary of the model

Numbers are elements of a linearly ordered field `K` (exact arithmetic).  See DESIGN.md, section 1.
-/

namespace BL

/-- Python exceptions raised by the modelled code. -/
inductive PyErr
  | configuration | postProcessing | notImplemented
  | typeError | indexError | valueError | attributeError | nameError | overflow | parse
  deriving DecidableEq, Repr

/-- A number in log-space, represented by the number it is the logarithm of
(`lin = 0` is `-inf`).  Models the use of `np.log`, `-np.inf` and sums of logarithms in
core.py, e.g. lines 399-417.  `Verif/Model/LogReal.lean` relates it to `Real.log`. -/
structure LogV (K : Type) where
  lin : K
  deriving DecidableEq, Repr

namespace LogV
variable {K : Type}
/-- `np.log(x)` for `x ≥ 0`. -/
def log (x : K) : LogV K := ⟨x⟩
/-- `np.exp(l)`. -/
def exp (l : LogV K) : K := l.lin
/-- `-np.inf`. -/
def ninf [Zero K] : LogV K := ⟨0⟩
/-- Sum of logarithms. -/
instance [Mul K] : Add (LogV K) := ⟨fun a b => ⟨a.lin * b.lin⟩⟩
/-- `0 = log 1`. -/
instance [One K] : Zero (LogV K) := ⟨⟨1⟩⟩
/-- `np.isfinite(l)` (`+inf`/`nan` do not occur for values of this type). -/
def isFinite [Zero K] [DecidableEq K] (l : LogV K) : Bool := l.lin ≠ 0
@[simp] theorem exp_add [Mul K] (a b : LogV K) : (a + b).exp = a.exp * b.exp := rfl
@[simp] theorem exp_zero [One K] : (0 : LogV K).exp = 1 := rfl
@[simp] theorem exp_log (x : K) : (log x).exp = x := rfl
@[simp] theorem exp_ninf [Zero K] : (ninf : LogV K).exp = 0 := rfl
@[simp] theorem log_exp (x : LogV K) : log (x.exp) = x := rfl
theorem ext_exp {a b : LogV K} (h : a.exp = b.exp) : a = b := by
  cases a; cases b; simpa [exp] using h
end LogV

/-- An entry of an array created by `np.empty`: uninitialised memory until it is written
(core.py 356, 360, 480); `nan` for non-finite results. -/
inductive Cell (α : Type)
  | uninit
  | nan
  | val (a : α)
  deriving DecidableEq, Repr

/-- Index type of the parameter grid with `gridSize = gs` (core.py 157, 169). -/
abbrev Idx {d : ℕ} (gs : Fin d → ℕ) := (a : Fin d) → Fin (gs a)

/-- A numpy array on the parameter grid.  `none`: the array contains non-finite entries. -/
abbrev Arr (K : Type) {d : ℕ} (gs : Fin d → ℕ) := Option (Idx gs → K)

section
variable {K : Type} [Field K] [LinearOrder K]
variable {ι : Type} [Fintype ι]

/-- `a /= np.sum(a)`.  With a vanishing sum numpy produces `0/0 = nan` entries
(all arrays are non-negative, so all entries are zero then). -/
def normalize (a : ι → K) : Option (ι → K) :=
  if ∑ x, a x = 0 then none else some fun x => a x / ∑ y, a y

/-- `a /= c` for a scalar; a zero divisor yields non-finite entries. -/
def divScalar (a : ι → K) (c : K) : Option (ι → K) :=
  if c = 0 then none else some fun x => a x / c

end
end BL
