import Verif.Model.HyperStudy
import Verif.Lemmas.FitLin
import Mathlib.Analysis.SpecialFunctions.Log.ENNRealLogExp

/-!
# Log-space numbers are logarithms

The model represents a number in log-space by the number it is the logarithm of (`LogV`).  Over the real numbers `LogV.real` gives the value that the code holds (an extended
real number, `-inf` is `⊥`); the theorems say that the operations of the model are the operations of the code under this map.
-/

set_option linter.unusedSectionVars false

namespace BL

/-- the value that the code holds: `np.log` of the represented number, `-inf` for zero -/
noncomputable def LogV.real (l : LogV ℝ) : EReal := ENNReal.log (ENNReal.ofReal l.lin)

/-- `np.log(x)` for positive `x` -/
theorem LogV.real_log {x : ℝ} (h : 0 < x) : (LogV.log x).real = ((Real.log x : ℝ) : EReal) := ENNReal.log_ofReal_of_pos h

/-- `np.log(0.)` -/
theorem LogV.real_ninf : (LogV.ninf : LogV ℝ).real = ⊥ := by simp [LogV.real, LogV.ninf]

/-- `0.` -/
theorem LogV.real_zero : (0 : LogV ℝ).real = 0 := by
  change ENNReal.log (ENNReal.ofReal 1) = 0
  simp

/-- `l1 + l2` -/
theorem LogV.real_add {a b : LogV ℝ} (h : 0 ≤ a.lin) : (a + b).real = a.real + b.real := by
  change ENNReal.log (ENNReal.ofReal (a.lin * b.lin)) = _
  rw [ENNReal.ofReal_mul h, ENNReal.log_mul_add]
  rfl

/-- `np.logaddexp(l1, l2)` -/
theorem LogV.real_addexp {a b : LogV ℝ} (ha : 0 ≤ a.lin) (hb : 0 ≤ b.lin) : (a.addexp b).real = ENNReal.log (EReal.exp a.real + EReal.exp b.real) := by
  simp only [LogV.real, ENNReal.exp_log, LogV.addexp]
  rw [ENNReal.ofReal_add ha hb]

/-- `np.exp(l)` -/
theorem LogV.real_exp (l : LogV ℝ) : EReal.exp l.real = ENNReal.ofReal l.exp := by
  rw [LogV.real, ENNReal.exp_log]; rfl

/-- `np.isfinite(l)` -/
theorem LogV.real_isFinite {l : LogV ℝ} (h : 0 ≤ l.lin) : l.isFinite = true ↔ l.real ≠ ⊥ ∧ l.real ≠ ⊤ := by
  have h2 : l.real ≠ ⊤ := by rw [LogV.real, Ne, ENNReal.log_eq_top_iff]; exact ENNReal.ofReal_ne_top
  have h1 : l.real = ⊥ ↔ l.lin = 0 := by
    rw [LogV.real, ENNReal.log_eq_bot_iff, ENNReal.ofReal_eq_zero]
    exact ⟨fun h' => le_antisymm h' h, fun h' => h'.le⟩
  simp [LogV.isFinite, h1, h2]

/-- comparison of log-space numbers -/
theorem LogV.real_le {a b : LogV ℝ} (hb : 0 ≤ b.lin) : a.real ≤ b.real ↔ a.lin ≤ b.lin := by
  rw [LogV.real, LogV.real, ENNReal.log_le_log_iff, ENNReal.ofReal_le_ofReal_iff hb]

variable {d : ℕ} {gs : Fin d → ℕ}

/-- The log-evidence computed by `fit` (core.py 399-417) is the sum of the logarithms of the normalisation constants plus the logarithm of the cell volume. -/
theorem sumLog_real (E : Env ℝ gs) (hE : 0 < E.cell) (steps : List (Step ℝ gs)) (h : ∀ s ∈ steps, 0 < s.norm) :
    (sumLog E steps).real = (((steps.map fun s => Real.log s.norm).sum + Real.log E.cell : ℝ) : EReal) := by
  have hfold : ∀ (l : List (Step ℝ gs)) (a : LogV ℝ), 0 < a.lin → (∀ s ∈ l, 0 < s.norm) →
      0 < (l.foldl (fun l s => l + LogV.log s.norm) a).lin ∧ Real.log (l.foldl (fun l s => l + LogV.log s.norm) a).lin = Real.log a.lin + (l.map fun s => Real.log s.norm).sum := by
    intro l
    induction l with
    | nil => intro a ha _; simp [ha]
    | cons s l ih =>
        intro a ha hl
        have hs := hl s (by simp)
        obtain ⟨h1, h2⟩ := ih (a + LogV.log s.norm) (mul_pos ha hs) fun s' h' => hl s' (by simp [h'])
        refine ⟨h1, ?_⟩
        rw [List.foldl_cons, h2]
        change Real.log (a.lin * s.norm) + _ = _
        rw [Real.log_mul ha.ne' hs.ne', List.map_cons, List.sum_cons, add_assoc]
  obtain ⟨h1, h2⟩ := hfold steps 0 (by exact one_pos) h
  unfold sumLog
  rw [LogV.real_add h1.le, LogV.real_log hE, LogV.real, ENNReal.log_ofReal_of_pos h1, h2]
  have : Real.log (0 : LogV ℝ).lin = 0 := Real.log_one
  rw [this, zero_add, EReal.coe_add]

end BL
