import Verif.Spec.Kernel
import Mathlib.Analysis.SpecialFunctions.Pow.Real
import Mathlib.Analysis.SpecialFunctions.Trigonometric.Basic
import Mathlib.Algebra.BigOperators.Field
import Mathlib.Tactic.Positivity

/-!
# External functions over the real numbers

The main model takes `10.**x`, the weights of scipy's Gaussian filter and the convolution kernels as parameters.  Here are the formulas of numpy, scipy and of `createKernel`
(exact arithmetic), so that theorems about arbitrary external functions can be applied to the actual ones.  The spline `shift` of scipy.ndimage stays a parameter.
-/

set_option linter.unusedSectionVars false

namespace BL

/-- radius `int(truncate * sigma + 0.5)` with `truncate = 4.0`, as in `scipy.ndimage.gaussian_filter1d` -/
noncomputable def scipyRadius (σ : ℝ) : ℕ := ⌊4 * σ + 1 / 2⌋₊

/-- weights of `scipy.ndimage.gaussian_filter1d`: `exp(-0.5 / sigma**2 * k**2)`, divided by their sum -/
noncomputable def scipyWeight (σ : ℝ) (k : ℤ) : ℝ :=
  Real.exp (-(1 / 2) / σ ^ 2 * (k : ℝ) ^ 2) / ∑ j ∈ Finset.Icc (-(scipyRadius σ : ℤ)) (scipyRadius σ), Real.exp (-(1 / 2) / σ ^ 2 * (j : ℝ) ^ 2)

/-- density of the bivariate normal distribution, up to its constant factor (which cancels in line 909) -/
noncomputable def bivDensity (s1 s2 ρ x y : ℝ) : ℝ := Real.exp (-(1 / 2) / (1 - ρ ^ 2) * ((x / s1) ^ 2 - 2 * ρ * (x / s1) * (y / s2) + (y / s2) ^ 2))

/-- `BivariateRandomWalk.createKernel`, transitionModels.py 899-911: density on the offsets up to `3 * ceil(sigma)`, divided by its sum; zero outside -/
noncomputable def bivKernel (s1 s2 ρ : ℝ) (k l : ℤ) : ℝ :=
  if |k| ≤ 3 * ⌈s1⌉ ∧ |l| ≤ 3 * ⌈s2⌉ then
    bivDensity s1 s2 ρ k l / ∑ i ∈ Finset.Icc (-(3 * ⌈s1⌉)) (3 * ⌈s1⌉), ∑ j ∈ Finset.Icc (-(3 * ⌈s2⌉)) (3 * ⌈s2⌉), bivDensity s1 s2 ρ i j
  else 0

/-- `AlphaStableRandomWalk.createKernel`, transitionModels.py 225-227: inverse real Fourier transform of `m = int(3*l/2+1)` values on `[0, π]` (length `2*(m-1)`) at offset `k` -/
noncomputable def stableKernel (l : ℕ) (c α : ℝ) (k : ℤ) : ℝ :=
  let h := 3 * l / 2
  let f : ℕ → ℝ := fun j => Real.exp (-(|c * (j * (Real.pi / h))| ^ α))
  (f 0 + (-1) ^ k.natAbs * f h + 2 * ∑ j ∈ Finset.Ico 1 h, f j * Real.cos (Real.pi * j * k / h)) / (2 * h)

variable {d : ℕ} {gs : Fin d → ℕ}

/-- The external functions of numpy and scipy; `shift` stays a parameter.  For the alpha-stable kernel all axes are assumed to have the same number `l` of grid points. -/
noncomputable def realExt (l : ℕ) (shift : Fin d → ℝ → (Idx gs → ℝ) → (Idx gs → ℝ)) : Ext ℝ gs where
  pow10 := fun x => (10 : ℝ) ^ x
  gaussR := scipyRadius
  gaussW := scipyWeight
  shift := shift
  stableKer := stableKernel l
  bivKer := bivKernel

theorem scipyWeight_pos (σ : ℝ) (k : ℤ) : 0 < scipyWeight σ k := by
  unfold scipyWeight
  refine div_pos (Real.exp_pos _) (Finset.sum_pos (fun _ _ => Real.exp_pos _) ⟨0, ?_⟩)
  rw [Finset.mem_Icc]; constructor <;> simp

/-- The weights of scipy's filter are symmetric, non-negative and sum to one (the hypotheses about the filter in all theorems). -/
theorem realExt_gaussOK (l : ℕ) (shift : Fin d → ℝ → (Idx gs → ℝ) → (Idx gs → ℝ)) : Spec.GaussOK (realExt l shift) where
  even := by intro s k; simp [realExt, scipyWeight]
  nonneg := fun s k => (scipyWeight_pos s k).le
  sum_one := by
    intro s _
    simp only [realExt, scipyWeight]
    rw [← Finset.sum_div]
    refine div_self (ne_of_gt (Finset.sum_pos (fun _ _ => Real.exp_pos _) ⟨0, ?_⟩))
    rw [Finset.mem_Icc]; constructor <;> simp

theorem bivKernel_nonneg (s1 s2 ρ : ℝ) (k l : ℤ) : 0 ≤ bivKernel s1 s2 ρ k l := by
  unfold bivKernel
  split
  · exact div_nonneg (Real.exp_pos _).le (Finset.sum_nonneg fun _ _ => Finset.sum_nonneg fun _ _ => (Real.exp_pos _).le)
  · exact le_rfl

theorem bivKernel_pos {s1 s2 : ℝ} (h1 : 0 < s1) (h2 : 0 < s2) (ρ : ℝ) : 0 < bivKernel s1 s2 ρ 0 0 := by
  have e1 : 0 ≤ 3 * ⌈s1⌉ := by have := Int.ceil_nonneg h1.le; omega
  have e2 : 0 ≤ 3 * ⌈s2⌉ := by have := Int.ceil_nonneg h2.le; omega
  unfold bivKernel
  rw [if_pos ⟨by simpa using e1, by simpa using e2⟩]
  refine div_pos (Real.exp_pos _) (Finset.sum_pos (fun _ _ => Finset.sum_pos (fun _ _ => Real.exp_pos _) ⟨0, ?_⟩) ⟨0, ?_⟩) <;>
    · rw [Finset.mem_Icc]; constructor <;> omega

/-- the bivariate kernel is symmetric under reflection through the centre -/
theorem bivKernel_even (s1 s2 ρ : ℝ) (k l : ℤ) : bivKernel s1 s2 ρ (-k) (-l) = bivKernel s1 s2 ρ k l := by
  have : bivDensity s1 s2 ρ ((-k : ℤ) : ℝ) ((-l : ℤ) : ℝ) = bivDensity s1 s2 ρ k l := by
    unfold bivDensity
    congr 2
    push_cast
    ring
  simp only [bivKernel, abs_neg, this]

end BL
