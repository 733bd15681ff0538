import Verif.Props.C57
import Verif.Spec.Jeffreys
import Mathlib.MeasureTheory.Integral.IntegralEqImproper
import Mathlib.MeasureTheory.Measure.Lebesgue.Integral
import Mathlib.Analysis.SpecialFunctions.Gamma.Basic
import Mathlib.Tactic.FieldSimp
import Mathlib.Tactic.LinearCombination

/-! # Moments of the normal, Laplace and Poisson distribution -/

set_option linter.unusedSectionVars false

open MeasureTheory

namespace BL
open Spec

theorem IntegralIs.const_mul {Ω : Type} [MeasureSpace Ω] {g : Ω → ℝ} {v : ℝ} (h : IntegralIs g v) (c : ℝ) : IntegralIs (fun x => c * g x) (c * v) :=
  ⟨h.1.const_mul c, by rw [integral_const_mul, h.2]⟩

theorem IntegralIs.add {Ω : Type} [MeasureSpace Ω] {g g' : Ω → ℝ} {v v' : ℝ} (h : IntegralIs g v) (h' : IntegralIs g' v') : IntegralIs (fun x => g x + g' x) (v + v') :=
  ⟨h.1.add h'.1, by rw [integral_add h.1 h'.1, h.2, h'.2]⟩

theorem IntegralIs.congr {Ω : Type} [MeasureSpace Ω] {g g' : Ω → ℝ} {v v' : ℝ} (h : IntegralIs g v) (e : ∀ x, g' x = g x) (e' : v' = v) : IntegralIs g' v' := by
  have : g' = g := funext e
  rw [this, e']; exact h

theorem IntegralIs.shift {g : ℝ → ℝ} {v : ℝ} (h : IntegralIs g v) (μ : ℝ) : IntegralIs (fun x => g (x - μ)) v :=
  ⟨h.1.comp_sub_right μ, by rw [integral_sub_right_eq_self (μ := volume) g μ]; exact h.2⟩

/-- density of the centred normal distribution -/
theorem normal_shift (μ σ x : ℝ) : normalDensity μ σ x = normalDensity 0 σ (x - μ) := by simp [normalDensity]

theorem pow_normal_integrable {σ : ℝ} (hσ : 0 < σ) (k : ℕ) : Integrable fun x => x ^ k * normalDensity 0 σ x := by
  have hb : 0 < 1 / (2 * σ ^ 2) := by positivity
  have := (integrable_rpow_mul_exp_neg_mul_sq hb (s := k) (by have : (0 : ℝ) ≤ k := Nat.cast_nonneg k; linarith)).const_mul (1 / (σ * Real.sqrt (2 * Real.pi)))
  refine this.congr (Filter.Eventually.of_forall fun x => ?_)
  simp only [Real.rpow_natCast, normalDensity, sub_zero]
  rw [show -(1 / (2 * σ ^ 2)) * x ^ 2 = -x ^ 2 / (2 * σ ^ 2) by ring]
  ring

theorem normal_hasDeriv {σ : ℝ} (hσ : 0 < σ) (x : ℝ) : HasDerivAt (normalDensity 0 σ) (-(x / σ ^ 2) * normalDensity 0 σ x) x := by
  have h1 : HasDerivAt (fun x : ℝ => -(x - 0) ^ 2 / (2 * σ ^ 2)) (-(x / σ ^ 2)) x := by
    have := ((((hasDerivAt_id' x).sub_const 0).pow 2).neg).div_const (2 * σ ^ 2)
    refine this.congr_deriv ?_
    push_cast
    field_simp
    ring
  have := (h1.exp).const_mul (1 / (σ * Real.sqrt (2 * Real.pi)))
  refine this.congr_deriv ?_
  unfold normalDensity; ring

/-- recursion for the moments of the normal distribution -/
theorem normal_moment_succ {σ : ℝ} (hσ : 0 < σ) (k : ℕ) :
    ∫ x, x ^ (k + 1) * normalDensity 0 σ x = k * σ ^ 2 * ∫ x, x ^ (k - 1) * normalDensity 0 σ x := by
  have h := integral_mul_deriv_eq_deriv_mul_of_integrable (u := fun x : ℝ => x ^ k) (v := normalDensity 0 σ) (u' := fun x : ℝ => k * x ^ (k - 1))
    (v' := fun x => -(x / σ ^ 2) * normalDensity 0 σ x) (fun x _ => hasDerivAt_pow k x) (fun x _ => normal_hasDeriv hσ x) ?_ ?_ ?_
  · have e1 : ∀ x : ℝ, x ^ k * (-(x / σ ^ 2) * normalDensity 0 σ x) = -(1 / σ ^ 2) * (x ^ (k + 1) * normalDensity 0 σ x) := by
      intro x; rw [pow_succ]; ring
    have e2 : ∀ x : ℝ, (k : ℝ) * x ^ (k - 1) * normalDensity 0 σ x = k * (x ^ (k - 1) * normalDensity 0 σ x) := by intro x; ring
    simp only [e1, e2, integral_const_mul] at h
    have hs : σ ^ 2 ≠ 0 := by positivity
    field_simp at h
    linarith
  · refine ((pow_normal_integrable hσ (k + 1)).const_mul (-(1 / σ ^ 2))).congr (Filter.Eventually.of_forall fun x => ?_)
    simp only [Pi.mul_apply]; rw [pow_succ]; ring
  · refine ((pow_normal_integrable hσ (k - 1)).const_mul (k : ℝ)).congr (Filter.Eventually.of_forall fun x => ?_)
    simp only [Pi.mul_apply]; ring
  · exact pow_normal_integrable hσ k

theorem normal_moments {σ : ℝ} (hσ : 0 < σ) : IntegralIs (fun x => x ^ 0 * normalDensity 0 σ x) 1 ∧ IntegralIs (fun x => x ^ 1 * normalDensity 0 σ x) 0 ∧
    IntegralIs (fun x => x ^ 2 * normalDensity 0 σ x) (σ ^ 2) ∧ IntegralIs (fun x => x ^ 3 * normalDensity 0 σ x) 0 ∧ IntegralIs (fun x => x ^ 4 * normalDensity 0 σ x) (3 * σ ^ 4) := by
  have h0 : ∫ x, x ^ 0 * normalDensity 0 σ x = 1 := by simpa using (normal_isDensity hσ 0).total
  have h1 := normal_moment_succ hσ 0
  have h2 := normal_moment_succ hσ 1
  have h3 := normal_moment_succ hσ 2
  have h4 := normal_moment_succ hσ 3
  norm_num only [Nat.cast_zero, Nat.cast_one, Nat.cast_ofNat] at h1 h2 h3 h4
  refine ⟨⟨pow_normal_integrable hσ 0, h0⟩, ⟨pow_normal_integrable hσ 1, h1.trans (by simp)⟩, ⟨pow_normal_integrable hσ 2, h2.trans (by rw [h0]; ring)⟩,
    ⟨pow_normal_integrable hσ 3, h3.trans ?_⟩, ⟨pow_normal_integrable hσ 4, h4.trans ?_⟩⟩
  · rw [h1]; ring
  · rw [h2, h0]; ring

/-- expectation of a polynomial of degree four under a normal distribution -/
theorem normal_poly {σ : ℝ} (hσ : 0 < σ) (μ a0 a1 a2 a3 a4 : ℝ) :
    IntegralIs (fun x => (a0 + a1 * (x - μ) + a2 * (x - μ) ^ 2 + a3 * (x - μ) ^ 3 + a4 * (x - μ) ^ 4) * normalDensity μ σ x) (a0 + a2 * σ ^ 2 + 3 * a4 * σ ^ 4) := by
  obtain ⟨h0, h1, h2, h3, h4⟩ := normal_moments hσ
  have := IntegralIs.shift (IntegralIs.add (IntegralIs.add (IntegralIs.add (IntegralIs.add (IntegralIs.const_mul h0 a0) (IntegralIs.const_mul h1 a1)) (IntegralIs.const_mul h2 a2)) (IntegralIs.const_mul h3 a3))
    (IntegralIs.const_mul h4 a4)) μ
  refine IntegralIs.congr this (fun x => ?_) (by ring)
  rw [normal_shift μ]; ring

/-- moments of the exponential distribution of `|x|` -/
theorem abs_moment {b : ℝ} (hb : 0 < b) (k : ℕ) : IntegralIs (fun x => |x| ^ k * laplaceDensity 0 b x) (k.factorial * b ^ k) := by
  have hv : ∫ x, |x| ^ k * laplaceDensity 0 b x = k.factorial * b ^ k := by
    have e : ∀ x : ℝ, |x| ^ k * laplaceDensity 0 b x = (fun y : ℝ => y ^ k * (1 / (2 * b) * Real.exp (-(y / b)))) |x| := by
      intro x; simp [laplaceDensity]
    simp only [e]
    rw [integral_comp_abs (f := fun y : ℝ => y ^ k * (1 / (2 * b) * Real.exp (-(y / b))))]
    have h := Real.integral_rpow_mul_exp_neg_mul_Ioi (a := k + 1) (r := 1 / b) (by positivity) (by positivity)
    have e2 : ∀ y : ℝ, y ^ k * (1 / (2 * b) * Real.exp (-(y / b))) = 1 / (2 * b) * (y ^ ((k : ℝ) + 1 - 1) * Real.exp (-(1 / b * y))) := by
      intro y
      rw [add_sub_cancel_right, Real.rpow_natCast, show 1 / b * y = y / b by ring]; ring
    simp only [e2]
    rw [integral_const_mul, h, Real.Gamma_nat_eq_factorial, one_div_one_div, show ((k : ℝ) + 1) = ((k + 1 : ℕ) : ℝ) by push_cast; ring, Real.rpow_natCast]
    field_simp
    ring
  refine ⟨?_, hv⟩
  by_contra hi
  rw [integral_undef hi] at hv
  have : 0 < (k.factorial : ℝ) * b ^ k := by positivity
  linarith

end BL
