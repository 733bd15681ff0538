import Verif.Lemmas.Moments
import Verif.Model.Defaults
import Mathlib.Analysis.Calculus.Deriv.Abs
import Mathlib.LinearAlgebra.Matrix.Notation
import Mathlib.LinearAlgebra.Matrix.Determinant.Misc
import Mathlib.Analysis.SpecialFunctions.Exponential

/-! # C65: default priors are Jeffreys priors -/

set_option linter.unusedSectionVars false

open MeasureTheory

namespace Spec

/-- probability of failure (0) and success (1) -/
noncomputable def bernoulliMass (θ : ℕ → ℝ) (x : Fin 2) : ℝ := if x = 1 then θ 0 else 1 - θ 0

end Spec

namespace BL
open Spec

/-! ## scores -/

theorem score_of_hasDeriv {Ω : Type} {f : (ℕ → ℝ) → Ω → ℝ} {θ : ℕ → ℝ} {j : ℕ} {x : Ω} {f' v : ℝ} (h : HasDerivAt (fun s => f (Function.update θ j s) x) f' (θ j))
    (h0 : f θ x ≠ 0) (hv : f' = v * f θ x) : score f θ j x = v := by
  have e : f (Function.update θ j (θ j)) x = f θ x := by rw [Function.update_eq_self]
  have := (h.log (by rw [e]; exact h0)).deriv
  unfold score
  rw [this, e, hv, mul_div_assoc, div_self h0, mul_one]

theorem normal_pos {σ : ℝ} (hσ : 0 < σ) (μ x : ℝ) : 0 < normalDensity μ σ x := by unfold normalDensity; positivity

theorem laplace_pos {b : ℝ} (hb : 0 < b) (μ x : ℝ) : 0 < laplaceDensity μ b x := by unfold laplaceDensity; positivity

theorem normal_deriv_mean {σ : ℝ} (hσ : 0 < σ) (μ x : ℝ) : HasDerivAt (fun m => normalDensity m σ x) ((x - μ) / σ ^ 2 * normalDensity μ σ x) μ := by
  have h1 : HasDerivAt (fun m : ℝ => -(x - m) ^ 2 / (2 * σ ^ 2)) ((x - μ) / σ ^ 2) μ := by
    refine (((((hasDerivAt_id' μ).const_sub x).pow 2).neg).div_const (2 * σ ^ 2)).congr_deriv ?_
    push_cast
    field_simp
  refine ((h1.exp).const_mul (1 / (σ * Real.sqrt (2 * Real.pi)))).congr_deriv ?_
  unfold normalDensity; ring

theorem normal_deriv_scale {σ : ℝ} (hσ : 0 < σ) (μ x : ℝ) : HasDerivAt (fun s => normalDensity μ s x) ((-(1 / σ) + (x - μ) ^ 2 / σ ^ 3) * normalDensity μ σ x) σ := by
  have hp : Real.sqrt (2 * Real.pi) ≠ 0 := by positivity
  have hn : σ ≠ 0 := hσ.ne'
  have h1 : HasDerivAt (fun s : ℝ => -(x - μ) ^ 2 / (2 * s ^ 2)) ((x - μ) ^ 2 / σ ^ 3) σ := by
    have h2 : HasDerivAt (fun s : ℝ => 2 * s ^ 2) (4 * σ) σ := ((hasDerivAt_pow 2 σ).const_mul 2).congr_deriv (by push_cast; ring)
    refine ((hasDerivAt_const σ (-(x - μ) ^ 2)).div h2 (by positivity)).congr_deriv ?_
    field_simp
    ring
  have h2 : HasDerivAt (fun s : ℝ => 1 / (s * Real.sqrt (2 * Real.pi))) (-(1 / σ) * (1 / (σ * Real.sqrt (2 * Real.pi)))) σ := by
    refine ((hasDerivAt_const σ (1 : ℝ)).div ((hasDerivAt_id' σ).mul_const (Real.sqrt (2 * Real.pi))) (by positivity)).congr_deriv ?_
    field_simp
    ring
  refine (h2.mul h1.exp).congr_deriv ?_
  unfold normalDensity; ring

theorem laplace_deriv_scale {b : ℝ} (hb : 0 < b) (μ x : ℝ) : HasDerivAt (fun s => laplaceDensity μ s x) ((-(1 / b) + |x - μ| / b ^ 2) * laplaceDensity μ b x) b := by
  have hn : b ≠ 0 := hb.ne'
  have h1 : HasDerivAt (fun s : ℝ => -(|x - μ| / s)) (|x - μ| / b ^ 2) b := by
    refine (((hasDerivAt_const b |x - μ|).div (hasDerivAt_id' b) hn).neg).congr_deriv ?_
    field_simp
    ring
  have h2 : HasDerivAt (fun s : ℝ => 1 / (2 * s)) (-(1 / b) * (1 / (2 * b))) b := by
    refine ((hasDerivAt_const b (1 : ℝ)).div ((hasDerivAt_id' b).const_mul 2) (by positivity)).congr_deriv ?_
    field_simp
    ring
  refine (h2.mul h1.exp).congr_deriv ?_
  unfold laplaceDensity; ring

/-- sign of a real number other than zero -/
noncomputable def sgn (x : ℝ) : ℝ := if 0 < x then 1 else -1

theorem sgn_sq (x : ℝ) : sgn x * sgn x = 1 := by unfold sgn; split <;> norm_num

theorem sgn_neg {x : ℝ} (h : x ≠ 0) : sgn (-x) = -sgn x := by
  unfold sgn
  rcases lt_or_gt_of_ne h with h | h
  · rw [if_pos (by linarith), if_neg (by linarith)]; norm_num
  · rw [if_neg (by linarith), if_pos h]

theorem laplace_deriv_mean {b : ℝ} (hb : 0 < b) {μ x : ℝ} (h : x ≠ μ) : HasDerivAt (fun m => laplaceDensity m b x) (sgn (x - μ) / b * laplaceDensity μ b x) μ := by
  have hn : b ≠ 0 := hb.ne'
  have h0 : HasDerivAt (fun m : ℝ => |x - m|) (-sgn (x - μ)) μ := by
    have hd := (hasDerivAt_id' μ).const_sub x
    unfold sgn
    rcases lt_or_gt_of_ne (sub_ne_zero.2 h) with hx | hx
    · rw [if_neg (by linarith)]
      exact ((hasDerivAt_abs_neg hx).comp μ hd).congr_deriv (by norm_num)
    · rw [if_pos hx]
      exact ((hasDerivAt_abs_pos hx).comp μ hd).congr_deriv (by norm_num)
  have h1 : HasDerivAt (fun m : ℝ => -(|x - m| / b)) (sgn (x - μ) / b) μ := ((h0.div_const b).neg).congr_deriv (by ring)
  refine ((h1.exp).const_mul (1 / (2 * b))).congr_deriv ?_
  unfold laplaceDensity; ring

/-! ## Laplace integrals -/

theorem IntegralIs.congr_ae {g g' : ℝ → ℝ} {v v' : ℝ} (h : IntegralIs g v) (e : g' =ᵐ[volume] g) (e' : v' = v) : IntegralIs g' v' :=
  ⟨h.1.congr e.symm, by rw [integral_congr_ae e, e', h.2]⟩

theorem ae_ne (μ : ℝ) : ∀ᵐ x : ℝ, x ≠ μ := by
  have : (volume : Measure ℝ) {μ} = 0 := by simp
  exact (measure_eq_zero_iff_ae_notMem.1 this).mono fun x hx => by simpa using hx

theorem laplace_shift (μ b x : ℝ) : laplaceDensity μ b x = laplaceDensity 0 b (x - μ) := by simp [laplaceDensity]

theorem laplace_poly {b : ℝ} (hb : 0 < b) (μ a0 a1 a2 : ℝ) :
    IntegralIs (fun x => (a0 + a1 * |x - μ| + a2 * |x - μ| ^ 2) * laplaceDensity μ b x) (a0 + a1 * b + 2 * a2 * b ^ 2) := by
  have := IntegralIs.shift (IntegralIs.add (IntegralIs.add (IntegralIs.const_mul (abs_moment hb 0) a0) (IntegralIs.const_mul (abs_moment hb 1) a1)) (IntegralIs.const_mul (abs_moment hb 2) a2)) μ
  refine IntegralIs.congr this (fun x => ?_) ?_
  · rw [laplace_shift μ]; ring
  · simp [Nat.factorial]; ring

theorem sgn_measurable : Measurable sgn := Measurable.ite measurableSet_Ioi measurable_const measurable_const

theorem laplace_odd {b : ℝ} (hb : 0 < b) (μ a0 a1 : ℝ) : IntegralIs (fun x => sgn (x - μ) * ((a0 + a1 * |x - μ|) * laplaceDensity μ b x)) 0 := by
  have hp : Integrable fun x => (a0 + a1 * |x|) * laplaceDensity 0 b x := by
    have := (laplace_poly hb 0 a0 a1 0).1
    simpa using this
  have hi : Integrable fun x => sgn x * ((a0 + a1 * |x|) * laplaceDensity 0 b x) := by
    refine hp.bdd_mul (c := 1) sgn_measurable.aestronglyMeasurable (Filter.Eventually.of_forall fun x => ?_)
    unfold sgn; split <;> simp
  have h0 : IntegralIs (fun x => sgn x * ((a0 + a1 * |x|) * laplaceDensity 0 b x)) 0 := by
    refine ⟨hi, ?_⟩
    have h := integral_neg_eq_self (μ := volume) fun x => sgn x * ((a0 + a1 * |x|) * laplaceDensity 0 b x)
    have e : ∫ x, sgn (-x) * ((a0 + a1 * |-x|) * laplaceDensity 0 b (-x)) = ∫ x, -(sgn x * ((a0 + a1 * |x|) * laplaceDensity 0 b x)) := by
      refine integral_congr_ae ((ae_ne 0).mono fun x hx => ?_)
      simp only [sgn_neg hx, abs_neg, laplaceDensity, sub_zero]; ring
    rw [e, integral_neg] at h
    linarith
  refine IntegralIs.congr (IntegralIs.shift h0 μ) (fun x => ?_) rfl
  rw [laplace_shift μ]

/-! ## Poisson sums -/

theorem poisson_sums {r : ℝ} (hr : 0 < r) : HasSum (fun k : ℕ => poissonMass r k) 1 ∧ HasSum (fun k : ℕ => (k : ℝ) * poissonMass r k) r ∧
    HasSum (fun k : ℕ => (k : ℝ) ^ 2 * poissonMass r k) (r ^ 2 + r) := by
  have h0 : HasSum (fun k : ℕ => poissonMass r k) 1 := by
    have h := (NormedSpace.expSeries_div_hasSum_exp (𝔸 := ℝ) r).mul_left (Real.exp (-r))
    rw [← Real.exp_eq_exp_ℝ, ← Real.exp_add, neg_add_cancel, Real.exp_zero] at h
    refine h.congr_fun fun k => ?_
    unfold poissonMass; ring
  have step : ∀ k : ℕ, ((k + 1 : ℕ) : ℝ) * poissonMass r (k + 1) = r * poissonMass r k := by
    intro k
    have : ((k + 1 : ℕ) : ℝ) ≠ 0 := by positivity
    have h2 : (k.factorial : ℝ) ≠ 0 := by positivity
    unfold poissonMass
    rw [Nat.factorial_succ, Nat.cast_mul, pow_succ]
    field_simp
  have h1 : HasSum (fun k : ℕ => (k : ℝ) * poissonMass r k) r := by
    rw [← hasSum_nat_add_iff' 1]
    simp only [step, Finset.range_one, Finset.sum_singleton, Nat.cast_zero, zero_mul, sub_zero]
    simpa using h0.mul_left r
  refine ⟨h0, h1, ?_⟩
  rw [← hasSum_nat_add_iff' 1]
  have e : ∀ k : ℕ, ((k + 1 : ℕ) : ℝ) ^ 2 * poissonMass r (k + 1) = r * (k * poissonMass r k) + r * poissonMass r k := by
    intro k
    rw [pow_two, mul_assoc, step]; push_cast; ring
  simp only [e, Finset.range_one, Finset.sum_singleton, Nat.cast_zero]
  have := (h1.mul_left r).add (h0.mul_left r)
  simpa [pow_two] using this

end BL

namespace Props
open BL Spec

/-- **C65 (Bernoulli).** The default prior 1/√(p(1-p)) is the Jeffreys prior of one observation. -/
theorem C65_bernoulli : ∃ prior, OM.bernoulli.defaultPrior = some prior ∧ IsJeffreys SumIs bernoulliMass 1 (fun θ => 0 < θ 0 ∧ θ 0 < 1) prior := by
  refine ⟨_, rfl, 1, one_pos, fun θ hθ => ⟨!![1 / (θ 0 * (1 - θ 0))], ?_, ?_, ?_⟩⟩
  · intro i j
    have hi : i = 0 := Subsingleton.elim _ _
    have hj : j = 0 := Subsingleton.elim _ _
    subst hi hj
    have hq : 0 < 1 - θ 0 := by linarith [hθ.2]
    have hp := hθ.1
    have s1 : score bernoulliMass θ 0 1 = 1 / θ 0 := by
      refine score_of_hasDeriv (f' := 1) ?_ ?_ ?_
      · simpa [bernoulliMass] using hasDerivAt_id' (θ 0)
      · simp [bernoulliMass, hp.ne']
      · simp [bernoulliMass, hp.ne']
    have s0 : score bernoulliMass θ 0 0 = -(1 / (1 - θ 0)) := by
      refine score_of_hasDeriv (f' := -1) ?_ ?_ ?_
      · simpa [bernoulliMass] using (hasDerivAt_id' (θ 0)).const_sub 1
      · simp [bernoulliMass, hq.ne']
      · simp [bernoulliMass, hq.ne']
    have h := hasSum_fintype fun x : Fin 2 => score bernoulliMass θ 0 x * score bernoulliMass θ 0 x * bernoulliMass θ x
    rw [Fin.sum_univ_two, s0, s1] at h
    have e : (1 / (θ 0 * (1 - θ 0))) = -(1 / (1 - θ 0)) * -(1 / (1 - θ 0)) * bernoulliMass θ 0 + 1 / θ 0 * (1 / θ 0) * bernoulliMass θ 1 := by
      simp [bernoulliMass]
      field_simp
      ring
    change HasSum _ (1 / (θ 0 * (1 - θ 0)))
    rw [e]; exact h
  · have : 0 < θ 0 * (1 - θ 0) := mul_pos hθ.1 (by linarith [hθ.2])
    rw [Matrix.det_fin_one_of]; positivity
  · have : 0 < θ 0 * (1 - θ 0) := mul_pos hθ.1 (by linarith [hθ.2])
    have h2 := Real.sqrt_pos.2 this
    rw [Matrix.det_fin_one_of, Real.sqrt_div (by norm_num), Real.sqrt_one, one_mul]
    simp only [FV.div, FV.sqrt, not_lt.2 this.le, h2.ne', if_false]

/-- **C65 (Poisson).** The default prior √(1/λ) is the Jeffreys prior of one observation. -/
theorem C65_poisson : ∃ prior, OM.poisson.defaultPrior = some prior ∧ IsJeffreys SumIs (fun θ (k : ℕ) => poissonMass (θ 0) k) 1 (fun θ => 0 < θ 0) prior := by
  refine ⟨_, rfl, 1, one_pos, fun θ hθ => ⟨!![1 / θ 0], ?_, ?_, ?_⟩⟩
  · intro i j
    have hi : i = 0 := Subsingleton.elim _ _
    have hj : j = 0 := Subsingleton.elim _ _
    subst hi hj
    have hs : ∀ k : ℕ, score (fun θ (k : ℕ) => poissonMass (θ 0) k) θ 0 k = -1 + k / θ 0 := by
      intro k
      have hp : poissonMass (θ 0) k ≠ 0 := by unfold poissonMass; positivity
      have hd : HasDerivAt (fun r => poissonMass r k) ((-1 + k / θ 0) * poissonMass (θ 0) k) (θ 0) := by
        have h := ((hasDerivAt_neg' (θ 0)).exp.mul (hasDerivAt_pow k (θ 0))).div_const (k.factorial : ℝ)
        refine h.congr_deriv ?_
        unfold poissonMass
        cases k with
        | zero => simp
        | succ k => simp only [Nat.add_sub_cancel, pow_succ]; field_simp
      refine score_of_hasDeriv (f := fun θ (k : ℕ) => poissonMass (θ 0) k) (f' := (-1 + k / θ 0) * poissonMass (θ 0) k) ?_ hp rfl
      simpa using hd
    obtain ⟨h0, h1, h2⟩ := poisson_sums hθ
    have h := (h0.add (h1.mul_left (-(2 / θ 0)))).add (h2.mul_left (1 / θ 0 ^ 2))
    have e : 1 / θ 0 = 1 + -(2 / θ 0) * θ 0 + 1 / θ 0 ^ 2 * (θ 0 ^ 2 + θ 0) := by
      have := hθ.ne'
      field_simp
      ring
    change HasSum _ (1 / θ 0)
    rw [e]
    refine h.congr_fun fun k => ?_
    rw [show ((0 : Fin 1) : ℕ) = 0 from rfl, hs]; ring
  · simpa [Matrix.det_fin_one] using hθ
  · have h1 : ¬ (θ 0)⁻¹ < 0 := not_lt.2 (inv_nonneg.2 hθ.le)
    simp [FV.div, FV.sqrt, hθ.ne', h1]

/-- **C65 (Gaussian).** The default prior 1/σ² is the Jeffreys prior of one observation: a multiple of the root of the determinant of the Fisher information of mean and
standard deviation. -/
theorem C65_gaussian : ∃ prior, OM.gaussian.defaultPrior = some prior ∧ IsJeffreys IntegralIs (fun θ y => normalDensity (θ 0) (θ 1) y) 2 (fun θ => 0 < θ 1) prior := by
  refine ⟨_, rfl, 1 / Real.sqrt 2, by positivity, fun θ hθ => ⟨!![1 / θ 1 ^ 2, 0; 0, 2 / θ 1 ^ 2], ?_, ?_, ?_⟩⟩
  · have hn : θ 1 ≠ 0 := hθ.ne'
    have s0 : ∀ y, score (fun θ y => normalDensity (θ 0) (θ 1) y) θ 0 y = (y - θ 0) / θ 1 ^ 2 := fun y =>
      score_of_hasDeriv (f := fun θ y => normalDensity (θ 0) (θ 1) y) (by simpa using normal_deriv_mean hθ (θ 0) y) (normal_pos hθ _ _).ne' rfl
    have s1 : ∀ y, score (fun θ y => normalDensity (θ 0) (θ 1) y) θ 1 y = -(1 / θ 1) + (y - θ 0) ^ 2 / θ 1 ^ 3 := fun y =>
      score_of_hasDeriv (f := fun θ y => normalDensity (θ 0) (θ 1) y) (by simpa using normal_deriv_scale hθ (θ 0) y) (normal_pos hθ _ _).ne' rfl
    have h00 := normal_poly hθ (θ 0) 0 0 (1 / θ 1 ^ 4) 0 0
    have h01 := normal_poly hθ (θ 0) 0 (-(1 / θ 1 ^ 3)) 0 (1 / θ 1 ^ 5) 0
    have h11 := normal_poly hθ (θ 0) (1 / θ 1 ^ 2) 0 (-(2 / θ 1 ^ 4)) 0 (1 / θ 1 ^ 6)
    intro i j
    fin_cases i <;> fin_cases j <;> simp only [Fin.zero_eta, Fin.mk_one, s0, s1]
    · exact IntegralIs.congr h00 (fun y => by field_simp; ring) (by simp; field_simp)
    · exact IntegralIs.congr h01 (fun y => by field_simp; ring) (by simp)
    · exact IntegralIs.congr h01 (fun y => by field_simp; ring) (by simp)
    · exact IntegralIs.congr h11 (fun y => by field_simp; ring) (by simp; field_simp; ring)
  · rw [Matrix.det_fin_two_of, zero_mul, sub_zero]; positivity
  · have hs : Real.sqrt (1 / θ 1 ^ 2 * (2 / θ 1 ^ 2) - 0 * 0) = Real.sqrt 2 / θ 1 ^ 2 := by
      rw [show 1 / θ 1 ^ 2 * (2 / θ 1 ^ 2) - 0 * 0 = 2 / (θ 1 ^ 2) ^ 2 by field_simp; ring, Real.sqrt_div (by norm_num), Real.sqrt_sq (by positivity)]
    rw [Matrix.det_fin_two_of, hs]
    have h2 : Real.sqrt 2 ≠ 0 := by positivity
    have : θ 1 ^ 2 ≠ 0 := by positivity
    simp only [FV.div, this, if_false]
    congr 1
    field_simp

/-- **C65 (white noise).** The default prior 1/σ is the Jeffreys prior of one observation. -/
theorem C65_whiteNoise : ∃ prior, OM.whiteNoise.defaultPrior = some prior ∧ IsJeffreys IntegralIs (fun θ y => normalDensity 0 (θ 0) y) 1 (fun θ => 0 < θ 0) prior := by
  refine ⟨_, rfl, 1 / Real.sqrt 2, by positivity, fun θ hθ => ⟨!![2 / θ 0 ^ 2], ?_, ?_, ?_⟩⟩
  · have hn : θ 0 ≠ 0 := hθ.ne'
    have s1 : ∀ y, score (fun θ y => normalDensity 0 (θ 0) y) θ 0 y = -(1 / θ 0) + (y - 0) ^ 2 / θ 0 ^ 3 := fun y =>
      score_of_hasDeriv (f := fun θ y => normalDensity 0 (θ 0) y) (by simpa using normal_deriv_scale hθ 0 y) (normal_pos hθ _ _).ne' rfl
    have h11 := normal_poly hθ 0 (1 / θ 0 ^ 2) 0 (-(2 / θ 0 ^ 4)) 0 (1 / θ 0 ^ 6)
    intro i j
    have hi : i = 0 := Subsingleton.elim _ _
    have hj : j = 0 := Subsingleton.elim _ _
    subst hi hj
    simp only [Fin.val_zero, s1]
    exact IntegralIs.congr h11 (fun y => by field_simp; ring) (by simp; field_simp; ring)
  · rw [Matrix.det_fin_one_of]; positivity
  · have hs : Real.sqrt (2 / θ 0 ^ 2) = Real.sqrt 2 / θ 0 := by rw [Real.sqrt_div (by norm_num), Real.sqrt_sq hθ.le]
    rw [Matrix.det_fin_one_of, hs]
    have h2 : Real.sqrt 2 ≠ 0 := by positivity
    simp only [FV.div, hθ.ne', if_false]
    congr 1
    field_simp

/-- **C65 (Laplace).** The default prior 1/b² is the Jeffreys prior of one observation: the root of the determinant of the Fisher information of mean and scale. -/
theorem C65_laplace : ∃ prior, OM.laplace.defaultPrior = some prior ∧ IsJeffreys IntegralIs (fun θ y => laplaceDensity (θ 0) (θ 1) y) 2 (fun θ => 0 < θ 1) prior := by
  refine ⟨_, rfl, 1, one_pos, fun θ hθ => ⟨!![1 / θ 1 ^ 2, 0; 0, 1 / θ 1 ^ 2], ?_, ?_, ?_⟩⟩
  · have hn : θ 1 ≠ 0 := hθ.ne'
    have s0 : ∀ y, y ≠ θ 0 → score (fun θ y => laplaceDensity (θ 0) (θ 1) y) θ 0 y = sgn (y - θ 0) / θ 1 := fun y hy =>
      score_of_hasDeriv (f := fun θ y => laplaceDensity (θ 0) (θ 1) y) (by simpa using laplace_deriv_mean hθ hy) (laplace_pos hθ _ _).ne' rfl
    have s1 : ∀ y, score (fun θ y => laplaceDensity (θ 0) (θ 1) y) θ 1 y = -(1 / θ 1) + |y - θ 0| / θ 1 ^ 2 := fun y =>
      score_of_hasDeriv (f := fun θ y => laplaceDensity (θ 0) (θ 1) y) (by simpa using laplace_deriv_scale hθ (θ 0) y) (laplace_pos hθ _ _).ne' rfl
    have h00 := laplace_poly hθ (θ 0) (1 / θ 1 ^ 2) 0 0
    have h01 := laplace_odd hθ (θ 0) (-(1 / θ 1 ^ 2)) (1 / θ 1 ^ 3)
    have h11 := laplace_poly hθ (θ 0) (1 / θ 1 ^ 2) (-(2 / θ 1 ^ 3)) (1 / θ 1 ^ 4)
    intro i j
    fin_cases i <;> fin_cases j <;> simp only [Fin.zero_eta, Fin.mk_one, s1]
    · refine IntegralIs.congr_ae h00 ((ae_ne (θ 0)).mono fun y hy => ?_) (by simp)
      simp only [s0 y hy]
      have := sgn_sq (y - θ 0)
      linear_combination (laplaceDensity (θ 0) (θ 1) y / θ 1 ^ 2) * this
    · refine IntegralIs.congr_ae h01 ((ae_ne (θ 0)).mono fun y hy => ?_) (by simp)
      simp only [s0 y hy]
      field_simp
    · refine IntegralIs.congr_ae h01 ((ae_ne (θ 0)).mono fun y hy => ?_) (by simp)
      simp only [s0 y hy]
      field_simp
    · exact IntegralIs.congr h11 (fun y => by field_simp; ring) (by simp; field_simp; ring)
  · rw [Matrix.det_fin_two_of, zero_mul, sub_zero]; positivity
  · have hs : Real.sqrt (1 / θ 1 ^ 2 * (1 / θ 1 ^ 2) - 0 * 0) = 1 / θ 1 ^ 2 := by
      rw [show 1 / θ 1 ^ 2 * (1 / θ 1 ^ 2) - 0 * 0 = (1 / θ 1 ^ 2) ^ 2 by ring, Real.sqrt_sq (by positivity)]
    rw [Matrix.det_fin_two_of, hs]
    have : θ 1 ^ 2 ≠ 0 := by positivity
    simp only [FV.div, this, if_false, one_mul]

/-- **C65 (Gaussian mean).** For the mean of observations of known error interval `s` the Jeffreys prior is flat, which is the default of the model. -/
theorem C65_gaussianMean (s : ℝ) (hs : 0 < s) : OM.gaussianMean.defaultPrior = none ∧
    IsJeffreys IntegralIs (fun θ y => normalDensity (θ 0) s y) 1 (fun _ => True) (fun _ => .fin 1) := by
  refine ⟨rfl, s, hs, fun θ _ => ⟨!![1 / s ^ 2], ?_, ?_, ?_⟩⟩
  · have hn : s ≠ 0 := hs.ne'
    have s0 : ∀ y, score (fun θ y => normalDensity (θ 0) s y) θ 0 y = (y - θ 0) / s ^ 2 := fun y =>
      score_of_hasDeriv (f := fun θ y => normalDensity (θ 0) s y) (by simpa using normal_deriv_mean hs (θ 0) y) (normal_pos hs _ _).ne' rfl
    have h00 := normal_poly hs (θ 0) 0 0 (1 / s ^ 4) 0 0
    intro i j
    have hi : i = 0 := Subsingleton.elim _ _
    have hj : j = 0 := Subsingleton.elim _ _
    subst hi hj
    simp only [Fin.val_zero, s0]
    exact IntegralIs.congr h00 (fun y => by field_simp; ring) (by simp; field_simp)
  · rw [Matrix.det_fin_one_of]; positivity
  · rw [Matrix.det_fin_one_of, Real.sqrt_div (by norm_num), Real.sqrt_one, Real.sqrt_sq hs.le]
    field_simp

/-! ## Examples -/

example : ∃ prior, OM.gaussian.defaultPrior = some prior ∧ prior (fun _ => 2) = .fin (1 / 4) := ⟨_, rfl, by norm_num [FV.div]⟩

/-- A Jeffreys prior is unique up to a constant factor: the statements above determine the prior. -/
theorem jeffreys_unique {f : (ℕ → ℝ) → ℝ → ℝ} {k : ℕ} {P : (ℕ → ℝ) → Prop} {p q : (ℕ → ℝ) → FV ℝ} (hp : IsJeffreys IntegralIs f k P p) (hq : IsJeffreys IntegralIs f k P q) :
    ∃ c > 0, ∀ θ, P θ → ∃ v > 0, p θ = .fin (c * v) ∧ q θ = .fin v := by
  obtain ⟨c, hc, hp⟩ := hp
  obtain ⟨c', hc', hq⟩ := hq
  refine ⟨c / c', by positivity, fun θ hθ => ?_⟩
  obtain ⟨I, hI, h0, hp⟩ := hp θ hθ
  obtain ⟨J, hJ, -, hq⟩ := hq θ hθ
  have : I = J := by
    ext i j
    rw [← (hI i j).2, ← (hJ i j).2]
  subst this
  have hs := Real.sqrt_pos.2 h0
  refine ⟨c' * Real.sqrt I.det, by positivity, ?_, hq⟩
  rw [hp]
  congr 1
  field_simp

/-- the prior 1/σ of the white noise model would not be a Jeffreys prior of the Gaussian model -/
example : ¬ IsJeffreys IntegralIs (fun θ y => normalDensity (θ 0) (θ 1) y) 2 (fun θ => 0 < θ 1) (fun θ => .fin (1 / θ 1)) := by
  intro h
  obtain ⟨p, hp, hj⟩ := C65_gaussian
  cases hp
  obtain ⟨c, -, hu⟩ := jeffreys_unique hj h
  obtain ⟨v, -, h1, h2⟩ := hu (fun _ => 1) one_pos
  obtain ⟨w, -, h3, h4⟩ := hu (fun _ => 2) two_pos
  simp only [FV.div, FV.fin.injEq] at h1 h2 h3 h4
  norm_num at h1 h2 h3 h4
  rw [← h2] at h1
  rw [← h4] at h3
  linarith

end Props
