import Verif.Lemmas.Static
import Mathlib.Probability.Independence.Integration
import Mathlib.MeasureTheory.Measure.WithDensity
import Mathlib.MeasureTheory.Integral.Bochner.Basic
import Mathlib.MeasureTheory.OuterMeasure.BorelCantelli
import Mathlib.Analysis.SpecialFunctions.Pow.NNReal

/-! # Overlap of two densities, and products of likelihood ratios of independent observations -/

set_option linter.unusedSectionVars false

open MeasureTheory ProbabilityTheory
open scoped ENNReal

namespace BL

section overlap
variable {Y : Type} [MeasurableSpace Y] {ν : Measure Y}

/-- square root of the likelihood ratio -/
noncomputable def rootRatio (p q : Y → ℝ) (y : Y) : ℝ := Real.sqrt (p y / q y)

theorem rootRatio_nonneg (p q : Y → ℝ) (y : Y) : 0 ≤ rootRatio p q y := Real.sqrt_nonneg _

theorem rootRatio_measurable {p q : Y → ℝ} (hp : Measurable p) (hq : Measurable q) : Measurable (rootRatio p q) := (hp.div hq).sqrt

theorem sqrt_mul_le (a b : ℝ) (ha : 0 ≤ a) (hb : 0 ≤ b) : Real.sqrt (a * b) = (a + b) / 2 - (Real.sqrt a - Real.sqrt b) ^ 2 / 2 := by
  have h1 := Real.sq_sqrt ha
  have h2 := Real.sq_sqrt hb
  rw [Real.sqrt_mul ha]
  nlinarith

/-- different densities overlap by less than one -/
theorem overlap_lt_one {p q : Y → ℝ} (hp : Measurable p) (hq : Measurable q) (hp0 : ∀ y, 0 ≤ p y) (hq0 : ∀ y, 0 ≤ q y) (hpi : Integrable p ν) (hqi : Integrable q ν)
    (hp1 : ∫ y, p y ∂ν = 1) (hq1 : ∫ y, q y ∂ν = 1) (hne : ¬ p =ᵐ[ν] q) :
    ∫⁻ y, ENNReal.ofReal (rootRatio p q y) ∂(ν.withDensity fun y => ENNReal.ofReal (q y)) < 1 := by
  have hm : Measurable fun y => ENNReal.ofReal (rootRatio p q y) := (rootRatio_measurable hp hq).ennreal_ofReal
  rw [lintegral_withDensity_eq_lintegral_mul _ hq.ennreal_ofReal hm]
  have hle : ∀ y, ((fun y => ENNReal.ofReal (q y)) * fun y => ENNReal.ofReal (rootRatio p q y)) y = ENNReal.ofReal (Real.sqrt (p y * q y)) := by
    intro y
    simp only [Pi.mul_apply]
    rw [← ENNReal.ofReal_mul (hq0 y)]
    congr 1
    rcases (hq0 y).eq_or_lt with h | h
    · rw [← h]; simp
    · have : q y * Real.sqrt (p y / q y) = Real.sqrt (q y ^ 2 * (p y / q y)) := by
        rw [Real.sqrt_mul (sq_nonneg _), Real.sqrt_sq (hq0 y)]
      rw [rootRatio, this]
      congr 1
      field_simp
  simp only [hle]
  have hdi : Integrable (fun y => (Real.sqrt (p y) - Real.sqrt (q y)) ^ 2) ν := by
    refine Integrable.mono' (hpi.add hqi) ((hp.sqrt.sub hq.sqrt).pow_const 2).aestronglyMeasurable (.of_forall fun y => ?_)
    have h1 := Real.sq_sqrt (hp0 y)
    have h2 := Real.sq_sqrt (hq0 y)
    have h3 := mul_nonneg (Real.sqrt_nonneg (p y)) (Real.sqrt_nonneg (q y))
    rw [Real.norm_eq_abs, abs_of_nonneg (sq_nonneg _)]
    simp only [Pi.add_apply]
    nlinarith
  have hadd : Integrable (fun y => p y + q y) ν := hpi.add hqi
  have hsi : Integrable (fun y => Real.sqrt (p y * q y)) ν := by
    have : (fun y => Real.sqrt (p y * q y)) = fun y => (p y + q y) / 2 - (Real.sqrt (p y) - Real.sqrt (q y)) ^ 2 / 2 := funext fun y => sqrt_mul_le _ _ (hp0 y) (hq0 y)
    rw [this]
    exact (hadd.div_const 2).sub (hdi.div_const 2)
  rw [← ofReal_integral_eq_lintegral_ofReal hsi (.of_forall fun y => Real.sqrt_nonneg _)]
  have hval : ∫ y, Real.sqrt (p y * q y) ∂ν = 1 - (∫ y, (Real.sqrt (p y) - Real.sqrt (q y)) ^ 2 ∂ν) / 2 := by
    have : (fun y => Real.sqrt (p y * q y)) = fun y => (p y + q y) / 2 - (Real.sqrt (p y) - Real.sqrt (q y)) ^ 2 / 2 := funext fun y => sqrt_mul_le _ _ (hp0 y) (hq0 y)
    rw [this, integral_sub (hadd.div_const 2) (hdi.div_const 2), integral_div, integral_div, integral_add hpi hqi, hp1, hq1]
    norm_num
  have hpos : 0 < ∫ y, (Real.sqrt (p y) - Real.sqrt (q y)) ^ 2 ∂ν := by
    rw [integral_pos_iff_support_of_nonneg (fun y => sq_nonneg _) hdi]
    rw [pos_iff_ne_zero]
    intro h0
    refine hne ?_
    rw [Filter.EventuallyEq, ae_iff]
    refine measure_mono_null (fun y hy => ?_) h0
    rw [Function.mem_support]
    intro hz
    refine hy ?_
    have : Real.sqrt (p y) = Real.sqrt (q y) := by
      have := pow_eq_zero_iff (two_ne_zero) |>.1 hz
      linarith
    rw [← Real.sq_sqrt (hp0 y), this, Real.sq_sqrt (hq0 y)]
  rw [hval, ENNReal.ofReal_lt_one]
  linarith

end overlap

section product
variable {Ω Y : Type} [MeasurableSpace Ω] [MeasurableSpace Y] {P : Measure Ω} {ν : Measure Y}

/-- expectation of a product of functions of independent, identically distributed observations -/
theorem lintegral_prod_iid {X : ℕ → Ω → Y} (hX : ∀ i, Measurable (X i)) (hind : iIndepFun X P) {law : Measure Y} (hlaw : ∀ i, P.map (X i) = law) {f : Y → ℝ≥0∞} (hf : Measurable f) (n : ℕ) :
    ∫⁻ ω, ∏ i ∈ Finset.range n, f (X i ω) ∂P = (∫⁻ y, f y ∂law) ^ n := by
  have h1 := lintegral_prod_eq_prod_lintegral_of_indepFun (Finset.range n) (fun i ω => f (X i ω)) (hind.comp (fun _ => f) fun _ => hf) (fun i => hf.comp (hX i))
  rw [h1]
  have : ∀ i, ∫⁻ ω, f (X i ω) ∂P = ∫⁻ y, f y ∂law := fun i => by rw [← hlaw i, lintegral_map hf (hX i)]
  simp only [this, Finset.prod_const, Finset.card_range]

end product

section concentration
variable {ι : Type} [Fintype ι] [DecidableEq ι]

/-- small odds of the other values mean a high probability of the value `x0` -/
theorem high_probability {u : ι → ℝ} (hu : ∀ x, 0 ≤ u x) {x0 : ι} (h0 : 0 < u x0) {ε : ℝ} (hε : 0 < ε)
    (h : ∑ x with x ≠ x0, Real.sqrt (u x / u x0) < Real.sqrt ε) : 1 - ε < u x0 / ∑ x, u x := by
  have hsum : ∑ x, u x = u x0 + ∑ x with x ≠ x0, u x := by
    rw [← Finset.sum_filter_add_sum_filter_not Finset.univ (· = x0)]
    congr 1
    rw [Finset.filter_eq' Finset.univ x0, if_pos (Finset.mem_univ _), Finset.sum_singleton]
  have h1 : ∑ x with x ≠ x0, u x / u x0 ≤ (∑ x with x ≠ x0, Real.sqrt (u x / u x0)) ^ 2 := by
    have : ∀ x, u x / u x0 = Real.sqrt (u x / u x0) ^ 2 := fun x => (Real.sq_sqrt (div_nonneg (hu x) h0.le)).symm
    calc ∑ x with x ≠ x0, u x / u x0 = ∑ x with x ≠ x0, Real.sqrt (u x / u x0) ^ 2 := Finset.sum_congr rfl fun x _ => this x
      _ ≤ _ := Finset.sum_sq_le_sq_sum_of_nonneg fun x _ => Real.sqrt_nonneg _
  have hnn : 0 ≤ ∑ x with x ≠ x0, Real.sqrt (u x / u x0) := Finset.sum_nonneg fun x _ => Real.sqrt_nonneg _
  have h2 : (∑ x with x ≠ x0, Real.sqrt (u x / u x0)) ^ 2 < ε := by
    have := Real.sq_sqrt hε.le
    nlinarith [Real.sqrt_nonneg ε]
  have h3 : ∑ x with x ≠ x0, u x < ε * u x0 := by
    rw [← Finset.sum_div] at h1
    exact (div_lt_iff₀ h0).1 (h1.trans_lt h2)
  have h4 : 0 ≤ ∑ x with x ≠ x0, u x := Finset.sum_nonneg fun x _ => hu x
  rw [hsum, lt_div_iff₀ (by linarith)]
  nlinarith

variable {Ω Y : Type} [MeasurableSpace Ω] [MeasurableSpace Y] {P : Measure Ω} {ν : Measure Y}

/-- The probability that the odds of the other values are not small decreases geometrically with the number of observations. -/
theorem odds_bound {X : ℕ → Ω → Y} (hX : ∀ i, Measurable (X i)) (hind : iIndepFun X P) {p : ι → Y → ℝ} (hp : ∀ x, Measurable (p x)) (hp0 : ∀ x y, 0 ≤ p x y) (hpi : ∀ x, Integrable (p x) ν)
    (hp1 : ∀ x, ∫ y, p x y ∂ν = 1) {x0 : ι} (hne : ∀ x, x ≠ x0 → ¬ p x =ᵐ[ν] p x0) (hlaw : ∀ i, P.map (X i) = ν.withDensity fun y => ENNReal.ofReal (p x0 y)) {π : ι → ℝ} (hπ : ∀ x, 0 ≤ π x) (hπ0 : 0 < π x0) :
    ∃ C ρ : ℝ, 0 ≤ C ∧ 0 ≤ ρ ∧ ρ < 1 ∧ ∀ (n : ℕ) (ε : ℝ), 0 < ε →
      P {ω | ¬ (1 - ε < (π x0 * ∏ i ∈ Finset.range n, p x0 (X i ω)) / ∑ x, π x * ∏ i ∈ Finset.range n, p x (X i ω))} ≤ ENNReal.ofReal (C / Real.sqrt ε * ρ ^ n) := by
  have hprob : IsProbabilityMeasure P := hind.isProbabilityMeasure
  -- overlaps
  let a : ι → ℝ≥0∞ := fun x => ∫⁻ y, ENNReal.ofReal (rootRatio (p x) (p x0) y) ∂(ν.withDensity fun y => ENNReal.ofReal (p x0 y))
  have ha : ∀ x, x ≠ x0 → a x < 1 := fun x hx => overlap_lt_one (hp x) (hp x0) (hp0 x) (hp0 x0) (hpi x) (hpi x0) (hp1 x) (hp1 x0) (hne x hx)
  let b : ℝ≥0∞ := (Finset.univ.filter (· ≠ x0)).sup a
  have hb : b < 1 := (Finset.sup_lt_iff (by simp)).2 fun x hx => ha x (Finset.mem_filter.1 hx).2
  let c : ι → ℝ := fun x => Real.sqrt (π x / π x0)
  have hc : ∀ x, 0 ≤ c x := fun x => Real.sqrt_nonneg _
  have hbt : b ≠ ∞ := (hb.trans ENNReal.one_lt_top).ne
  refine ⟨∑ x with x ≠ x0, c x, b.toReal, Finset.sum_nonneg fun x _ => hc x, ENNReal.toReal_nonneg, ?_, fun n ε hε => ?_⟩
  · have := (ENNReal.toReal_lt_toReal hbt ENNReal.one_ne_top).2 hb
    simpa using this
  -- the sum of the roots of the odds
  let W : Ω → ℝ := fun ω => ∑ x with x ≠ x0, c x * ∏ i ∈ Finset.range n, rootRatio (p x) (p x0) (X i ω)
  have hWm : Measurable W := by
    refine Finset.measurable_fun_sum _ fun x _ => measurable_const.mul (Finset.measurable_fun_prod _ fun i _ => ?_)
    exact (rootRatio_measurable (hp x) (hp x0)).comp (hX i)
  have hWint : ∫⁻ ω, ENNReal.ofReal (W ω) ∂P ≤ ENNReal.ofReal ((∑ x with x ≠ x0, c x) * b.toReal ^ n) := by
    have h1 : ∀ ω, ENNReal.ofReal (W ω) = ∑ x with x ≠ x0, ENNReal.ofReal (c x) * ∏ i ∈ Finset.range n, ENNReal.ofReal (rootRatio (p x) (p x0) (X i ω)) := by
      intro ω
      simp only [W]
      rw [ENNReal.ofReal_sum_of_nonneg fun x _ => mul_nonneg (hc x) (Finset.prod_nonneg fun i _ => rootRatio_nonneg _ _ _)]
      refine Finset.sum_congr rfl fun x _ => ?_
      rw [ENNReal.ofReal_mul (hc x), ENNReal.ofReal_prod_of_nonneg fun i _ => rootRatio_nonneg _ _ _]
    simp only [h1]
    have hm : ∀ x, Measurable fun ω => ∏ i ∈ Finset.range n, ENNReal.ofReal (rootRatio (p x) (p x0) (X i ω)) := fun x =>
      Finset.measurable_fun_prod _ fun i _ => ((rootRatio_measurable (hp x) (hp x0)).comp (hX i)).ennreal_ofReal
    rw [lintegral_finsetSum _ fun x _ => (hm x).const_mul _]
    have h2 : ∀ x, ∫⁻ ω, ENNReal.ofReal (c x) * ∏ i ∈ Finset.range n, ENNReal.ofReal (rootRatio (p x) (p x0) (X i ω)) ∂P = ENNReal.ofReal (c x) * a x ^ n := by
      intro x
      rw [lintegral_const_mul _ (hm x), lintegral_prod_iid hX hind hlaw (rootRatio_measurable (hp x) (hp x0)).ennreal_ofReal n]
    simp only [h2]
    rw [Finset.sum_mul, ENNReal.ofReal_sum_of_nonneg fun x _ => mul_nonneg (hc x) (pow_nonneg ENNReal.toReal_nonneg _)]
    refine Finset.sum_le_sum fun x hx => ?_
    rw [ENNReal.ofReal_mul (hc x), ENNReal.ofReal_pow ENNReal.toReal_nonneg, ENNReal.ofReal_toReal hbt]
    gcongr
    exact Finset.le_sup (f := a) hx
  -- the true value has positive likelihood
  have hpos : ∀ᵐ ω ∂P, ∀ i, 0 < p x0 (X i ω) := by
    rw [ae_all_iff]
    intro i
    have hs : MeasurableSet {y | ¬ 0 < p x0 y} := (measurableSet_lt measurable_const (hp x0)).compl
    have hz : (P.map (X i)) {y | ¬ 0 < p x0 y} = 0 := by
      rw [hlaw i]
      rw [withDensity_apply _ hs]
      refine (setLIntegral_congr_fun hs fun y hy => ?_).trans (lintegral_zero)
      exact ENNReal.ofReal_of_nonpos (not_lt.1 hy)
    rw [Measure.map_apply (hX i) hs] at hz
    exact hz
  have hincl : ∀ᵐ ω ∂P, ω ∈ {ω | ¬ (1 - ε < (π x0 * ∏ i ∈ Finset.range n, p x0 (X i ω)) / ∑ x, π x * ∏ i ∈ Finset.range n, p x (X i ω))} →
      ω ∈ {ω | ENNReal.ofReal (Real.sqrt ε) ≤ ENNReal.ofReal (W ω)} := by
    filter_upwards [hpos] with ω hω hbad
    by_contra hW
    refine hbad ?_
    refine high_probability (u := fun x => π x * ∏ i ∈ Finset.range n, p x (X i ω)) (fun x => mul_nonneg (hπ x) (Finset.prod_nonneg fun i _ => hp0 _ _))
      (mul_pos hπ0 (Finset.prod_pos fun i _ => hω i)) hε ?_
    have hlt : W ω < Real.sqrt ε := by
      by_contra h
      exact hW (ENNReal.ofReal_le_ofReal (not_lt.1 h))
    refine lt_of_eq_of_lt ?_ hlt
    refine Finset.sum_congr rfl fun x _ => ?_
    rw [mul_div_mul_comm, Real.sqrt_mul (div_nonneg (hπ x) hπ0.le), ← Finset.prod_div_distrib, Real.sqrt_prod _ fun i _ => div_nonneg (hp0 _ _) (hp0 _ _)]
    rfl
  have hsq : 0 < Real.sqrt ε := Real.sqrt_pos.2 hε
  calc _ ≤ P {ω | ENNReal.ofReal (Real.sqrt ε) ≤ ENNReal.ofReal (W ω)} := measure_mono_ae hincl
    _ ≤ (∫⁻ ω, ENNReal.ofReal (W ω) ∂P) / ENNReal.ofReal (Real.sqrt ε) := meas_ge_le_lintegral_div hWm.ennreal_ofReal.aemeasurable (by simpa using hsq) ENNReal.ofReal_ne_top
    _ ≤ ENNReal.ofReal ((∑ x with x ≠ x0, c x) * b.toReal ^ n) / ENNReal.ofReal (Real.sqrt ε) := by gcongr
    _ = ENNReal.ofReal ((∑ x with x ≠ x0, c x) / Real.sqrt ε * b.toReal ^ n) := by
        rw [← ENNReal.ofReal_div_of_pos hsq]
        congr 1
        ring

end concentration

end BL
