import Verif.Spec.Joint
import Mathlib.MeasureTheory.Function.ConditionalExpectation.Basic
import Mathlib.MeasureTheory.Integral.Pi
import Mathlib.MeasureTheory.Constructions.Pi
import Mathlib.Probability.Process.Filtration
import Mathlib.Tactic.FieldSimp
import Mathlib.Tactic.Linarith
import Mathlib.Tactic.Ring
import Mathlib.Tactic.Positivity

/-! # Conditional probabilities of a quantity with finitely many values -/

set_option linter.unusedSectionVars false

open MeasureTheory
open scoped ENNReal

namespace BL
open Spec

variable {Ω ζ 𝒴 : Type} [MeasurableSpace Ω] [MeasurableSpace 𝒴] [Fintype ζ] {P : Measure Ω} {Z : Ω → ζ} {X : Ω → 𝒴} {ν : Measure 𝒴} {w : ζ → 𝒴 → ℝ}

theorem joint_restrict (h : Joint P Z X ν w) (z : ζ) : (P.restrict {ω | Z ω = z}).map X = ν.withDensity fun y => ENNReal.ofReal (w z y) := by
  ext B hB
  rw [Measure.map_apply h.data hB, Measure.restrict_apply (h.data hB), withDensity_apply _ hB, ← h.law z B hB]
  congr 1
  ext ω
  exact and_comm

theorem joint_lintegral (h : Joint P Z X ν w) (hw : ∀ z, Measurable (w z)) (f : ζ → 𝒴 → ℝ≥0∞) (hf : ∀ z, Measurable (f z)) :
    ∫⁻ ω, f (Z ω) (X ω) ∂P = ∫⁻ y, ∑ z, ENNReal.ofReal (w z y) * f z y ∂ν := by
  classical
  have e1 : ∀ ω, f (Z ω) (X ω) = ∑ z, {ω | Z ω = z}.indicator (fun ω => f z (X ω)) ω := by
    intro ω
    rw [Finset.sum_eq_single (Z ω)]
    · simp [Set.indicator]
    · intro z _ hz
      simp [Set.indicator, Ne.symm hz]
    · simp
  simp only [e1]
  have hm : ∀ z, Measurable fun ω => {ω | Z ω = z}.indicator (fun ω => f z (X ω)) ω := fun z => ((hf z).comp h.data).indicator (h.unknown z)
  have hm' : ∀ z, Measurable fun y => ENNReal.ofReal (w z y) * f z y := fun z => (hw z).ennreal_ofReal.mul (hf z)
  rw [lintegral_finsetSum _ fun z _ => hm z, lintegral_finsetSum _ fun z _ => hm' z]
  refine Finset.sum_congr rfl fun z _ => ?_
  rw [lintegral_indicator (h.unknown z), ← lintegral_map (hf z) h.data, joint_restrict h z, lintegral_withDensity_eq_lintegral_mul _ (hw z).ennreal_ofReal (hf z)]
  rfl

theorem joint_lintegral_data (h : Joint P Z X ν w) (hw : ∀ z, Measurable (w z)) (hw0 : ∀ z y, 0 ≤ w z y) (f : 𝒴 → ℝ≥0∞) (hf : Measurable f) :
    ∫⁻ ω, f (X ω) ∂P = ∫⁻ y, ENNReal.ofReal (∑ z, w z y) * f y ∂ν := by
  rw [joint_lintegral h hw (fun _ => f) fun _ => hf]
  refine lintegral_congr fun y => ?_
  rw [← Finset.sum_mul, ENNReal.ofReal_sum_of_nonneg fun z _ => hw0 z y]

/-- data of density zero do not occur -/
theorem joint_ae_pos (h : Joint P Z X ν w) (hw : ∀ z, Measurable (w z)) (hw0 : ∀ z y, 0 ≤ w z y) : ∀ᵐ ω ∂P, 0 < ∑ z, w z (X ω) := by
  have hm : Measurable fun y => ∑ z, w z y := by fun_prop
  have hB : MeasurableSet {y | ¬ 0 < ∑ z, w z y} := (measurableSet_lt measurable_const hm).compl
  have := joint_lintegral_data h hw hw0 ({y | ¬ 0 < ∑ z, w z y}.indicator 1) (measurable_one.indicator hB)
  have e : ∀ y, ENNReal.ofReal (∑ z, w z y) * {y | ¬ 0 < ∑ z, w z y}.indicator 1 y = 0 := by
    intro y
    by_cases hy : 0 < ∑ z, w z y
    · rw [Set.indicator_of_notMem (by simpa using hy), mul_zero]
    · rw [ENNReal.ofReal_of_nonpos (not_lt.1 hy), zero_mul]
  simp only [e, lintegral_zero] at this
  have hm' : Measurable fun ω => {y | ¬ 0 < ∑ z, w z y}.indicator (1 : 𝒴 → ℝ≥0∞) (X ω) := (measurable_one.indicator hB).comp h.data
  rw [lintegral_eq_zero_iff hm'] at this
  filter_upwards [this] with ω hω
  by_contra hc
  simp only [Pi.zero_apply] at hω
  rw [Set.indicator_of_mem (by exact hc)] at hω
  simp at hω

/-- conditional expectation of `g` (a function of the unknown quantity) given the data -/
noncomputable def given (w : ζ → 𝒴 → ℝ) (g : ζ → ℝ) (y : 𝒴) : ℝ := (∑ z, w z y * g z) / ∑ z, w z y

theorem given_measurable (hw : ∀ z, Measurable (w z)) (g : ζ → ℝ) : Measurable (given w g) := by
  unfold given
  fun_prop

theorem joint_setLIntegral (h : Joint P Z X ν w) (hw : ∀ z, Measurable (w z)) (hw0 : ∀ z y, 0 ≤ w z y) (g : ζ → ℝ) (hg : ∀ z, 0 ≤ g z) (B : Set 𝒴) (hB : MeasurableSet B) :
    ∫⁻ ω in X ⁻¹' B, ENNReal.ofReal (g (Z ω)) ∂P = ∫⁻ ω in X ⁻¹' B, ENNReal.ofReal (given w g (X ω)) ∂P := by
  rw [← lintegral_indicator (h.data hB), ← lintegral_indicator (h.data hB)]
  have e1 : ∀ ω, (X ⁻¹' B).indicator (fun ω => ENNReal.ofReal (g (Z ω))) ω = B.indicator (fun _ => ENNReal.ofReal (g (Z ω))) (X ω) := fun ω => rfl
  have e2 : ∀ ω, (X ⁻¹' B).indicator (fun ω => ENNReal.ofReal (given w g (X ω))) ω = B.indicator (fun y => ENNReal.ofReal (given w g y)) (X ω) := fun ω => rfl
  simp only [e1, e2]
  rw [joint_lintegral h hw (fun z => B.indicator fun _ => ENNReal.ofReal (g z)) fun z => measurable_const.indicator hB,
    joint_lintegral_data h hw hw0 _ ((given_measurable hw g).ennreal_ofReal.indicator hB)]
  refine lintegral_congr fun y => ?_
  by_cases hy : y ∈ B
  · simp only [Set.indicator_of_mem hy]
    have hs : 0 ≤ ∑ z, w z y := Finset.sum_nonneg fun z _ => hw0 z y
    simp only [← ENNReal.ofReal_mul (hw0 _ _)]
    rw [← ENNReal.ofReal_mul hs, ← ENNReal.ofReal_sum_of_nonneg fun z _ => mul_nonneg (hw0 z y) (hg z)]
    congr 1
    rcases hs.eq_or_lt with h0 | h0
    · have : ∀ z, w z y = 0 := fun z => (Finset.sum_eq_zero_iff_of_nonneg fun z _ => hw0 z y).1 h0.symm z (Finset.mem_univ z)
      simp [this]
    · rw [given]
      field_simp
  · simp [Set.indicator_of_notMem hy]

theorem given_bounds (hw0 : ∀ z y, 0 ≤ w z y) {g : ζ → ℝ} {C : ℝ} (hg : ∀ z, |g z| ≤ C) (hC : 0 ≤ C) (y : 𝒴) : |given w g y| ≤ C := by
  have hs : 0 ≤ ∑ z, w z y := Finset.sum_nonneg fun z _ => hw0 z y
  rcases hs.eq_or_lt with h0 | h0
  · rw [given, ← h0, div_zero, abs_zero]; exact hC
  · rw [given, abs_div, abs_of_pos h0, div_le_iff₀ h0, Finset.mul_sum]
    refine (Finset.abs_sum_le_sum_abs _ _).trans (Finset.sum_le_sum fun z _ => ?_)
    rw [abs_mul, abs_of_nonneg (hw0 z y), mul_comm]
    exact mul_le_mul_of_nonneg_right (hg z) (hw0 z y)

theorem joint_unknown_comp (h : Joint P Z X ν w) (g : ζ → ℝ) : Measurable fun ω => g (Z ω) := by
  classical
  have : (fun ω => g (Z ω)) = fun ω => ∑ z, {ω | Z ω = z}.indicator (fun _ => g z) ω := by
    funext ω
    rw [Finset.sum_eq_single (Z ω)]
    · simp [Set.indicator]
    · intro z _ hz
      simp [Set.indicator, Ne.symm hz]
    · simp
  rw [this]
  exact Finset.measurable_sum _ fun z _ => measurable_const.indicator (h.unknown z)

theorem exists_bound (g : ζ → ℝ) : ∃ C, 0 ≤ C ∧ ∀ z, |g z| ≤ C :=
  ⟨∑ z, |g z|, Finset.sum_nonneg fun _ _ => abs_nonneg _, fun z => Finset.single_le_sum (f := fun z => |g z|) (fun _ _ => abs_nonneg _) (Finset.mem_univ z)⟩

theorem joint_condExp [IsProbabilityMeasure P] (h : Joint P Z X ν w) (hw : ∀ z, Measurable (w z)) (hw0 : ∀ z y, 0 ≤ w z y) (g : ζ → ℝ) :
    P[fun ω => g (Z ω) | MeasurableSpace.comap X inferInstance] =ᵐ[P] fun ω => given w g (X ω) := by
  obtain ⟨C, hC, hg⟩ := exists_bound g
  have hm : MeasurableSpace.comap X inferInstance ≤ (inferInstance : MeasurableSpace Ω) := h.data.comap_le
  have i1 : Integrable (fun ω => g (Z ω)) P := Integrable.of_bound (joint_unknown_comp h g).aestronglyMeasurable C (.of_forall fun ω => hg _)
  have i2 : Integrable (fun ω => given w g (X ω)) P :=
    Integrable.of_bound ((given_measurable hw g).comp h.data).aestronglyMeasurable C (.of_forall fun ω => given_bounds hw0 hg hC _)
  refine (ae_eq_condExp_of_forall_setIntegral_eq hm i1 (fun _ _ _ => i2.integrableOn) ?_ ?_).symm
  · rintro _ ⟨B, hB, rfl⟩ -
    have key : ∀ g : ζ → ℝ, (∀ z, 0 ≤ g z) → ∫ ω in X ⁻¹' B, given w g (X ω) ∂P = ∫ ω in X ⁻¹' B, g (Z ω) ∂P := by
      intro g hg
      have h0 : ∀ y, 0 ≤ given w g y := fun y => div_nonneg (Finset.sum_nonneg fun z _ => mul_nonneg (hw0 _ _) (hg z)) (Finset.sum_nonneg fun z _ => hw0 _ _)
      have hgm : Measurable fun ω => given w g (X ω) := (given_measurable hw g).comp h.data
      rw [integral_eq_lintegral_of_nonneg_ae (.of_forall fun ω => h0 (X ω)) hgm.aestronglyMeasurable, integral_eq_lintegral_of_nonneg_ae (.of_forall fun ω => hg _) (joint_unknown_comp h g).aestronglyMeasurable,
        joint_setLIntegral h hw hw0 g hg B hB]
    have k1 := key (fun z => g z + C) fun z => by linarith [neg_abs_le (g z), hg z]
    have k2 := key (fun _ => C) fun _ => hC
    have e : ∀ y, given w (fun z => g z + C) y = given w g y + given w (fun _ => C) y := by
      intro y
      simp only [given, mul_add, Finset.sum_add_distrib, add_div]
    have i3 : Integrable (fun ω => given w (fun _ => C) (X ω)) P :=
      Integrable.of_bound ((given_measurable hw _).comp h.data).aestronglyMeasurable C (.of_forall fun ω => given_bounds hw0 (fun _ => (abs_of_nonneg hC).le) hC _)
    simp only [e] at k1
    rw [integral_add i2.integrableOn i3.integrableOn, integral_add i1.integrableOn (integrable_const C).integrableOn, k2] at k1
    exact add_right_cancel k1
  · refine StronglyMeasurable.aestronglyMeasurable (Measurable.stronglyMeasurable ?_)
    exact (given_measurable hw g).comp (comap_measurable X)

/-- no other function of the data is closer to `g`, on average -/
theorem joint_best (h : Joint P Z X ν w) (hw : ∀ z, Measurable (w z)) (hw0 : ∀ z y, 0 ≤ w z y) (g : ζ → ℝ) (δ : 𝒴 → ℝ) (hδ : Measurable δ) :
    ∫⁻ ω, ENNReal.ofReal ((g (Z ω) - given w g (X ω)) ^ 2) ∂P ≤ ∫⁻ ω, ENNReal.ofReal ((g (Z ω) - δ (X ω)) ^ 2) ∂P := by
  have hm := given_measurable hw g
  rw [joint_lintegral h hw (fun z y => ENNReal.ofReal ((g z - given w g y) ^ 2)) fun z => by fun_prop, joint_lintegral h hw (fun z y => ENNReal.ofReal ((g z - δ y) ^ 2)) fun z => by fun_prop]
  refine lintegral_mono fun y => ?_
  simp only [← ENNReal.ofReal_mul (hw0 _ _)]
  rw [← ENNReal.ofReal_sum_of_nonneg fun z _ => mul_nonneg (hw0 z y) (sq_nonneg _), ← ENNReal.ofReal_sum_of_nonneg fun z _ => mul_nonneg (hw0 z y) (sq_nonneg _)]
  refine ENNReal.ofReal_le_ofReal ?_
  have hs : 0 ≤ ∑ z, w z y := Finset.sum_nonneg fun z _ => hw0 z y
  have hsm : (∑ z, w z y) * given w g y = ∑ z, w z y * g z := by
    rcases hs.eq_or_lt with h0 | h0
    · have : ∀ z, w z y = 0 := fun z => (Finset.sum_eq_zero_iff_of_nonneg fun z _ => hw0 z y).1 h0.symm z (Finset.mem_univ z)
      simp [this]
    · rw [given]
      field_simp
  have key : ∑ z, w z y * (g z - δ y) ^ 2 = ∑ z, w z y * (g z - given w g y) ^ 2 + (∑ z, w z y) * (given w g y - δ y) ^ 2 := by
    have e : ∀ z, w z y * (g z - δ y) ^ 2 = w z y * (g z - given w g y) ^ 2 + 2 * (given w g y - δ y) * (w z y * g z - w z y * given w g y) + w z y * (given w g y - δ y) ^ 2 := by
      intro z; ring
    simp only [e, Finset.sum_add_distrib, ← Finset.mul_sum, ← Finset.sum_mul, Finset.sum_sub_distrib]
    rw [← hsm]
    ring
  rw [key]
  exact le_add_of_nonneg_right (mul_nonneg hs (sq_nonneg _))

/-- probability that the unknown quantity is in a set that depends on the data -/
theorem joint_cover (h : Joint P Z X ν w) (hw : ∀ z, Measurable (w z)) (hw0 : ∀ z y, 0 ≤ w z y) (C : 𝒴 → ζ → Prop) [∀ y, DecidablePred (C y)] (hC : ∀ z, MeasurableSet {y | C y z}) :
    P {ω | C (X ω) (Z ω)} = ∫⁻ ω, ENNReal.ofReal (given w (fun z => if C (X ω) z then 1 else 0) (X ω)) ∂P := by
  have hCm : ∀ z, Measurable fun y => if C y z then (1 : ℝ) else 0 := fun z => Measurable.ite (hC z) measurable_const measurable_const
  have hgm : Measurable fun y => given w (fun z => if C y z then 1 else 0) y := by
    unfold given
    fun_prop
  rw [joint_lintegral_data h hw hw0 (fun y => ENNReal.ofReal (given w (fun z => if C y z then 1 else 0) y)) hgm.ennreal_ofReal]
  have hE : MeasurableSet {ω | C (X ω) (Z ω)} := by
    have : {ω | C (X ω) (Z ω)} = ⋃ z, {ω | Z ω = z} ∩ X ⁻¹' {y | C y z} := by
      ext ω
      simp
    rw [this]
    exact MeasurableSet.iUnion fun z => (h.unknown z).inter (h.data (hC z))
  rw [← lintegral_indicator_one hE]
  have e1 : ∀ ω, {ω | C (X ω) (Z ω)}.indicator (1 : Ω → ℝ≥0∞) ω = ENNReal.ofReal (if C (X ω) (Z ω) then 1 else 0) := by
    intro ω
    by_cases hc : C (X ω) (Z ω)
    · rw [Set.indicator_of_mem (by exact hc), if_pos hc]; simp
    · rw [Set.indicator_of_notMem (by exact hc), if_neg hc]; simp
  simp only [e1]
  rw [joint_lintegral h hw (fun z y => ENNReal.ofReal (if C y z then 1 else 0)) fun z => (hCm z).ennreal_ofReal]
  refine lintegral_congr fun y => ?_
  have hs : 0 ≤ ∑ z, w z y := Finset.sum_nonneg fun z _ => hw0 z y
  simp only [← ENNReal.ofReal_mul (hw0 _ _)]
  rw [← ENNReal.ofReal_mul hs, ← ENNReal.ofReal_sum_of_nonneg fun z _ => mul_nonneg (hw0 z y) (by split <;> simp)]
  congr 1
  rcases hs.eq_or_lt with h0 | h0
  · have : ∀ z, w z y = 0 := fun z => (Finset.sum_eq_zero_iff_of_nonneg fun z _ => hw0 z y).1 h0.symm z (Finset.mem_univ z)
    simp [this]
  · rw [given, mul_div_cancel₀ _ h0.ne']

/-- independent draws have the product density -/
theorem pi_withDensity {Y : Type} [MeasurableSpace Y] {κ : Type} [Fintype κ] (μ : Measure Y) [SigmaFinite μ] (q : κ → Y → ℝ) (hq0 : ∀ i y, 0 ≤ q i y) (hqi : ∀ i, Integrable (q i) μ) :
    Measure.pi (fun i => μ.withDensity fun y => ENNReal.ofReal (q i y)) = (Measure.pi fun _ : κ => μ).withDensity fun y => ENNReal.ofReal (∏ i, q i (y i)) := by
  have hf : ∀ i, IsFiniteMeasure (μ.withDensity fun y => ENNReal.ofReal (q i y)) := fun i => isFiniteMeasure_withDensity_ofReal (hqi i).2
  refine Measure.pi_eq fun s hs => ?_
  rw [withDensity_apply _ (MeasurableSet.univ_pi hs), ← lintegral_indicator (MeasurableSet.univ_pi hs)]
  have e : ∀ y : κ → Y, (Set.univ.pi s).indicator (fun y => ENNReal.ofReal (∏ i, q i (y i))) y = ENNReal.ofReal (∏ i, (s i).indicator (q i) (y i)) := by
    intro y
    by_cases hy : ∀ i, y i ∈ s i
    · rw [Set.indicator_of_mem (by simpa using hy)]
      simp only [Set.indicator_of_mem (hy _)]
    · rw [Set.indicator_of_notMem (by simpa using hy)]
      obtain ⟨i, hi⟩ := not_forall.1 hy
      rw [Finset.prod_eq_zero (Finset.mem_univ i) (Set.indicator_of_notMem hi _), ENNReal.ofReal_zero]
  simp only [e]
  have hi : ∀ i, Integrable ((s i).indicator (q i)) μ := fun i => (hqi i).indicator (hs i)
  have h0 : ∀ i y, 0 ≤ (s i).indicator (q i) y := fun i y => Set.indicator_nonneg (fun y _ => hq0 i y) y
  rw [← ofReal_integral_eq_lintegral_ofReal (Integrable.fintype_prod hi) (.of_forall fun y => Finset.prod_nonneg fun i _ => h0 i _), integral_fintype_prod_eq_prod,
    ENNReal.ofReal_prod_of_nonneg fun i _ => integral_nonneg fun y => h0 i y]
  refine Finset.prod_congr rfl fun i _ => ?_
  rw [withDensity_apply _ (hs i), ofReal_integral_eq_lintegral_ofReal (hi i) (.of_forall (h0 i)), ← lintegral_indicator (hs i)]
  refine lintegral_congr fun y => ?_
  by_cases hy : y ∈ s i
  · simp [hy]
  · simp [hy]

theorem joint_of_draws {ι Y : Type} [Fintype ι] [DecidableEq ι] [MeasurableSpace Y] {n : ℕ} {Z : Ω → Fin (n + 1) → ι} {X : Ω → Fin (n + 1) → Y} {π : ι → ℝ} {T : Fin n → ι → ι → ℝ} (μ : Measure Y) [SigmaFinite μ]
    (q : ι → Y → ℝ) (hq : ∀ x, Measurable (q x)) (hq0 : ∀ x y, 0 ≤ q x y) (hqi : ∀ x, Integrable (q x) μ) (hπ : ∀ x, 0 ≤ π x) (hT : ∀ i x y, 0 ≤ T i x y)
    (h : Draws P Z X π T fun x => μ.withDensity fun y => ENNReal.ofReal (q x y)) : Joint P Z X (Measure.pi fun _ => μ) fun z y => pathWeight π T (fun i x => q x (y i)) z := by
  refine ⟨h.unknown, h.data, fun z B hB => ?_⟩
  have h0 : 0 ≤ π (z 0) * ∏ i : Fin n, T i (z i.castSucc) (z i.succ) := mul_nonneg (hπ _) (Finset.prod_nonneg fun i _ => hT _ _ _)
  rw [h.law z B hB, pi_withDensity μ (fun i => q (z i)) (fun i => hq0 _) fun i => hqi _, withDensity_apply _ hB, ← lintegral_const_mul _ (by fun_prop)]
  refine lintegral_congr fun y => ?_
  rw [← ENNReal.ofReal_mul h0]
  rfl

/-- draws exist -/
theorem exists_draws {ι Y : Type} [Fintype ι] [DecidableEq ι] [MeasurableSpace Y] {n : ℕ} (π : ι → ℝ) (T : Fin n → ι → ι → ℝ) (law : ι → Measure Y) [∀ x, IsProbabilityMeasure (law x)]
    (hπ : ∀ x, 0 ≤ π x) (hT : ∀ i x y, 0 ≤ T i x y) (h1 : ∑ z : Fin (n + 1) → ι, π (z 0) * ∏ i : Fin n, T i (z i.castSucc) (z i.succ) = 1) :
    ∃ (Ω : Type) (_ : MeasurableSpace Ω) (P : Measure Ω) (Z : Ω → Fin (n + 1) → ι) (X : Ω → Fin (n + 1) → Y), IsProbabilityMeasure P ∧ Draws P Z X π T law := by
  letI : MeasurableSpace (Fin (n + 1) → ι) := ⊤
  have h0 : ∀ z : Fin (n + 1) → ι, 0 ≤ π (z 0) * ∏ i : Fin n, T i (z i.castSucc) (z i.succ) := fun z => mul_nonneg (hπ _) (Finset.prod_nonneg fun i _ => hT _ _ _)
  refine ⟨(Fin (n + 1) → ι) × (Fin (n + 1) → Y), inferInstance,
    ∑ z, ENNReal.ofReal (π (z 0) * ∏ i : Fin n, T i (z i.castSucc) (z i.succ)) • (Measure.dirac z).prod (Measure.pi fun i => law (z i)), Prod.fst, Prod.snd, ⟨?_⟩, ?_, measurable_snd, ?_⟩
  · simp only [Measure.coe_finsetSum, Finset.sum_apply, Measure.coe_smul, Pi.smul_apply, measure_univ, smul_eq_mul, mul_one]
    rw [← ENNReal.ofReal_sum_of_nonneg fun z _ => h0 z, h1, ENNReal.ofReal_one]
  · intro z
    exact measurable_fst (MeasurableSpace.measurableSet_top (s := {z}))
  · intro z B hB
    have e : {ω : (Fin (n + 1) → ι) × (Fin (n + 1) → Y) | ω.1 = z ∧ ω.2 ∈ B} = {z} ×ˢ B := by
      ext ω
      simp
    simp only [e, Measure.coe_finsetSum, Finset.sum_apply, Measure.coe_smul, Pi.smul_apply, smul_eq_mul, Measure.prod_prod]
    rw [Finset.sum_eq_single z]
    · rw [Measure.dirac_apply' _ MeasurableSpace.measurableSet_top]; simp
    · intro z' _ hz
      rw [Measure.dirac_apply' _ MeasurableSpace.measurableSet_top, Set.indicator_of_notMem (by simpa using hz)]; simp
    · simp

end BL

namespace BL
open Spec
variable {Ω ι Y : Type} [MeasurableSpace Ω] [MeasurableSpace Y] [Fintype ι] [DecidableEq ι] {P : Measure Ω}

/-- marginal distribution of all but the last of independent data points -/
theorem pi_init {n : ℕ} (μ : Fin (n + 1) → Measure Y) [∀ i, IsProbabilityMeasure (μ i)] (B : Set (Fin n → Y)) (hB : MeasurableSet B) :
    Measure.pi μ {y | (fun j : Fin n => y j.castSucc) ∈ B} = Measure.pi (fun j : Fin n => μ j.castSucc) B := by
  have h := measurePreserving_piFinSuccAbove μ (Fin.last n)
  have e : {y : Fin (n + 1) → Y | (fun j : Fin n => y j.castSucc) ∈ B} = (MeasurableEquiv.piFinSuccAbove (fun _ => Y) (Fin.last n)) ⁻¹' (Set.univ ×ˢ B) := by
    ext y
    simp only [Set.mem_ofPred_eq, Set.mem_preimage, Set.mem_prod, Set.mem_univ, true_and]
    have : (MeasurableEquiv.piFinSuccAbove (fun _ => Y) (Fin.last n) y).2 = fun j : Fin n => y j.castSucc := by
      funext j
      simp [MeasurableEquiv.piFinSuccAbove, Fin.init]
    rw [this]
  rw [e, h.measure_preimage (MeasurableSet.univ.prod hB).nullMeasurableSet, Measure.prod_prod, measure_univ, one_mul]
  simp only [Fin.succAbove_last]

/-- forgetting the last time step -/
theorem draws_init {n : ℕ} {Z : Ω → Fin (n + 2) → ι} {X : Ω → Fin (n + 2) → Y} {π : ι → ℝ} {T : Fin (n + 1) → ι → ι → ℝ} {law : ι → Measure Y} [∀ x, IsProbabilityMeasure (law x)]
    (hπ : ∀ x, 0 ≤ π x) (hT : ∀ i x y, 0 ≤ T i x y) (hT1 : ∀ i x, ∑ y, T i x y = 1) (h : Draws P Z X π T law) :
    Draws P (fun ω (j : Fin (n + 1)) => Z ω j.castSucc) (fun ω (j : Fin (n + 1)) => X ω j.castSucc) π (fun i : Fin n => T i.castSucc) law := by
  have hset : ∀ (z : Fin (n + 1) → ι) (B : Set (Fin (n + 1) → Y)), {ω | (fun j : Fin (n + 1) => Z ω j.castSucc) = z ∧ (fun j : Fin (n + 1) => X ω j.castSucc) ∈ B} =
      ⋃ x ∈ (Finset.univ : Finset ι), {ω | Z ω = Fin.snoc (α := fun _ => ι) z x ∧ X ω ∈ {y | (fun j : Fin (n + 1) => y j.castSucc) ∈ B}} := by
    intro z B
    ext ω
    simp only [Set.mem_ofPred_eq, Finset.mem_univ, Set.iUnion_true, Set.mem_iUnion]
    constructor
    · rintro ⟨rfl, hB⟩
      exact ⟨Z ω (Fin.last _), (Fin.snoc_init_self (α := fun _ => ι) (Z ω)).symm, hB⟩
    · rintro ⟨x, hx, hB⟩
      refine ⟨?_, hB⟩
      rw [hx]
      funext j
      simp
  have hinit : Measurable fun (y : Fin (n + 2) → Y) (j : Fin (n + 1)) => y j.castSucc := by fun_prop
  refine ⟨fun z => ?_, hinit.comp h.data, fun z B hB => ?_⟩
  · have := hset z Set.univ
    simp only [Set.mem_univ, and_true] at this
    rw [this]
    exact Finset.measurableSet_biUnion _ fun x _ => by simpa using h.unknown _
  · have hB' : MeasurableSet {y : Fin (n + 2) → Y | (fun j : Fin (n + 1) => y j.castSucc) ∈ B} := hinit hB
    rw [hset, measure_biUnion_finset]
    · have e : ∀ x, P {ω | Z ω = Fin.snoc (α := fun _ => ι) z x ∧ X ω ∈ {y | (fun j : Fin (n + 1) => y j.castSucc) ∈ B}} =
          ENNReal.ofReal ((π (z 0) * ∏ i : Fin n, T i.castSucc (z i.castSucc) (z i.succ)) * T (Fin.last n) (z (Fin.last n)) x) * Measure.pi (fun i => law (z i)) B := by
        intro x
        have e2 : ∀ i : Fin n, i.castSucc.succ = i.succ.castSucc := fun i => rfl
        rw [h.law _ _ hB', pi_init (fun i => law (Fin.snoc (α := fun _ => ι) z x i)) B hB, Fin.prod_univ_castSucc]
        simp only [Fin.snoc_castSucc, e2, Fin.succ_last, Fin.snoc_last]
        rw [show Fin.snoc (α := fun _ => ι) z x 0 = z 0 from Fin.snoc_castSucc (α := fun _ => ι) x z 0, ← mul_assoc]
      have h0 : 0 ≤ π (z 0) * ∏ i : Fin n, T i.castSucc (z i.castSucc) (z i.succ) := mul_nonneg (hπ _) (Finset.prod_nonneg fun i _ => hT _ _ _)
      simp only [e]
      rw [← Finset.sum_mul, ← ENNReal.ofReal_sum_of_nonneg fun x _ => mul_nonneg h0 (hT _ _ _), ← Finset.mul_sum, hT1, mul_one]
    · intro x _ x' _ hx
      refine Set.disjoint_left.2 fun ω h1 h2 => hx ?_
      have := h1.1.symm.trans h2.1
      simpa using congrFun this (Fin.last _)
    · intro x _
      exact (h.unknown _).inter (h.data hB')

/-- forgetting all time steps after `i` -/
theorem draws_upTo {law : ι → Measure Y} [∀ x, IsProbabilityMeasure (law x)] {π : ι → ℝ} (hπ : ∀ x, 0 ≤ π x) : ∀ {n : ℕ} {Z : Ω → Fin (n + 1) → ι} {X : Ω → Fin (n + 1) → Y} {T : Fin n → ι → ι → ℝ}
    (_ : ∀ i x y, 0 ≤ T i x y) (_ : ∀ i x, ∑ y, T i x y = 1) (_ : Draws P Z X π T law) (i : Fin (n + 1)),
    Draws P (fun ω => upTo i (Z ω)) (fun ω => upTo i (X ω)) π (fun j : Fin i.val => T (Fin.castLE (Nat.le_of_lt_succ i.isLt) j)) law
  | 0, Z, X, T, hT, hT1, h, i => by
      obtain rfl : i = Fin.last 0 := Fin.ext (by have := i.isLt; simp at this ⊢)
      exact h
  | n + 1, Z, X, T, hT, hT1, h, i => by
      refine Fin.lastCases ?_ (fun i => ?_) i
      · exact h
      · exact draws_upTo hπ (fun i => hT i.castSucc) (fun i => hT1 i.castSucc) (draws_init hπ hT hT1 h) i

end BL
