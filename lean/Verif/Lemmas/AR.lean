import Verif.Props.C65
import Mathlib.MeasureTheory.Integral.Pi
import Mathlib.MeasureTheory.Constructions.Pi

/-! # The exact likelihood of an auto-regressive process: scores and their moments -/

set_option linter.unusedSectionVars false

open MeasureTheory

namespace Spec

/-- Probability density of `n + 1` successive values of a stationary auto-regressive process with correlation `r` and noise amplitude `s`: the first
value is drawn from the stationary distribution. -/
noncomputable def arDensity (n : ℕ) (r s : ℝ) (y : Fin (n + 1) → ℝ) : ℝ :=
  normalDensity 0 (s / Real.sqrt (1 - r ^ 2)) (y 0) * ∏ i : Fin n, normalDensity (r * y i.castSucc) s (y i.succ)

end Spec

namespace BL
open Spec

/-- integration over the last variable of a non-negative function -/
theorem integral_last {n : ℕ} {g : (Fin (n + 1) → ℝ) → ℝ} (hg : Measurable g) (h0 : ∀ y, 0 ≤ g y) {w : (Fin n → ℝ) → ℝ}
    (hw : ∀ y, IntegralIs (fun z : ℝ => g (Fin.snoc (α := fun _ => ℝ) y z)) (w y)) {v : ℝ} (hv : IntegralIs w v) : IntegralIs g v := by
  have hp := (volume_preserving_piFinSuccAbove (fun _ : Fin (n + 1) => ℝ) (Fin.last n)).symm
  set e := (MeasurableEquiv.piFinSuccAbove (fun _ : Fin (n + 1) => ℝ) (Fin.last n)).symm with he
  have hs : ∀ z y, g (e (z, y)) = g (Fin.snoc (α := fun _ => ℝ) y z) := by
    intro z y
    congr 1
    exact Fin.insertNth_last' z y
  have hi : Integrable (fun p : ℝ × (Fin n → ℝ) => g (e p)) (volume.prod volume) := by
    have hm : AEStronglyMeasurable (fun p : ℝ × (Fin n → ℝ) => g (e p)) (volume.prod volume) := (hg.comp e.measurable).aestronglyMeasurable
    rw [integrable_prod_iff' hm]
    refine ⟨Filter.Eventually.of_forall fun y => ?_, ?_⟩
    · simpa only [hs] using (hw y).1
    · refine hv.1.congr (Filter.Eventually.of_forall fun y => ?_)
      simp only [hs, Real.norm_of_nonneg (h0 _)]
      exact (hw y).2.symm
  have hiv : ∫ p, g (e p) ∂(volume.prod volume) = v := by
    rw [integral_prod_symm _ hi, ← hv.2]
    congr 1
    funext y
    simp only [hs]
    exact (hw y).2
  constructor
  · exact (hp.integrable_comp_emb e.measurableEmbedding).1 hi
  · rw [← hiv]
    exact (hp.integral_comp e.measurableEmbedding g).symm

theorem integral_first {g : ℝ → ℝ} {v : ℝ} (h : IntegralIs g v) : IntegralIs (fun y : Fin 1 → ℝ => g (y 0)) v := by
  have hp := volume_preserving_funUnique (Fin 1) ℝ
  exact ⟨(hp.integrable_comp_emb (MeasurableEquiv.measurableEmbedding _)).2 h.1, by
    rw [← h.2]; exact hp.integral_comp (MeasurableEquiv.measurableEmbedding _) g⟩

variable {r s : ℝ}

theorem arDensity_succ (n : ℕ) (r s : ℝ) (y : Fin (n + 2) → ℝ) :
    arDensity (n + 1) r s y = arDensity n r s (fun i => y i.castSucc) * normalDensity (r * y (Fin.last n).castSucc) s (y (Fin.last (n + 1))) := by
  unfold arDensity
  rw [Fin.prod_univ_castSucc, ← mul_assoc]
  rfl

/-- derivative of the logarithm of the density in the direction `(a, b)` of the plane of the parameters -/
noncomputable def arScore (a b : ℝ) (n : ℕ) (r s : ℝ) (y : Fin (n + 1) → ℝ) : ℝ :=
  (a * r / (1 - r ^ 2) + b / s) * (-1 + y 0 ^ 2 * (1 - r ^ 2) / s ^ 2) +
    ∑ i : Fin n, (a * y i.castSucc * (y i.succ - r * y i.castSucc) / s ^ 2 + b * (-(1 / s) + (y i.succ - r * y i.castSucc) ^ 2 / s ^ 3))

theorem arScore_succ (a b : ℝ) (n : ℕ) (r s : ℝ) (y : Fin (n + 2) → ℝ) :
    arScore a b (n + 1) r s y = arScore a b n r s (fun i => y i.castSucc) +
      (a * y (Fin.last n).castSucc * (y (Fin.last (n + 1)) - r * y (Fin.last n).castSucc) / s ^ 2 +
        b * (-(1 / s) + (y (Fin.last (n + 1)) - r * y (Fin.last n).castSucc) ^ 2 / s ^ 3)) := by
  unfold arScore
  rw [Fin.sum_univ_castSucc, ← add_assoc]
  rfl

theorem normal_curve {μ σ : ℝ → ℝ} {a b u : ℝ} (hμ : HasDerivAt μ a u) (hσ : HasDerivAt σ b u) (h : 0 < σ u) (x : ℝ) :
    HasDerivAt (fun u => normalDensity (μ u) (σ u) x) ((a * (x - μ u) / σ u ^ 2 + b * (-(1 / σ u) + (x - μ u) ^ 2 / σ u ^ 3)) * normalDensity (μ u) (σ u) x) u := by
  have hp : Real.sqrt (2 * Real.pi) ≠ 0 := by positivity
  have hn : σ u ≠ 0 := h.ne'
  have h1 : HasDerivAt (fun u => -(x - μ u) ^ 2 / (2 * σ u ^ 2)) (a * (x - μ u) / σ u ^ 2 + b * ((x - μ u) ^ 2 / σ u ^ 3)) u := by
    refine ((((hμ.const_sub x).fun_pow 2).fun_neg).fun_div ((hσ.fun_pow 2).const_mul 2) (by positivity)).congr_deriv ?_
    push_cast
    field_simp
    ring
  have h2 : HasDerivAt (fun u => 1 / (σ u * Real.sqrt (2 * Real.pi))) (b * (-(1 / σ u)) * (1 / (σ u * Real.sqrt (2 * Real.pi)))) u := by
    refine ((hasDerivAt_const u (1 : ℝ)).fun_div (hσ.mul_const (Real.sqrt (2 * Real.pi))) (by positivity)).congr_deriv ?_
    field_simp
    ring
  refine (h2.fun_mul h1.exp).congr_deriv ?_
  unfold normalDensity; ring

theorem one_sub_sq_pos (h1 : -1 < r) (h2 : r < 1) : 0 < 1 - r ^ 2 := by nlinarith

theorem arDensity_curve {ρ σ : ℝ → ℝ} {a b u : ℝ} (hρ : HasDerivAt ρ a u) (hσ : HasDerivAt σ b u) (h1 : -1 < ρ u) (h2 : ρ u < 1) (h : 0 < σ u) :
    ∀ (n : ℕ) (y : Fin (n + 1) → ℝ), HasDerivAt (fun u => arDensity n (ρ u) (σ u) y) (arScore a b n (ρ u) (σ u) y * arDensity n (ρ u) (σ u) y) u
  | 0, y => by
    have hq := one_sub_sq_pos h1 h2
    have hs := Real.sqrt_pos.2 hq
    have hsq : Real.sqrt (1 - ρ u ^ 2) ^ 2 = 1 - ρ u ^ 2 := Real.sq_sqrt hq.le
    have hd : HasDerivAt (fun u => Real.sqrt (1 - ρ u ^ 2)) (-(a * ρ u) / Real.sqrt (1 - ρ u ^ 2)) u := by
      refine (((hρ.fun_pow 2).const_sub 1).sqrt hq.ne').congr_deriv ?_
      push_cast
      field_simp
    have ht := hσ.fun_div hd hs.ne'
    have hc := normal_curve (hasDerivAt_const u (0 : ℝ)) ht (by positivity) (y 0)
    simp only [arDensity, Finset.univ_eq_empty, Finset.prod_empty, mul_one]
    refine hc.congr_deriv ?_
    congr 1
    simp only [arScore, Finset.univ_eq_empty, Finset.sum_empty, add_zero, sub_zero, zero_mul, zero_div, zero_add]
    generalize Real.sqrt (1 - ρ u ^ 2) = q at hsq hs ⊢
    rw [← hsq]
    field_simp
    ring
  | n + 1, y => by
    have ih := arDensity_curve hρ hσ h1 h2 h n fun i => y i.castSucc
    have hc := normal_curve (hρ.mul_const (y (Fin.last n).castSucc)) hσ h (y (Fin.last (n + 1)))
    simp only [arDensity_succ, arScore_succ]
    refine (ih.fun_mul hc).congr_deriv ?_
    ring

theorem arDensity_pos (hs : 0 < s) (h1 : -1 < r) (h2 : r < 1) (n : ℕ) (y : Fin (n + 1) → ℝ) : 0 < arDensity n r s y := by
  have hq := Real.sqrt_pos.2 (one_sub_sq_pos h1 h2)
  exact mul_pos (normal_pos (by positivity) _ _) (Finset.prod_pos fun i _ => normal_pos hs _ _)

theorem arDensity_measurable (n : ℕ) (r s : ℝ) : Measurable (arDensity n r s) := by
  unfold arDensity normalDensity
  fun_prop

theorem arScore_measurable (a b : ℝ) (n : ℕ) (r s : ℝ) : Measurable (arScore a b n r s) := by
  unfold arScore
  fun_prop

/-- expectation of a square under a normal distribution -/
theorem normal_square {σ : ℝ} (hσ : 0 < σ) (μ : ℝ) : IntegralIs (fun x => x ^ 2 * normalDensity μ σ x) (μ ^ 2 + σ ^ 2) :=
  IntegralIs.congr (normal_poly hσ μ (μ ^ 2) (2 * μ) 1 0 0) (fun x => by ring) (by ring)

theorem ar_total (hs : 0 < s) (h1 : -1 < r) (h2 : r < 1) : ∀ n, IntegralIs (arDensity n r s) 1
  | 0 => by
    have hq := Real.sqrt_pos.2 (one_sub_sq_pos h1 h2)
    have h := integral_first (IntegralIs.congr (normal_poly (σ := s / Real.sqrt (1 - r ^ 2)) (by positivity) 0 1 0 0 0 0) (fun x => by ring) (by ring) :
      IntegralIs (fun x => normalDensity 0 (s / Real.sqrt (1 - r ^ 2)) x) 1)
    exact IntegralIs.congr h (fun y => by simp [arDensity]) rfl
  | n + 1 => by
    refine integral_last (arDensity_measurable _ _ _) (fun y => (arDensity_pos hs h1 h2 _ y).le) (w := arDensity n r s) (fun y => ?_) (ar_total hs h1 h2 n)
    refine IntegralIs.congr (IntegralIs.const_mul (normal_poly hs (r * y (Fin.last n)) 1 0 0 0 0) (arDensity n r s y)) (fun z => ?_) (by ring)
    rw [arDensity_succ]
    simp only [Fin.snoc_castSucc, Fin.snoc_last]
    ring

theorem ar_square (hs : 0 < s) (h1 : -1 < r) (h2 : r < 1) : ∀ n, IntegralIs (fun y => y (Fin.last n) ^ 2 * arDensity n r s y) (s ^ 2 / (1 - r ^ 2))
  | 0 => by
    have hq' := one_sub_sq_pos h1 h2
    have hq := Real.sqrt_pos.2 hq'
    have h := integral_first (normal_square (σ := s / Real.sqrt (1 - r ^ 2)) (by positivity) 0)
    refine IntegralIs.congr h (fun y => by simp [arDensity]) ?_
    rw [div_pow, Real.sq_sqrt hq'.le]; ring
  | n + 1 => by
    have hq' := one_sub_sq_pos h1 h2
    refine integral_last (by have := arDensity_measurable (n + 1) r s; fun_prop) (fun y => mul_nonneg (sq_nonneg _) (arDensity_pos hs h1 h2 _ y).le)
      (w := fun y => r ^ 2 * (y (Fin.last n) ^ 2 * arDensity n r s y) + s ^ 2 * arDensity n r s y) (fun y => ?_) ?_
    · refine IntegralIs.congr (IntegralIs.const_mul (normal_square hs (r * y (Fin.last n))) (arDensity n r s y)) (fun z => ?_) (by ring)
      rw [arDensity_succ]
      simp only [Fin.snoc_castSucc, Fin.snoc_last]
      ring
    · refine IntegralIs.congr (IntegralIs.add (IntegralIs.const_mul (ar_square hs h1 h2 n) (r ^ 2)) (IntegralIs.const_mul (ar_total hs h1 h2 n) (s ^ 2))) (fun _ => rfl) ?_
      field_simp
      ring

/-- the Fisher information in the direction `(a, b)` -/
theorem ar_score_square (hs : 0 < s) (h1 : -1 < r) (h2 : r < 1) (a b : ℝ) : ∀ n : ℕ, IntegralIs (fun y => arScore a b n r s y ^ 2 * arDensity n r s y)
    (a ^ 2 * ((1 + r ^ 2) / (1 - r ^ 2) ^ 2 + ((n : ℝ) - 1) / (1 - r ^ 2)) + 4 * a * b * r / (s * (1 - r ^ 2)) + b ^ 2 * (2 * ((n : ℝ) + 1)) / s ^ 2)
  | 0 => by
    have hq' := one_sub_sq_pos h1 h2
    have hq := Real.sqrt_pos.2 hq'
    have hsq : Real.sqrt (1 - r ^ 2) ^ 2 = 1 - r ^ 2 := Real.sq_sqrt hq'.le
    have h4 : (s / Real.sqrt (1 - r ^ 2)) ^ 4 = s ^ 4 / (1 - r ^ 2) ^ 2 := by
      rw [div_pow]
      generalize Real.sqrt (1 - r ^ 2) = q at hsq
      rw [← hsq]; ring
    have h2' : (s / Real.sqrt (1 - r ^ 2)) ^ 2 = s ^ 2 / (1 - r ^ 2) := by rw [div_pow, hsq]
    set k := (a * r / (1 - r ^ 2) + b / s) ^ 2 with hk
    have h := integral_first (normal_poly (σ := s / Real.sqrt (1 - r ^ 2)) (by positivity) 0 k 0 (-2 * k * (1 - r ^ 2) / s ^ 2) 0 (k * (1 - r ^ 2) ^ 2 / s ^ 4))
    refine IntegralIs.congr h (fun y => ?_) ?_
    · simp only [arScore, arDensity, Finset.univ_eq_empty, Finset.prod_empty, mul_one, Finset.sum_empty, add_zero, sub_zero]
      rw [mul_pow, ← hk]
      ring
    · rw [h4, h2', hk]
      have := hs.ne'
      push_cast
      field_simp
      ring
  | n + 1 => by
    have hq' := one_sub_sq_pos h1 h2
    refine integral_last (by have := arDensity_measurable (n + 1) r s; have := arScore_measurable a b (n + 1) r s; fun_prop)
      (fun y => mul_nonneg (sq_nonneg _) (arDensity_pos hs h1 h2 _ y).le)
      (w := fun y => arScore a b n r s y ^ 2 * arDensity n r s y + (a ^ 2 / s ^ 2 * (y (Fin.last n) ^ 2 * arDensity n r s y) + 2 * b ^ 2 / s ^ 2 * arDensity n r s y)) (fun y => ?_) ?_
    · have hn := hs.ne'
      set L := arScore a b n r s y with hL
      set x := y (Fin.last n) with hx
      have h := normal_poly hs (r * x) ((L - b / s) ^ 2) (2 * (L - b / s) * (a * x / s ^ 2)) ((a * x / s ^ 2) ^ 2 + 2 * (L - b / s) * (b / s ^ 3)) (2 * (a * x / s ^ 2) * (b / s ^ 3))
        ((b / s ^ 3) ^ 2)
      refine IntegralIs.congr (IntegralIs.const_mul h (arDensity n r s y)) (fun z => ?_) ?_
      · rw [arDensity_succ, arScore_succ]
        simp only [Fin.snoc_castSucc, Fin.snoc_last, ← hL, ← hx]
        ring
      · field_simp
        ring
    · refine IntegralIs.congr (IntegralIs.add (ar_score_square hs h1 h2 a b n) (IntegralIs.add (IntegralIs.const_mul (ar_square hs h1 h2 n) (a ^ 2 / s ^ 2))
        (IntegralIs.const_mul (ar_total hs h1 h2 n) (2 * b ^ 2 / s ^ 2)))) (fun _ => rfl) ?_
      have hn := hs.ne'
      push_cast
      field_simp
      ring

end BL
