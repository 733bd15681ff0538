import Verif.Model.Likelihood
import Verif.Spec.Density
import Mathlib.Analysis.SpecialFunctions.Gamma.Basic
import Mathlib.MeasureTheory.Integral.ExpDecay
import Mathlib.MeasureTheory.Integral.IntegralEqImproper
import Mathlib.MeasureTheory.Integral.Pi
import Mathlib.MeasureTheory.Measure.Lebesgue.Integral
import Mathlib.MeasureTheory.Measure.Haar.NormedSpace

/-! # C57: densities of the built-in observation models -/

set_option linter.unusedSectionVars false

open MeasureTheory

namespace BL
open Spec

theorem gaussForm_eq {σ : ℝ} (hσ : 0 < σ) (μ x : ℝ) : gaussForm ((x - μ) ^ 2) (σ ^ 2) = normalDensity μ σ x := by
  have h2 : 0 < 2 * Real.pi := by positivity
  have hlog : Real.exp (-(1 / 2 * Real.log (2 * Real.pi * σ ^ 2))) = 1 / (σ * Real.sqrt (2 * Real.pi)) := by
    rw [Real.exp_neg, one_div, one_div]
    congr 1
    have hp : 0 < σ * Real.sqrt (2 * Real.pi) := by positivity
    rw [← Real.exp_log hp]
    congr 1
    rw [Real.log_mul hσ.ne' (Real.sqrt_ne_zero'.2 h2), Real.log_sqrt h2.le, Real.log_mul h2.ne' (by positivity), Real.log_pow]
    push_cast
    ring
  rw [gaussForm, sub_eq_add_neg, Real.exp_add, hlog, normalDensity, mul_comm]

theorem normalDensity_eq {σ : ℝ} (hσ : 0 < σ) (μ x : ℝ) : normalDensity μ σ x = ProbabilityTheory.gaussianPDFReal μ (σ ^ 2).toNNReal x := by
  rw [normalDensity, ProbabilityTheory.gaussianPDFReal_def]
  simp only [Real.coe_toNNReal (σ ^ 2) (by positivity)]
  rw [one_div]
  congr 2
  rw [show 2 * Real.pi * σ ^ 2 = σ ^ 2 * (2 * Real.pi) by ring, Real.sqrt_mul (sq_nonneg σ), Real.sqrt_sq hσ.le]

theorem normal_isDensity {σ : ℝ} (hσ : 0 < σ) (μ : ℝ) : IsDensity (normalDensity μ σ) := by
  have he : normalDensity μ σ = ProbabilityTheory.gaussianPDFReal μ (σ ^ 2).toNNReal := funext (normalDensity_eq hσ μ)
  rw [he]
  refine ⟨ProbabilityTheory.gaussianPDFReal_nonneg _ _, ProbabilityTheory.integrable_gaussianPDFReal _ _, ProbabilityTheory.integral_gaussianPDFReal_eq_one _ ?_⟩
  have : 0 < (σ ^ 2).toNNReal := Real.toNNReal_pos.2 (by positivity)
  exact this.ne'

theorem integral_exp_neg_abs : ∫ x : ℝ, Real.exp (-|x|) = 2 := by
  rw [integral_comp_abs (f := fun x => Real.exp (-x)), integral_exp_neg_Ioi_zero]
  norm_num

theorem laplace_isDensity {b : ℝ} (hb : 0 < b) (μ : ℝ) : IsDensity (laplaceDensity μ b) := by
  have h0 : ∫ x : ℝ, laplaceDensity μ b x = 1 := by
    simp only [laplaceDensity]
    rw [integral_const_mul]
    rw [integral_sub_right_eq_self (μ := volume) (fun a : ℝ => Real.exp (-(|a| / b))) μ]
    have : (fun a : ℝ => Real.exp (-(|a| / b))) = fun a : ℝ => (fun y => Real.exp (-|y|)) (a / b) := by
      funext a; simp only [abs_div, abs_of_pos hb]
    rw [this, Measure.integral_comp_div (fun y => Real.exp (-|y|)) b, integral_exp_neg_abs, abs_of_pos hb]
    simp only [smul_eq_mul]
    field_simp
  refine ⟨fun x => ?_, ?_, h0⟩
  · rw [laplaceDensity]; positivity
  · by_contra h
    rw [integral_undef h] at h0
    exact zero_ne_one h0

theorem prod_isDensity {w : ℕ} {f : Fin w → ℝ → ℝ} (h : ∀ j, IsDensity (f j)) : IsDensity fun y : Fin w → ℝ => ∏ j, f j (y j) := by
  refine ⟨fun y => Finset.prod_nonneg fun j _ => (h j).nonneg _, Integrable.fintype_prod fun j => (h j).integrable, ?_⟩
  rw [integral_fintype_prod_volume_eq_prod]
  exact Finset.prod_eq_one fun j _ => (h j).total

end BL

namespace Spec
open BL

/-- the observation models with real-valued observations and without given error intervals -/
def RealValued (m : OM) : Prop := m = .gaussian ∨ m = .laplace ∨ m = .whiteNoise ∨ m = .ar1 ∨ m = .scaledAR1

/-- admissible parameter values: positive widths; correlation coefficient between -1 and 1 for the scaled process -/
def Admissible (m : OM) (θ : ℕ → ℝ) : Prop :=
  match m with
  | .gaussian | .laplace | .ar1 => 0 < θ 1
  | .whiteNoise => 0 < θ 0
  | .scaledAR1 => 0 < θ 1 ∧ -1 < θ 0 ∧ θ 0 < 1
  | _ => True

/-- density of an observation `y` after the observation `prev`, as in the documentation of the models -/
noncomputable def textbook (m : OM) (θ : ℕ → ℝ) (prev y : ℝ) : ℝ :=
  match m with
  | .gaussian => normalDensity (θ 0) (θ 1) y
  | .laplace => laplaceDensity (θ 0) (θ 1) y
  | .whiteNoise => normalDensity 0 (θ 0) y
  | .ar1 => normalDensity (θ 0 * prev) (θ 1) y
  | .scaledAR1 => normalDensity (θ 0 * prev) (θ 1 * Real.sqrt (1 - θ 0 ^ 2)) y
  | _ => 0

/-- the data segment that ends with the observation `y`: for auto-regressive processes it contains the preceding observation -/
def dataSegment {α : Type} (m : OM) (prev y : α) : List α := if m.segmentLength = 2 then [prev, y] else [y]

end Spec

namespace BL
open Spec

theorem scaled_pos {r s : ℝ} (hs : 0 < s) (h1 : -1 < r) (h2 : r < 1) : 0 < s * Real.sqrt (1 - r ^ 2) := by
  have : 0 < 1 - r ^ 2 := by nlinarith
  have := Real.sqrt_pos.2 this
  positivity

theorem textbook_isDensity {m : OM} (hm : RealValued m) {θ : ℕ → ℝ} (ha : Admissible m θ) (prev : ℝ) : IsDensity (textbook m θ prev) := by
  rcases hm with rfl | rfl | rfl | rfl | rfl
  · exact normal_isDensity ha _
  · exact laplace_isDensity ha _
  · exact normal_isDensity ha _
  · exact normal_isDensity ha _
  · exact normal_isDensity (scaled_pos ha.1 ha.2.1 ha.2.2) _

theorem pdf_textbook {m : OM} (hm : RealValued m) {θ : ℕ → ℝ} (ha : Admissible m θ) (prev y : ℝ) :
    m.pdf θ (.flat ((dataSegment m prev y).map some)) = textbook m θ prev y := by
  rcases hm with rfl | rfl | rfl | rfl | rfl
  · exact gaussForm_eq ha _ _
  · change Real.exp (-|y - θ 0| / θ 1) / (2 * θ 1) = laplaceDensity (θ 0) (θ 1) y
    rw [laplaceDensity, neg_div]; ring
  · change gaussForm (y ^ 2) (θ 0 ^ 2) = _
    rw [← sub_zero y]
    simpa [textbook] using gaussForm_eq ha 0 y
  · exact gaussForm_eq ha _ _
  · exact gaussForm_eq (scaled_pos ha.1 ha.2.1 ha.2.2) _ _

theorem missing_some (l : List ℝ) : (Seg.flat (l.map some)).missing = false := by
  simp [Seg.missing]

end BL

namespace Props
open BL Spec
variable {d : ℕ} {gs : Fin d → ℕ}

/-- **C57.** Gaussian, Laplace, WhiteNoise, AR1 and ScaledAR1: at every point of every parameter grid with admissible values, for every preceding observation: the
likelihood as a function of the last observation is the documented density; it is non-negative and has integral one. -/
theorem C57 (m : OM) (hm : RealValued m) (grid : (a : Fin d) → Fin (gs a) → ℝ) (i : Idx gs) (ha : Admissible m (gridPoint grid i)) (prev : ℝ) :
    (∀ y, m.likelihood grid (.flat ((dataSegment m prev y).map some)) i = textbook m (gridPoint grid i) prev y) ∧
    IsDensity fun y => m.likelihood grid (.flat ((dataSegment m prev y).map some)) i := by
  have h : ∀ y, m.likelihood grid (.flat ((dataSegment m prev y).map some)) i = textbook m (gridPoint grid i) prev y := by
    intro y
    rw [OM.likelihood, processedPdf, pdfOrOnes, missing_some]
    exact pdf_textbook hm ha prev y
  refine ⟨h, ?_⟩
  simp only [h]
  exact textbook_isDensity hm ha prev

/-- **C57 (several components).** The same models with observations of `w` components: the likelihood is the joint density of
independent components and has integral one. -/
theorem C57_components (m : OM) (hm : RealValued m) (grid : (a : Fin d) → Fin (gs a) → ℝ) (i : Idx gs) (ha : Admissible m (gridPoint grid i)) (w : ℕ) (prev : Fin w → ℝ) :
    (∀ y : Fin w → ℝ, m.likelihood grid (.rows w ((dataSegment m prev y).map fun r j => some (r j))) i = ∏ j, textbook m (gridPoint grid i) (prev j) (y j)) ∧
    IsDensity fun y : Fin w → ℝ => m.likelihood grid (.rows w ((dataSegment m prev y).map fun r j => some (r j))) i := by
  have h : ∀ y : Fin w → ℝ, m.likelihood grid (.rows w ((dataSegment m prev y).map fun r j => some (r j))) i = ∏ j, textbook m (gridPoint grid i) (prev j) (y j) := by
    intro y
    have hmult : m.multiplyLikelihoods = true := by rcases hm with rfl | rfl | rfl | rfl | rfl <;> rfl
    rw [OM.likelihood, processedPdf, hmult, if_pos rfl, ← List.ofFn_eq_map, List.prod_ofFn]
    refine Finset.prod_congr rfl fun j _ => ?_
    have hc : column ((dataSegment m prev y).map fun r j => some (r j)) j = (dataSegment m (prev j) (y j)).map some := by
      unfold dataSegment column
      split <;> rfl
    rw [hc, pdfOrOnes, missing_some]
    exact pdf_textbook hm ha (prev j) (y j)
  refine ⟨h, ?_⟩
  simp only [h]
  exact prod_isDensity fun j => textbook_isDensity hm ha (prev j)

/-- **C57 (GaussianMean).** Observed value `y` with given standard deviation `s`: the density of `y` is normal around the parameter. -/
theorem C57_gaussianMean (grid : (a : Fin d) → Fin (gs a) → ℝ) (i : Idx gs) (s : ℝ) (hs : 0 < s) :
    (∀ y, OM.gaussianMean.likelihood grid (.rows 2 [![some y, some s]]) i = normalDensity (gridPoint grid i 0) s y) ∧
    IsDensity fun y => OM.gaussianMean.likelihood grid (.rows 2 [![some y, some s]]) i := by
  have h : ∀ y, OM.gaussianMean.likelihood grid (.rows 2 [![some y, some s]]) i = normalDensity (gridPoint grid i 0) s y := by
    intro y
    have hm : (Seg.rows 2 [![some y, some s]]).missing = false := by simp [Seg.missing, List.finRange]
    rw [OM.likelihood, processedPdf, show OM.gaussianMean.multiplyLikelihoods = false from rfl, if_neg Bool.false_ne_true, pdfOrOnes, hm]
    exact gaussForm_eq hs _ _
  refine ⟨h, ?_⟩
  simp only [h]
  exact normal_isDensity hs _

/-- **C57 (missing components).** If components of the preceding or the last observation are missing (NaN), exactly these components do not contribute. -/
theorem C57_missing (m : OM) (hm : RealValued m) (grid : (a : Fin d) → Fin (gs a) → ℝ) (i : Idx gs) (ha : Admissible m (gridPoint grid i)) (w : ℕ) (prev y : Fin w → Option ℝ) :
    m.likelihood grid (.rows w (dataSegment m prev y)) i =
      ∏ j, if m.segmentLength = 2 then
          (match prev j, y j with | some p, some v => textbook m (gridPoint grid i) p v | _, _ => 1)
        else (match y j with | some v => textbook m (gridPoint grid i) 0 v | none => 1) := by
  have hmult : m.multiplyLikelihoods = true := by rcases hm with rfl | rfl | rfl | rfl | rfl <;> rfl
  rw [OM.likelihood, processedPdf, hmult, if_pos rfl, ← List.ofFn_eq_map, List.prod_ofFn]
  refine Finset.prod_congr rfl fun j _ => ?_
  have hc : column (dataSegment m prev y) j = dataSegment m (prev j) (y j) := by
    unfold dataSegment column
    split <;> rfl
  rw [hc, pdfOrOnes]
  by_cases h2 : m.segmentLength = 2
  · rw [if_pos h2]
    cases hp : prev j with
    | none => simp [dataSegment, h2, Seg.missing]
    | some p =>
        cases hy : y j with
        | none => simp [dataSegment, h2, Seg.missing]
        | some v =>
            have := missing_some (dataSegment m p v)
            have h := pdf_textbook hm ha p v
            simp only [dataSegment, h2, if_true, List.map_cons, List.map_nil] at this h ⊢
            rw [this]
            exact h
  · rw [if_neg h2]
    cases hy : y j with
    | none => simp [dataSegment, h2, Seg.missing]
    | some v =>
        have := missing_some (dataSegment m 0 v)
        have h := pdf_textbook hm ha 0 v
        simp only [dataSegment, h2, if_false, List.map_cons, List.map_nil] at this h ⊢
        rw [this]
        exact h

/-- admissible values on a grid with two values of both parameters -/
example : Admissible .scaledAR1 (gridPoint (gs := fun _ : Fin 2 => 2) (fun _ k => ((k.val : ℝ) + 1) / 4) fun _ => 1) := by
  refine ⟨?_, ?_, ?_⟩ <;> norm_num [gridPoint]

end Props
