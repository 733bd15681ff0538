import Verif.Props.C57
import Mathlib.Probability.Distributions.Poisson.Basic
import Mathlib.Algebra.BigOperators.Ring.Finset

/-! # C56: Bernoulli and Poisson likelihoods -/

set_option linter.unusedSectionVars false

open MeasureTheory

namespace BL
open Spec

theorem clip01_id {p : ℝ} (h0 : 0 ≤ p) (h1 : p ≤ 1) : clip01 p = p := by
  rw [clip01, if_neg (not_lt.2 h1), if_neg (not_lt.2 h0)]

theorem clip01_out {p : ℝ} (h : p < 0 ∨ 1 < p) : clip01 p = 0 := by
  rw [clip01]
  rcases h with h | h
  · rw [if_neg (by linarith : ¬ p > 1), if_pos h]
  · rw [if_pos h]

theorem clip01_mem (p : ℝ) : 0 ≤ clip01 p ∧ clip01 p ≤ 1 := by
  by_cases h : 0 ≤ p ∧ p ≤ 1
  · rw [clip01_id h.1 h.2]; exact h
  · rw [clip01_out (by
      by_contra hc
      push Not at hc
      exact h hc)]
    exact ⟨le_rfl, zero_le_one⟩

theorem flat_likelihood {d : ℕ} {gs : Fin d → ℕ} (m : OM) (grid : (a : Fin d) → Fin (gs a) → ℝ) (i : Idx gs) (y : ℝ) :
    m.likelihood grid (.flat [some y]) i = m.pdf (gridPoint grid i) (.flat [some y]) := by
  rw [OM.likelihood, processedPdf, pdfOrOnes, show (Seg.flat [some y]).missing = false from missing_some [y]]
  rfl

theorem rows_likelihood {d : ℕ} {gs : Fin d → ℕ} {m : OM} (hm : m.multiplyLikelihoods = true) (grid : (a : Fin d) → Fin (gs a) → ℝ) (i : Idx gs) {w : ℕ} (y : Fin w → ℝ) :
    m.likelihood grid (.rows w [fun j => some (y j)]) i = ∏ j, m.likelihood grid (.flat [some (y j)]) i := by
  rw [OM.likelihood, processedPdf, hm, if_pos rfl, ← List.ofFn_eq_map, List.prod_ofFn]
  refine Finset.prod_congr rfl fun j _ => ?_
  rw [OM.likelihood, processedPdf]
  rfl

end BL

namespace Props
open BL Spec
variable {d : ℕ} {gs : Fin d → ℕ}

/-- **C56 (Bernoulli).** At every point of every grid of probabilities in [0, 1]: success has likelihood `p`, failure `1 - p`; both are non-negative, their sum is one. -/
theorem C56_bernoulli (grid : (a : Fin d) → Fin (gs a) → ℝ) (i : Idx gs) (h0 : 0 ≤ gridPoint grid i 0) (h1 : gridPoint grid i 0 ≤ 1) :
    OM.bernoulli.likelihood grid (.flat [some 1]) i = gridPoint grid i 0 ∧
    OM.bernoulli.likelihood grid (.flat [some 0]) i = 1 - gridPoint grid i 0 ∧
    0 ≤ OM.bernoulli.likelihood grid (.flat [some 1]) i ∧ 0 ≤ OM.bernoulli.likelihood grid (.flat [some 0]) i ∧
    OM.bernoulli.likelihood grid (.flat [some 1]) i + OM.bernoulli.likelihood grid (.flat [some 0]) i = 1 := by
  have e1 : OM.bernoulli.likelihood grid (.flat [some 1]) i = gridPoint grid i 0 := by
    rw [flat_likelihood]
    simp [OM.pdf, Seg.num, clip01_id h0 h1]
  have e0 : OM.bernoulli.likelihood grid (.flat [some 0]) i = 1 - gridPoint grid i 0 := by
    rw [flat_likelihood]
    simp [OM.pdf, Seg.num, clip01_id h0 h1]
  refine ⟨e1, e0, ?_, ?_, ?_⟩
  · rw [e1]; exact h0
  · rw [e0]; linarith
  · rw [e1, e0]; ring

/-- **C56 (Bernoulli, inadmissible values).** For grid values outside [0, 1] the likelihood is still a probability mass function: that of certain failure. -/
theorem C56_outside (grid : (a : Fin d) → Fin (gs a) → ℝ) (i : Idx gs) (h : gridPoint grid i 0 < 0 ∨ 1 < gridPoint grid i 0) :
    OM.bernoulli.likelihood grid (.flat [some 1]) i = 0 ∧ OM.bernoulli.likelihood grid (.flat [some 0]) i = 1 := by
  constructor <;> rw [flat_likelihood] <;> simp [OM.pdf, Seg.num, clip01_out h]

/-- **C56 (Bernoulli, several components).** For observations of `w` components the likelihoods of all `2^w` observations are non-negative and sum to one. -/
theorem C56_components (grid : (a : Fin d) → Fin (gs a) → ℝ) (i : Idx gs) (w : ℕ) :
    (∀ y : Fin w → Fin 2, 0 ≤ OM.bernoulli.likelihood grid (.rows w [fun j => some ((y j).val : ℝ)]) i) ∧
    ∑ y : Fin w → Fin 2, OM.bernoulli.likelihood grid (.rows w [fun j => some ((y j).val : ℝ)]) i = 1 := by
  have he : ∀ b : Fin 2, 0 ≤ OM.bernoulli.likelihood grid (.flat [some (b.val : ℝ)]) i := by
    intro b
    rw [flat_likelihood]
    obtain ⟨h0, h1⟩ := clip01_mem (gridPoint grid i 0)
    simp only [OM.pdf]
    split
    · exact h0
    · linarith
  constructor
  · intro y
    rw [rows_likelihood rfl]
    exact Finset.prod_nonneg fun j _ => he (y j)
  · have h : ∀ y : Fin w → Fin 2, OM.bernoulli.likelihood grid (.rows w [fun j => some ((y j).val : ℝ)]) i =
        ∏ j, OM.bernoulli.likelihood grid (.flat [some ((y j).val : ℝ)]) i := fun y => rows_likelihood rfl grid i fun j => ((y j).val : ℝ)
    simp only [h]
    rw [← Fintype.piFinset_univ, Finset.sum_prod_piFinset Finset.univ fun (_ : Fin w) (b : Fin 2) => OM.bernoulli.likelihood grid (.flat [some (b.val : ℝ)]) i]
    refine Finset.prod_eq_one fun j _ => ?_
    rw [Fin.sum_univ_two]
    simp only [flat_likelihood, OM.pdf, Seg.num]
    simp

/-- **C56 (Poisson).** At every point of every grid of non-negative rates: the likelihood of `k` events is the Poisson probability; the likelihoods are non-negative and
their sum over all `k` is one. -/
theorem C56_poisson (grid : (a : Fin d) → Fin (gs a) → ℝ) (i : Idx gs) (h0 : 0 ≤ gridPoint grid i 0) :
    (∀ k : ℕ, OM.poisson.likelihood grid (.flat [some (k : ℝ)]) i = poissonMass (gridPoint grid i 0) k) ∧
    (∀ k : ℕ, 0 ≤ OM.poisson.likelihood grid (.flat [some (k : ℝ)]) i) ∧
    HasSum (fun k : ℕ => OM.poisson.likelihood grid (.flat [some (k : ℝ)]) i) 1 := by
  have h : ∀ k : ℕ, OM.poisson.likelihood grid (.flat [some (k : ℝ)]) i = poissonMass (gridPoint grid i 0) k := by
    intro k
    rw [flat_likelihood]
    simp only [OM.pdf, Seg.num, List.getElem?_cons_zero, Option.bind_some, id, Option.getD_some, Nat.floor_natCast, if_true]
    rw [poissonMass]; ring
  refine ⟨h, fun k => ?_, ?_⟩
  · rw [h, poissonMass]; positivity
  · simp only [h]
    exact ProbabilityTheory.hasSum_one_poissonMeasure ⟨gridPoint grid i 0, h0⟩

/-- a grid of two probabilities, and of two rates -/
example : (0 : ℝ) ≤ gridPoint (gs := fun _ : Fin 1 => 2) (fun _ k => ((k.val : ℝ) + 1) / 4) (fun _ => 1) 0 ∧
    gridPoint (gs := fun _ : Fin 1 => 2) (fun _ k => ((k.val : ℝ) + 1) / 4) (fun _ => 1) 0 ≤ 1 := by
  constructor <;> norm_num [gridPoint]

/-- a value outside [0, 1] -/
example : 1 < gridPoint (gs := fun _ : Fin 1 => 2) (fun _ k => (k.val : ℝ) * 2) (fun _ => 1) 0 := by norm_num [gridPoint]

end Props
