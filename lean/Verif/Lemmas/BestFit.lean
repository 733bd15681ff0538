import Verif.Lemmas.Static
import Verif.Spec.BestFit
import Mathlib.Probability.StrongLaw

/-! # Products of likelihood ratios of independent observations whose distribution need not belong to the model -/

set_option linter.unusedSectionVars false

open MeasureTheory ProbabilityTheory Filter
open scoped Topology

namespace BL
open Spec

variable {Ω Y : Type} [MeasurableSpace Ω] [MeasurableSpace Y] {P : Measure Ω} {X : ℕ → Ω → Y} {μ : Measure Y}

/-- law of large numbers for a function of independent observations -/
theorem average_tendsto (hX : IID P X μ) {h : Y → ℝ} (hm : Measurable h) (hi : Integrable h μ) :
    ∀ᵐ ω ∂P, Tendsto (fun n : ℕ => (∑ i ∈ Finset.range n, h (X i ω)) / n) atTop (𝓝 (∫ y, h y ∂μ)) := by
  have hid : ∀ i, IdentDistrib (X i) (X 0) P P := fun i => ⟨(hX.measurable i).aemeasurable, (hX.measurable 0).aemeasurable, by rw [hX.law, hX.law]⟩
  have hint : Integrable (fun ω => h (X 0 ω)) P := by
    have := hi
    rw [← hX.law 0] at this
    exact (integrable_map_measure hm.aestronglyMeasurable (hX.measurable 0).aemeasurable).1 this
  have := strong_law_ae_real (μ := P) (fun i ω => h (X i ω)) hint (fun i j hij => (hX.indep.indepFun hij).comp hm hm) (fun i => (hid i).comp hm)
  have heq : ∫ ω, h (X 0 ω) ∂P = ∫ y, h y ∂μ := by
    rw [← hX.law 0, integral_map (hX.measurable 0).aemeasurable hm.aestronglyMeasurable]
  simpa only [heq] using this

/-- a property that observations have with probability one, all of them have with probability one -/
theorem all_ae (hX : IID P X μ) {p : Y → Prop} (hp : ∀ᵐ y ∂μ, p y) : ∀ᵐ ω ∂P, ∀ i, p (X i ω) := by
  refine ae_all_iff.2 fun i => ?_
  rw [← hX.law i] at hp
  exact ae_of_ae_map (hX.measurable i).aemeasurable hp

/-- an observation of positive probability occurs sooner or later -/
theorem eventually_hits (hX : IID P X μ) {s : Set Y} (hs : MeasurableSet s) (h0 : μ s ≠ 0) : ∀ᵐ ω ∂P, ∃ i, X i ω ∈ s := by
  have hprob : IsProbabilityMeasure P := hX.indep.isProbabilityMeasure
  have hμ : IsProbabilityMeasure μ := by rw [← hX.law 0]; exact Measure.isProbabilityMeasure_map (hX.measurable 0).aemeasurable
  have hm : Measurable (s.indicator fun _ => (1 : ℝ)) := measurable_const.indicator hs
  have hi : Integrable (s.indicator fun _ => (1 : ℝ)) μ := (integrable_const 1).indicator hs
  filter_upwards [average_tendsto hX hm hi] with ω hω
  by_contra hc
  push Not at hc
  have h1 : ∫ y, s.indicator (fun _ => (1 : ℝ)) y ∂μ = μ.real s := by rw [integral_indicator_const _ hs]; simp
  have h2 : (fun n : ℕ => (∑ i ∈ Finset.range n, s.indicator (fun _ => (1 : ℝ)) (X i ω)) / n) = fun _ => 0 := by
    funext n
    rw [Finset.sum_eq_zero fun i _ => Set.indicator_of_notMem (hc i) _, zero_div]
  rw [h1, h2] at hω
  have h3 : μ.real s = 0 := tendsto_nhds_unique hω tendsto_const_nhds
  rw [measureReal_eq_zero_iff] at h3
  exact h0 h3

/-- the likelihood ratio of a worse description to a better one tends to zero -/
theorem ratio_tendsto (hX : IID P X μ) {f g : Y → ℝ} (hf : Measurable f) (hg : Measurable g) (hf0 : ∀ y, 0 ≤ f y) (hg0 : ∀ y, 0 ≤ g y) (hpos : ∀ᵐ y ∂μ, 0 < g y) (hw : Worse μ f g) :
    ∀ᵐ ω ∂P, Tendsto (fun n : ℕ => (∏ i ∈ Finset.range n, f (X i ω)) / ∏ i ∈ Finset.range n, g (X i ω)) atTop (𝓝 0) := by
  by_cases hz : μ {y | f y = 0} = 0
  · obtain ⟨hi, hneg⟩ := hw.resolve_left (not_not.2 hz)
    have hfpos : ∀ᵐ y ∂μ, 0 < f y := by
      rw [ae_iff]
      refine measure_mono_null (fun y hy => ?_) hz
      exact le_antisymm (not_lt.1 hy) (hf0 y)
    filter_upwards [average_tendsto hX (hf.div hg).log hi, all_ae hX hpos, all_ae hX hfpos] with ω h1 h2 h3
    have h4 := (tendsto_natCast_atTop_atTop (R := ℝ)).atTop_mul_neg hneg h1
    have h5 := Real.tendsto_exp_atBot.comp h4
    refine h5.congr fun n => ?_
    rcases Nat.eq_zero_or_pos n with rfl | hn
    · simp
    · have hn' : (n : ℝ) ≠ 0 := by exact_mod_cast hn.ne'
      simp only [Function.comp_apply]
      rw [mul_div_cancel₀ _ hn', Real.exp_sum, ← Finset.prod_div_distrib]
      exact Finset.prod_congr rfl fun i _ => Real.exp_log (div_pos (h3 i) (h2 i))
  · filter_upwards [eventually_hits hX (hf (measurableSet_singleton 0)) hz] with ω hω
    obtain ⟨i, hi⟩ := hω
    refine tendsto_const_nhds.congr' ?_
    filter_upwards [eventually_gt_atTop i] with n hn
    rw [Finset.prod_eq_zero (f := fun i => f (X i ω)) (Finset.mem_range.2 hn) hi, zero_div]

/-- the logarithm of the likelihood per observation tends to its expected value -/
theorem score_tendsto (hX : IID P X μ) {g : Y → ℝ} (hg : Measurable g) (hpos : ∀ᵐ y ∂μ, 0 < g y) (hi : Integrable (fun y => Real.log (g y)) μ) :
    ∀ᵐ ω ∂P, (∀ n : ℕ, 0 < ∏ i ∈ Finset.range n, g (X i ω)) ∧ Tendsto (fun n : ℕ => Real.log (∏ i ∈ Finset.range n, g (X i ω)) / n) atTop (𝓝 (∫ y, Real.log (g y) ∂μ)) := by
  filter_upwards [average_tendsto hX hg.log hi, all_ae hX hpos] with ω h1 h2
  refine ⟨fun n => Finset.prod_pos fun i _ => h2 i, h1.congr fun n => ?_⟩
  rw [Real.log_prod fun i _ => (h2 i).ne']

variable {ι : Type} [Fintype ι]

/-- the posterior probability of the best descriptions tends to one -/
theorem mass_tendsto (hX : IID P X μ) {q : ι → Y → ℝ} (hq : ∀ x, Measurable (q x)) (hq0 : ∀ x y, 0 ≤ q x y) {π : ι → ℝ} (hπ : ∀ x, 0 ≤ π x) (M : Finset ι) {x0 : ι} (hπ0 : 0 < π x0)
    (hpos : ∀ᵐ y ∂μ, 0 < q x0 y) (hw : ∀ x, x ∉ M → π x = 0 ∨ Worse μ (q x) (q x0)) :
    ∀ᵐ ω ∂P, Tendsto (fun n : ℕ => (∑ x ∈ M, π x * ∏ i ∈ Finset.range n, q x (X i ω)) / ∑ x, π x * ∏ i ∈ Finset.range n, q x (X i ω)) atTop (𝓝 1) := by
  classical
  have hr : ∀ x, ∀ᵐ ω ∂P, x ∉ M → Tendsto (fun n : ℕ => (π x * ∏ i ∈ Finset.range n, q x (X i ω)) / (π x0 * ∏ i ∈ Finset.range n, q x0 (X i ω))) atTop (𝓝 0) := by
    intro x
    by_cases hx : x ∈ M
    · exact .of_forall fun ω h => absurd hx h
    · rcases hw x hx with h0 | h
      · exact .of_forall fun ω _ => by simp [h0]
      · filter_upwards [ratio_tendsto hX (hq x) (hq x0) (hq0 x) (hq0 x0) hpos h] with ω hω _
        have := hω.const_mul (π x / π x0)
        rw [mul_zero] at this
        refine this.congr fun n => ?_
        rw [div_mul_div_comm]
  filter_upwards [ae_all_iff.2 hr, all_ae hX hpos] with ω h1 h2
  have hA : ∀ n : ℕ, 0 < π x0 * ∏ i ∈ Finset.range n, q x0 (X i ω) := fun n => mul_pos hπ0 (Finset.prod_pos fun i _ => h2 i)
  have ht : ∀ (x : ι) (n : ℕ), 0 ≤ π x * ∏ i ∈ Finset.range n, q x (X i ω) := fun x n => mul_nonneg (hπ x) (Finset.prod_nonneg fun i _ => hq0 _ _)
  have hout : Tendsto (fun n : ℕ => ∑ x ∈ Mᶜ, (π x * ∏ i ∈ Finset.range n, q x (X i ω)) / (π x0 * ∏ i ∈ Finset.range n, q x0 (X i ω))) atTop (𝓝 0) := by
    have := tendsto_finsetSum (Mᶜ) fun x hx => h1 x (Finset.mem_compl.1 hx)
    simpa using this
  have hle : ∀ n : ℕ, 1 - ∑ x ∈ Mᶜ, (π x * ∏ i ∈ Finset.range n, q x (X i ω)) / (π x0 * ∏ i ∈ Finset.range n, q x0 (X i ω)) ≤
      (∑ x ∈ M, π x * ∏ i ∈ Finset.range n, q x (X i ω)) / ∑ x, π x * ∏ i ∈ Finset.range n, q x (X i ω) := by
    intro n
    have hsum : ∑ x ∈ M, π x * ∏ i ∈ Finset.range n, q x (X i ω) + ∑ x ∈ Mᶜ, π x * ∏ i ∈ Finset.range n, q x (X i ω) = ∑ x, π x * ∏ i ∈ Finset.range n, q x (X i ω) := Finset.sum_add_sum_compl M _
    have hge : π x0 * ∏ i ∈ Finset.range n, q x0 (X i ω) ≤ ∑ x, π x * ∏ i ∈ Finset.range n, q x (X i ω) := Finset.single_le_sum (f := fun x => π x * ∏ i ∈ Finset.range n, q x (X i ω)) (fun x _ => ht x n) (Finset.mem_univ x0)
    have hS := (hA n).trans_le hge
    rw [← Finset.sum_div, le_div_iff₀ hS, sub_mul, one_mul, div_mul_eq_mul_div, sub_le_iff_le_add]
    have hB : 0 ≤ ∑ x ∈ Mᶜ, π x * ∏ i ∈ Finset.range n, q x (X i ω) := Finset.sum_nonneg fun x _ => ht x n
    have : ∑ x ∈ Mᶜ, π x * ∏ i ∈ Finset.range n, q x (X i ω) ≤ (∑ x ∈ Mᶜ, π x * ∏ i ∈ Finset.range n, q x (X i ω)) * (∑ x, π x * ∏ i ∈ Finset.range n, q x (X i ω)) / (π x0 * ∏ i ∈ Finset.range n, q x0 (X i ω)) := by
      rw [le_div_iff₀ (hA n)]
      exact mul_le_mul_of_nonneg_left hge hB
    linarith
  refine tendsto_of_tendsto_of_tendsto_of_le_of_le (by simpa using hout.const_sub 1) tendsto_const_nhds hle fun n => ?_
  refine div_le_one_of_le₀ ?_ (Finset.sum_nonneg fun x _ => ht x n)
  exact Finset.sum_le_univ_sum_of_nonneg fun x => ht x n

/-- the logarithm of the likelihood ratio per observation is eventually below every positive number, if the first description is not better than the second one -/
theorem ratio_le (hX : IID P X μ) {f g : Y → ℝ} (hf : Measurable f) (hg : Measurable g) (hf0 : ∀ y, 0 ≤ f y) (hpos : ∀ᵐ y ∂μ, 0 < g y) (hw : NotBetter μ f g) :
    ∀ᵐ ω ∂P, ∀ ε, 0 < ε → ∀ᶠ n : ℕ in atTop, ∏ i ∈ Finset.range n, f (X i ω) ≤ Real.exp (n * ε) * ∏ i ∈ Finset.range n, g (X i ω) := by
  by_cases hz : μ {y | f y = 0} = 0
  · obtain ⟨hi, hneg⟩ := hw.resolve_left (not_not.2 hz)
    have hfpos : ∀ᵐ y ∂μ, 0 < f y := by
      rw [ae_iff]
      refine measure_mono_null (fun y hy => ?_) hz
      exact le_antisymm (not_lt.1 hy) (hf0 y)
    filter_upwards [average_tendsto hX (hf.div hg).log hi, all_ae hX hpos, all_ae hX hfpos] with ω h1 h2 h3 ε hε
    filter_upwards [h1.eventually (gt_mem_nhds (hneg.trans_lt hε)), eventually_gt_atTop 0] with n h4 hn
    have hn' : (0 : ℝ) < n := by exact_mod_cast hn
    rw [div_lt_iff₀ hn', mul_comm ε] at h4
    have hg' : 0 < ∏ i ∈ Finset.range n, g (X i ω) := Finset.prod_pos fun i _ => h2 i
    rw [← div_le_iff₀ hg', ← Finset.prod_div_distrib]
    have : ∏ i ∈ Finset.range n, f (X i ω) / g (X i ω) = Real.exp (∑ i ∈ Finset.range n, Real.log (f (X i ω) / g (X i ω))) := by
      rw [Real.exp_sum]
      exact Finset.prod_congr rfl fun i _ => (Real.exp_log (div_pos (h3 i) (h2 i))).symm
    rw [this]
    exact Real.exp_le_exp.2 h4.le
  · filter_upwards [eventually_hits hX (hf (measurableSet_singleton 0)) hz, all_ae hX hpos] with ω hω h2 ε _
    obtain ⟨i, hi⟩ := hω
    filter_upwards [eventually_gt_atTop i] with n hn
    rw [Finset.prod_eq_zero (f := fun i => f (X i ω)) (Finset.mem_range.2 hn) hi]
    exact mul_nonneg (Real.exp_pos _).le (Finset.prod_nonneg fun i _ => (h2 i).le)

/-- the logarithm of the evidence per observation tends to the expected logarithm of the best likelihood -/
theorem evidence_rate (hX : IID P X μ) {q : ι → Y → ℝ} (hq : ∀ x, Measurable (q x)) (hq0 : ∀ x y, 0 ≤ q x y) {π : ι → ℝ} (hπ : ∀ x, 0 ≤ π x) {x0 : ι} (hπ0 : 0 < π x0)
    (hpos : ∀ᵐ y ∂μ, 0 < q x0 y) (hi : Integrable (fun y => Real.log (q x0 y)) μ) (hw : ∀ x, π x = 0 ∨ NotBetter μ (q x) (q x0)) :
    ∀ᵐ ω ∂P, (∀ n : ℕ, 0 < ∑ x, π x * ∏ i ∈ Finset.range n, q x (X i ω)) ∧
      Tendsto (fun n : ℕ => Real.log (∑ x, π x * ∏ i ∈ Finset.range n, q x (X i ω)) / n) atTop (𝓝 (∫ y, Real.log (q x0 y) ∂μ)) := by
  have hr : ∀ x, ∀ᵐ ω ∂P, ∀ ε, 0 < ε → ∀ᶠ n : ℕ in atTop, π x * ∏ i ∈ Finset.range n, q x (X i ω) ≤ π x * (Real.exp (n * ε) * ∏ i ∈ Finset.range n, q x0 (X i ω)) := by
    intro x
    rcases hw x with h0 | h
    · exact .of_forall fun ω ε _ => .of_forall fun n => by simp [h0]
    · filter_upwards [ratio_le hX (hq x) (hq x0) (hq0 x) hpos h] with ω hω ε hε
      filter_upwards [hω ε hε] with n hn
      exact mul_le_mul_of_nonneg_left hn (hπ x)
  filter_upwards [ae_all_iff.2 hr, score_tendsto hX (hq x0) hpos hi] with ω h1 h2
  obtain ⟨hA, hs⟩ := h2
  have ht : ∀ (x : ι) (n : ℕ), 0 ≤ π x * ∏ i ∈ Finset.range n, q x (X i ω) := fun x n => mul_nonneg (hπ x) (Finset.prod_nonneg fun i _ => hq0 _ _)
  have hge : ∀ n : ℕ, π x0 * ∏ i ∈ Finset.range n, q x0 (X i ω) ≤ ∑ x, π x * ∏ i ∈ Finset.range n, q x (X i ω) := fun n =>
    Finset.single_le_sum (f := fun x => π x * ∏ i ∈ Finset.range n, q x (X i ω)) (fun x _ => ht x n) (Finset.mem_univ x0)
  have hS : ∀ n : ℕ, 0 < ∑ x, π x * ∏ i ∈ Finset.range n, q x (X i ω) := fun n => (mul_pos hπ0 (hA n)).trans_le (hge n)
  have hW : 0 < ∑ x, π x := hπ0.trans_le (Finset.single_le_sum (fun x _ => hπ x) (Finset.mem_univ x0))
  refine ⟨hS, ?_⟩
  have hdiv : ∀ c : ℝ, Tendsto (fun n : ℕ => c / n) atTop (𝓝 0) := fun c => tendsto_const_div_atTop_nhds_zero_nat c
  have hlim : Tendsto (fun n : ℕ => Real.log (∑ x, π x * ∏ i ∈ Finset.range n, q x (X i ω)) / n - Real.log (∏ i ∈ Finset.range n, q x0 (X i ω)) / n) atTop (𝓝 0) := by
    refine tendsto_order.2 ⟨fun a ha => ?_, fun a ha => ?_⟩
    · filter_upwards [(hdiv (Real.log (π x0))).eventually (lt_mem_nhds ha), eventually_gt_atTop 0] with n h3 hn
      have hn' : (0 : ℝ) < n := by exact_mod_cast hn
      refine h3.trans_le ?_
      rw [← sub_div]
      refine div_le_div_of_nonneg_right ?_ hn'.le
      rw [le_sub_iff_add_le, ← Real.log_mul hπ0.ne' (hA n).ne']
      exact Real.log_le_log (mul_pos hπ0 (hA n)) (hge n)
    · have hall : ∀ᶠ n : ℕ in atTop, ∀ x, π x * ∏ i ∈ Finset.range n, q x (X i ω) ≤ π x * (Real.exp (n * (a / 2)) * ∏ i ∈ Finset.range n, q x0 (X i ω)) :=
        eventually_all.2 fun x => h1 x (a / 2) (half_pos ha)
      filter_upwards [(hdiv (Real.log (∑ x, π x))).eventually (gt_mem_nhds (half_pos ha)), hall, eventually_gt_atTop 0] with n h3 h4 hn
      have hn' : (0 : ℝ) < n := by exact_mod_cast hn
      have h5 : ∑ x, π x * ∏ i ∈ Finset.range n, q x (X i ω) ≤ (∑ x, π x) * (Real.exp (n * (a / 2)) * ∏ i ∈ Finset.range n, q x0 (X i ω)) := by
        rw [Finset.sum_mul]
        exact Finset.sum_le_sum fun x _ => h4 x
      have h6 := Real.log_le_log (hS n) h5
      rw [Real.log_mul hW.ne' (mul_pos (Real.exp_pos _) (hA n)).ne', Real.log_mul (Real.exp_pos _).ne' (hA n).ne', Real.log_exp] at h6
      rw [← sub_div, div_lt_iff₀ hn']
      rw [div_lt_iff₀ hn'] at h3
      nlinarith
  have := hlim.add hs
  rw [zero_add] at this
  refine this.congr fun n => ?_
  ring

/-- of two evidences with different rates the one with the larger rate wins -/
theorem rate_compare {a b : ℕ → ℝ} (ha : ∀ n, 0 < a n) (hb : ∀ n, 0 < b n) {s t : ℝ} (hst : s < t) (h1 : Tendsto (fun n : ℕ => Real.log (a n) / n) atTop (𝓝 s))
    (h2 : Tendsto (fun n : ℕ => Real.log (b n) / n) atTop (𝓝 t)) : Tendsto (fun n => a n / b n) atTop (𝓝 0) := by
  have h3 := (tendsto_natCast_atTop_atTop (R := ℝ)).atTop_mul_neg (sub_neg.2 hst) (h1.sub h2)
  refine (Real.tendsto_exp_atBot.comp h3).congr' ?_
  filter_upwards [eventually_gt_atTop 0] with n hn
  have hn' : (n : ℝ) ≠ 0 := by exact_mod_cast hn.ne'
  simp only [Function.comp_apply]
  rw [← sub_div, mul_div_cancel₀ _ hn', Real.exp_sub, Real.exp_log (ha n), Real.exp_log (hb n)]

end BL
