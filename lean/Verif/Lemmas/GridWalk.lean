import Verif.Lemmas.Riemann
import Verif.Lemmas.Mirror
import Verif.Model.RealExt
import Mathlib.MeasureTheory.Integral.DominatedConvergence
import Mathlib.MeasureTheory.Integral.IntervalIntegral.Basic

/-! # The Gaussian filter of scipy on finer and finer grids -/

set_option linter.unusedSectionVars false

namespace BL
open Spec MeasureTheory Filter Topology Set

theorem sum_Icc_int (R : ℕ) (g : ℤ → ℝ) : ∑ k ∈ Finset.Icc (-(R : ℤ)) R, g k = ∑ i ∈ Finset.range (2 * R + 1), g (-(R : ℤ) + i) := by
  refine (Finset.sum_bij (fun i _ => -(R : ℤ) + (i : ℕ)) ?_ ?_ ?_ ?_).symm
  · intro i hi
    have := Finset.mem_range.1 hi
    rw [Finset.mem_Icc]; constructor <;> omega
  · intro i _ j _ h
    omega
  · intro k hk
    have := Finset.mem_Icc.1 hk
    refine ⟨(k + R).toNat, Finset.mem_range.2 (by omega), by omega⟩
  · intro i _; rfl

/-- one-dimensional sums and integrals -/
theorem riemann_line {P : ℝ → ℝ} (hP : Continuous P) {h η : ℝ} (hh : 0 < h) (m : ℝ) (n : ℕ)
    (hosc : ∀ i < n, ∀ u ∈ Icc (m + i * h) (m + (i + 1) * h), |P (m + i * h) - P u| ≤ η) :
    |h * ∑ i ∈ Finset.range n, P (m + i * h) - ∫ u in m..(m + n * h), P u| ≤ η * (n * h) := by
  have hs := intervalIntegral.sum_integral_adjacent_intervals (f := P) (μ := volume) (a := fun i : ℕ => m + i * h) (n := n) fun k _ => hP.intervalIntegrable _ _
  simp only [Nat.cast_zero, zero_mul, add_zero] at hs
  rw [← hs, Finset.mul_sum, ← Finset.sum_sub_distrib]
  refine (Finset.abs_sum_le_sum_abs _ _).trans ?_
  refine (Finset.sum_le_sum (g := fun _ => η * h) fun i hi => ?_).trans (le_of_eq (by rw [Finset.sum_const, Finset.card_range, nsmul_eq_mul]; ring))
  have hi' := Finset.mem_range.1 hi
  have hlen : m + ((i + 1 : ℕ) : ℝ) * h - (m + (i : ℕ) * h) = h := by push_cast; ring
  have hc : h * P (m + i * h) = ∫ _u in (m + (i : ℕ) * h)..(m + ((i + 1 : ℕ) : ℝ) * h), P (m + i * h) := by
    rw [intervalIntegral.integral_const, hlen, smul_eq_mul]
  rw [hc, ← intervalIntegral.integral_sub (by simp) (hP.intervalIntegrable _ _)]
  have := intervalIntegral.norm_integral_le_of_norm_le_const (a := m + (i : ℕ) * h) (b := m + ((i + 1 : ℕ) : ℝ) * h) (f := fun u => P (m + i * h) - P u) (C := η) ?_
  · rw [hlen, abs_of_pos hh] at this
    exact this
  · intro u hu
    rw [uIoc_of_le (by linarith)] at hu
    rw [Real.norm_eq_abs]
    exact hosc i hi' u ⟨hu.1.le, by have := hu.2; push_cast at this; exact this⟩

theorem radius_bounds {σ h : ℝ} (hσ : 0 < σ) (hh : 0 < h) : (scipyRadius (σ / h) : ℝ) * h ≤ 4 * σ + h / 2 ∧ 4 * σ - h / 2 < (scipyRadius (σ / h) : ℝ) * h := by
  have h0 : 0 ≤ 4 * (σ / h) + 1 / 2 := by positivity
  have h1 := Nat.floor_le h0
  have h2 := Nat.lt_floor_add_one (4 * (σ / h) + 1 / 2)
  have e : (4 * (σ / h) + 1 / 2) * h = 4 * σ + h / 2 := by field_simp
  unfold scipyRadius
  constructor
  · rw [← e]; exact mul_le_mul_of_nonneg_right h1 hh.le
  · have := mul_lt_mul_of_pos_right h2 hh
    rw [e] at this
    linarith

/-- The sums of scipy's filter converge to integrals, uniformly for parameters from a compact set. -/
theorem filter_sum {X : Type} [PseudoMetricSpace X] {Φ : X × ℝ → ℝ} (hΦ : Continuous Φ) {S : Set X} (hS : IsCompact S) {σ : ℝ} (hσ : 0 < σ) {ε : ℝ} (hε : 0 < ε) :
    ∃ δ > 0, ∀ h, 0 < h → h < δ → ∀ y ∈ S, |h * ∑ k ∈ Finset.Icc (-(scipyRadius (σ / h) : ℤ)) (scipyRadius (σ / h)), Φ (y, k * h) - ∫ u in (-(4 * σ))..(4 * σ), Φ (y, u)| ≤ ε := by
  have hC : IsCompact (S ×ˢ Icc (-(4 * σ) - 2) (4 * σ + 2)) := hS.prod isCompact_Icc
  obtain ⟨B, hB⟩ := hC.exists_bound_of_continuousOn hΦ.continuousOn
  have hB' : ∀ y ∈ S, ∀ u ∈ Icc (-(4 * σ) - 2) (4 * σ + 2), |Φ (y, u)| ≤ |B| + 1 := fun y hy u hu => by
    have := hB (y, u) ⟨hy, hu⟩
    rw [Real.norm_eq_abs] at this
    linarith [le_abs_self B]
  obtain ⟨C, hCd⟩ : ∃ C, C = |B| + 1 := ⟨_, rfl⟩
  have hCpos : 0 < C := by rw [hCd]; positivity
  rw [← hCd] at hB'
  have huc := hC.uniformContinuousOn_of_continuous hΦ.continuousOn
  rw [Metric.uniformContinuousOn_iff] at huc
  obtain ⟨δ₁, hδ₁, hu⟩ := huc (ε / (2 * (8 * σ + 2))) (by positivity)
  refine ⟨min (min 1 δ₁) (ε / (4 * C)), by positivity, fun h hh hlt y hy => ?_⟩
  have l1 : h < 1 := hlt.trans_le ((min_le_left _ _).trans (min_le_left _ _))
  have l2 : h < δ₁ := hlt.trans_le ((min_le_left _ _).trans (min_le_right _ _))
  have l3 : h < ε / (4 * C) := hlt.trans_le (min_le_right _ _)
  obtain ⟨r1, r2⟩ := radius_bounds hσ hh
  generalize scipyRadius (σ / h) = R at r1 r2 ⊢
  have hPc : Continuous fun u => Φ (y, u) := hΦ.comp (by fun_prop)
  rw [sum_Icc_int]
  have hm : ∀ i : ℕ, ((-(R : ℤ) + (i : ℤ) : ℤ) : ℝ) * h = -(R * h) + i * h := fun i => by push_cast; ring
  simp only [hm]
  have hend : -(R * h) + ((2 * R + 1 : ℕ) : ℝ) * h = R * h + h := by push_cast; ring
  have main := riemann_line (P := fun u => Φ (y, u)) hPc (η := ε / (2 * (8 * σ + 2))) hh (-(R * h)) (2 * R + 1) ?_
  · rw [hend] at main
    have hI : ∫ u in (-(R * h))..(R * h + h), Φ (y, u) = (∫ u in (-(R * h))..(-(4 * σ)), Φ (y, u)) + (∫ u in (-(4 * σ))..(4 * σ), Φ (y, u)) + ∫ u in (4 * σ)..(R * h + h), Φ (y, u) := by
      rw [intervalIntegral.integral_add_adjacent_intervals (hPc.intervalIntegrable _ _) (hPc.intervalIntegrable _ _),
        intervalIntegral.integral_add_adjacent_intervals (hPc.intervalIntegrable _ _) (hPc.intervalIntegrable _ _)]
    have b1 := intervalIntegral.norm_integral_le_of_norm_le_const (a := -(R * h)) (b := -(4 * σ)) (f := fun u => Φ (y, u)) (C := C) ?_
    · have b2 := intervalIntegral.norm_integral_le_of_norm_le_const (a := 4 * σ) (b := R * h + h) (f := fun u => Φ (y, u)) (C := C) ?_
      · rw [Real.norm_eq_abs] at b1 b2
        have c1 : C * |-(4 * σ) - -(R * h)| ≤ C * (h / 2) := mul_le_mul_of_nonneg_left (abs_le.2 ⟨by linarith, by linarith⟩) hCpos.le
        have c2 : C * |R * h + h - 4 * σ| ≤ C * (3 / 2 * h) := mul_le_mul_of_nonneg_left (abs_le.2 ⟨by linarith, by linarith⟩) hCpos.le
        have c3 : C * h ≤ ε / 4 := by
          have := mul_lt_mul_of_pos_left l3 hCpos
          rw [show C * (ε / (4 * C)) = ε / 4 by field_simp] at this
          exact this.le
        have c4 : ε / (2 * (8 * σ + 2)) * (((2 * R + 1 : ℕ) : ℝ) * h) ≤ ε / 2 := by
          have : ((2 * R + 1 : ℕ) : ℝ) * h ≤ 8 * σ + 2 := by push_cast; nlinarith
          calc _ ≤ ε / (2 * (8 * σ + 2)) * (8 * σ + 2) := mul_le_mul_of_nonneg_left this (by positivity)
            _ = ε / 2 := by field_simp
        rw [hI] at main
        have d1 := abs_le.1 (b1.trans c1)
        have d2 := abs_le.1 (b2.trans c2)
        have d3 := abs_le.1 (main.trans c4)
        rw [abs_le]
        constructor <;> linarith [d1.1, d1.2, d2.1, d2.2, d3.1, d3.2]
      · intro u hu
        rw [Real.norm_eq_abs]
        rcases le_total (4 * σ) (R * h + h) with hle | hle
        · rw [uIoc_of_le hle] at hu
          exact hB' y hy u ⟨by linarith [hu.1], by linarith [hu.2]⟩
        · rw [uIoc_of_ge hle] at hu
          exact hB' y hy u ⟨by linarith [hu.1], by linarith [hu.2]⟩
    · intro u hu
      rw [Real.norm_eq_abs]
      rcases le_total (-(R * h)) (-(4 * σ)) with hle | hle
      · rw [uIoc_of_le hle] at hu
        exact hB' y hy u ⟨by linarith [hu.1], by linarith [hu.2]⟩
      · rw [uIoc_of_ge hle] at hu
        exact hB' y hy u ⟨by linarith [hu.1], by linarith [hu.2]⟩
  · intro i hi u hu'
    have hiR : (i : ℝ) ≤ 2 * R := by exact_mod_cast Nat.lt_succ_iff.1 hi
    have hi0 : (0 : ℝ) ≤ i * h := by positivity
    have hi1 : (i : ℝ) * h ≤ 2 * (R * h) := by nlinarith
    have e1 : (i + 1 : ℝ) * h = i * h + h := by ring
    obtain ⟨g1, g2⟩ := hu'
    rw [e1] at g2
    have := hu (y, -(R * h) + i * h) ⟨hy, ⟨by linarith, by linarith⟩⟩ (y, u) ⟨hy, ⟨by linarith, by linarith⟩⟩ (by
      rw [Prod.dist_eq, dist_self, Real.dist_eq]
      refine max_lt hδ₁ (lt_of_le_of_lt (abs_le.2 ⟨?_, ?_⟩) l2) <;> linarith)
    rw [Real.dist_eq] at this
    exact this.le

variable {d : ℕ} {a b : Fin d → ℝ} {N : ℕ → Fin d → ℕ} {c h : ℕ → Fin d → ℝ}

/-- the unnormalised integrand of `gaussWalk`, extended to all arguments -/
noncomputable def walkIntegrand (a b : Fin d → ℝ) (σ : ℝ) (k : Fin d) (ρ : Dens d) (z : (Fin d → ℝ) × ℝ) : ℝ :=
  Real.exp (-(z.2 ^ 2) / (2 * σ ^ 2)) * ρ (clamp a b (Function.update z.1 k (mirror (a k) (b k) (z.1 k + z.2))))

theorem mirror_continuous {lo hi : ℝ} (h : lo < hi) : Continuous (mirror lo hi) := by
  have : LipschitzWith 1 (mirror lo hi) := LipschitzWith.of_dist_le_mul fun y y' => by
    rw [Real.dist_eq, Real.dist_eq, NNReal.coe_one, one_mul]
    exact mirror_lip h y y'
  exact this.continuous

theorem walkIntegrand_continuous (hab : ∀ k, a k < b k) (σ : ℝ) (k : Fin d) {ρ : Dens d} (hρ : ContinuousOn ρ (Icc a b)) : Continuous (walkIntegrand a b σ k ρ) := by
  unfold walkIntegrand
  have h1 := clamp_comp_continuous (fun k => (hab k).le) hρ
  have h2 := mirror_continuous (hab k)
  refine Continuous.mul (by fun_prop) (h1.comp ?_)
  refine continuous_pi fun j => ?_
  by_cases hj : j = k
  · subst hj
    simp only [Function.update_self]
    exact h2.comp (by fun_prop)
  · simp only [Function.update_of_ne hj]
    fun_prop

theorem update_mem {y : Fin d → ℝ} (hy : y ∈ Icc a b) (k : Fin d) {v : ℝ} (hv : v ∈ Icc (a k) (b k)) : Function.update y k v ∈ Icc a b := by
  constructor <;> intro j <;> by_cases hj : j = k
  · subst hj; simpa using hv.1
  · simpa [hj] using hy.1 j
  · subst hj; simpa using hv.2
  · simpa [hj] using hy.2 j

theorem walkIntegrand_eq (hab : ∀ k, a k < b k) (σ : ℝ) (k : Fin d) (ρ : Dens d) {y : Fin d → ℝ} (hy : y ∈ Icc a b) (u : ℝ) :
    walkIntegrand a b σ k ρ (y, u) = Real.exp (-(u ^ 2) / (2 * σ ^ 2)) * ρ (Function.update y k (mirror (a k) (b k) (y k + u))) := by
  simp only [walkIntegrand]
  rw [clamp_eq (update_mem hy k (mirror_mem (hab k) _))]

noncomputable def walkNorm (σ : ℝ) : ℝ := ∫ u in (-(4 * σ))..(4 * σ), Real.exp (-(u ^ 2) / (2 * σ ^ 2))

theorem walkNorm_pos {σ : ℝ} (hσ : 0 < σ) : 0 < walkNorm σ := by
  unfold walkNorm
  exact intervalIntegral.intervalIntegral_pos_of_pos (Continuous.intervalIntegrable (by fun_prop) _ _) (fun _ => Real.exp_pos _) (by linarith)

theorem gaussWalk_eq (hab : ∀ k, a k < b k) (σ : ℝ) (k : Fin d) (ρ : Dens d) {y : Fin d → ℝ} (hy : y ∈ Icc a b) :
    gaussWalk a b σ k ρ y = (∫ u in (-(4 * σ))..(4 * σ), walkIntegrand a b σ k ρ (y, u)) / walkNorm σ := by
  unfold gaussWalk walkNorm
  simp only [walkIntegrand_eq hab σ k ρ hy]

theorem gaussWalk_continuousOn (hab : ∀ k, a k < b k) (σ : ℝ) (k : Fin d) {ρ : Dens d} (hρ : ContinuousOn ρ (Icc a b)) : ContinuousOn (gaussWalk a b σ k ρ) (Icc a b) := by
  have h1 : Continuous fun y => ∫ u in (-(4 * σ))..(4 * σ), walkIntegrand a b σ k ρ (y, u) :=
    intervalIntegral.continuous_parametric_intervalIntegral_of_continuous' (f := fun y u => walkIntegrand a b σ k ρ (y, u)) (walkIntegrand_continuous hab σ k hρ) _ _
  exact ((h1.div_const (walkNorm σ)).continuousOn).congr fun y hy => gaussWalk_eq hab σ k ρ hy


/-- weights and sums of scipy's filter in terms of the spacing -/
theorem filterAxis_spacing {gs : Fin d → ℕ} {σ η : ℝ} (hσ : 0 < σ) (hη : 0 < η) (k : Fin d) (f : Idx gs → ℝ) (x : Idx gs) :
    filterAxis (scipyRadius (σ / η)) (scipyWeight (σ / η)) k f x =
      (η * ∑ j ∈ Finset.Icc (-(scipyRadius (σ / η) : ℤ)) (scipyRadius (σ / η)), Real.exp (-((j * η) ^ 2) / (2 * σ ^ 2)) * f (Function.update x k (reflIdx (gs k) (x k) j))) /
      (η * ∑ j ∈ Finset.Icc (-(scipyRadius (σ / η) : ℤ)) (scipyRadius (σ / η)), Real.exp (-((j * η) ^ 2) / (2 * σ ^ 2))) := by
  have e : ∀ j : ℤ, -(1 / 2) / (σ / η) ^ 2 * (j : ℝ) ^ 2 = -((j * η) ^ 2) / (2 * σ ^ 2) := fun j => by field_simp
  rw [mul_div_mul_left _ _ hη.ne']
  simp only [filterAxis, scipyWeight, e, Int.cast_neg, neg_mul, neg_sq]
  rw [Finset.sum_div]
  exact Finset.sum_congr rfl fun j _ => by ring

theorem pt_update (n : ℕ) (x : Idx (N n)) (k : Fin d) (hh : 0 < h n k) (j : ℤ) :
    pt c h n (Function.update x k (reflIdx (N n k) (x k) j)) = Function.update (pt c h n x) k (mirror (c n k - h n k / 2) (c n k + (N n k - 1 / 2) * h n k) (pt c h n x k + j * h n k)) := by
  funext i
  by_cases hi : i = k
  · subst hi
    simp only [pt, Function.update_self]
    exact reflIdx_mirror (N n i) (x i) j (c n i) (h n i) hh
  · simp only [pt, Function.update_of_ne hi]

/-- reflection at the ends of the grids converges to reflection at the ends of the box -/
theorem Mesh.mirror_tendsto (M : Mesh a b N c h) (k : Fin d) (B : ℝ) {δ : ℝ} (hδ : 0 < δ) :
    ∀ᶠ n in atTop, 0 < N n k → ∀ y, |y| ≤ B → |mirror (c n k - h n k / 2) (c n k + (N n k - 1 / 2) * h n k) y - mirror (a k) (b k) y| ≤ δ := by
  obtain ⟨w, hw⟩ : ∃ w, w = b k - a k := ⟨_, rfl⟩
  have hwp : 0 < w := by rw [hw]; linarith [M.lt k]
  have t1 : Tendsto (fun n => c n k - h n k / 2) atTop (𝓝 (a k)) := by
    simpa using (M.lo k).sub ((M.fine k).div_const 2)
  have t2 : Tendsto (fun n => c n k + (N n k - 1 / 2) * h n k) atTop (𝓝 (b k)) := by
    have := (M.hi k).sub ((M.fine k).div_const 2)
    simp only [zero_div, sub_zero] at this
    refine this.congr fun n => by ring
  have t3 : Tendsto (fun n => (c n k + (N n k - 1 / 2) * h n k) - (c n k - h n k / 2)) atTop (𝓝 w) := by rw [hw]; exact t2.sub t1
  have e1 : Tendsto (fun n => 2 * |(c n k - h n k / 2) - a k| + 2 * |((c n k + (N n k - 1 / 2) * h n k) - (c n k - h n k / 2)) - w| * ((|B| + |a k|) / (2 * w) + 1)) atTop (𝓝 0) := by
    have := ((t1.sub_const (a k)).abs.const_mul 2).add (((t3.sub_const w).abs.const_mul 2).mul_const ((|B| + |a k|) / (2 * w) + 1))
    simpa using this
  have e2 : Tendsto (fun n => 2 * |a k - (c n k - h n k / 2)| + 2 * |w - ((c n k + (N n k - 1 / 2) * h n k) - (c n k - h n k / 2))| *
      ((|B| + |c n k - h n k / 2|) / (2 * ((c n k + (N n k - 1 / 2) * h n k) - (c n k - h n k / 2))) + 1)) atTop (𝓝 0) := by
    have q1 : Tendsto (fun n => |B| + |c n k - h n k / 2|) atTop (𝓝 (|B| + |a k|)) := t1.abs.const_add _
    have q2 := q1.div (t3.const_mul 2) (by positivity)
    have := ((t1.const_sub (a k)).abs.const_mul 2).add (((t3.const_sub w).abs.const_mul 2).mul (q2.add_const 1))
    simpa using this
  filter_upwards [e1.eventually (gt_mem_nhds hδ), e2.eventually (gt_mem_nhds hδ)] with n g1 g2 hN y hy
  have hNR : (0 : ℝ) < N n k := by exact_mod_cast hN
  have hlt : c n k - h n k / 2 < c n k + (N n k - 1 / 2) * h n k := by
    have := mul_pos hNR (M.pos n k)
    nlinarith
  have hyB : |y| ≤ |B| := hy.trans (le_abs_self B)
  have m1 := mirror_close hlt (M.lt k) y
  have m2 := mirror_close (M.lt k) hlt y
  rw [← hw] at m1 m2
  have k1 : |y - a k| / (2 * w) ≤ (|B| + |a k|) / (2 * w) := div_le_div_of_nonneg_right ((abs_sub _ _).trans (by linarith)) (by positivity)
  have k2 : |y - (c n k - h n k / 2)| / (2 * ((c n k + (N n k - 1 / 2) * h n k) - (c n k - h n k / 2))) ≤ (|B| + |c n k - h n k / 2|) / (2 * ((c n k + (N n k - 1 / 2) * h n k) - (c n k - h n k / 2))) :=
    div_le_div_of_nonneg_right ((abs_sub _ _).trans (by linarith)) (by linarith)
  have j1 := mul_le_mul_of_nonneg_left (add_le_add_left k1 1) (show 0 ≤ 2 * |((c n k + (N n k - 1 / 2) * h n k) - (c n k - h n k / 2)) - w| by positivity)
  have j2 := mul_le_mul_of_nonneg_left (add_le_add_left k2 1) (show 0 ≤ 2 * |w - ((c n k + (N n k - 1 / 2) * h n k) - (c n k - h n k / 2))| by positivity)
  rw [abs_le]
  constructor <;> linarith

/-- scipy's Gaussian filter on finer and finer grids converges to the Gaussian walk on the box. -/
theorem Mesh.filter_tendsto (M : Mesh a b N c h) {f : (n : ℕ) → Idx (N n) → ℝ} {ρ : Dens d} (hρ : ContinuousOn ρ (Icc a b)) (hf : UConv c h f ρ) (k : Fin d) {σ : ℝ} (hσ : 0 < σ) :
    UConv c h (fun n => filterAxis (scipyRadius (σ / h n k)) (scipyWeight (σ / h n k)) k (f n)) (gaussWalk a b σ k ρ) := by
  have hab : ∀ k, a k ≤ b k := fun k => (M.lt k).le
  intro ε hε
  have hZ := walkNorm_pos hσ
  -- a bound for the integrand
  obtain ⟨B, hB⟩ := (isCompact_Icc (a := a) (b := b)).exists_bound_of_continuousOn hρ
  obtain ⟨C, hCd⟩ : ∃ C, C = |B| + 1 := ⟨_, rfl⟩
  have hCpos : 0 < C := by rw [hCd]; positivity
  have hC : ∀ y ∈ Icc a b, |ρ y| ≤ C := fun y hy => by
    have := hB y hy
    rw [Real.norm_eq_abs] at this
    linarith [le_abs_self B]
  obtain ⟨δ₁, hδ₁, s1⟩ := filter_sum (walkIntegrand_continuous M.lt σ k hρ) (isCompact_Icc (a := a) (b := b)) hσ (ε := ε / 4 * walkNorm σ) (by positivity)
  obtain ⟨δ₂, hδ₂, s2⟩ := filter_sum (X := Unit) (Φ := fun z => Real.exp (-(z.2 ^ 2) / (2 * σ ^ 2))) (by fun_prop) isCompact_univ hσ (ε := ε / (4 * C) * walkNorm σ) (by positivity)
  obtain ⟨δ₃, hδ₃, s3⟩ := clamp_uniform hab hρ (ε := ε / 4) (by positivity)
  filter_upwards [(M.fine k).eventually (gt_mem_nhds (lt_min (lt_min hδ₁ hδ₂) one_pos)), M.mirror_tendsto k (|a k| + |b k| + 4 * σ + 1) hδ₃, hf (ε / 4) (by positivity)] with n g1 g2 g3 x
  have hη := M.pos n k
  have l1 : h n k < δ₁ := g1.trans_le ((min_le_left _ _).trans (min_le_left _ _))
  have l2 : h n k < δ₂ := g1.trans_le ((min_le_left _ _).trans (min_le_right _ _))
  have l3 : h n k < 1 := g1.trans_le (min_le_right _ _)
  have hy := M.pt_mem n x
  have S1 := s1 (h n k) hη l1 (pt c h n x) hy
  have S2 := s2 (h n k) hη l2 () trivial
  rw [filterAxis_spacing hσ hη, gaussWalk_eq M.lt σ k ρ hy]
  obtain ⟨r1, _⟩ := radius_bounds hσ hη
  obtain ⟨η, hηd⟩ : ∃ η, η = h n k := ⟨_, rfl⟩
  obtain ⟨R, hR⟩ : ∃ R, R = scipyRadius (σ / η) := ⟨_, rfl⟩
  obtain ⟨y, hyd⟩ : ∃ y, y = pt c h n x := ⟨_, rfl⟩
  rw [← hηd] at r1 hη l3 S1 S2 ⊢
  rw [← hR] at r1 S1 S2 ⊢
  rw [← hyd] at hy S1 ⊢
  obtain ⟨e, he⟩ : ∃ e : ℤ → ℝ, e = fun j : ℤ => Real.exp (-(((j : ℝ) * η) ^ 2) / (2 * σ ^ 2)) := ⟨_, rfl⟩
  have hej : ∀ j : ℤ, Real.exp (-((j * η) ^ 2) / (2 * σ ^ 2)) = e j := fun j => by rw [he]
  have hepos : ∀ j, 0 < e j := fun j => by rw [he]; exact Real.exp_pos _
  simp only [hej] at S2 ⊢
  have hwI : ∀ j : ℤ, walkIntegrand a b σ k ρ (y, j * η) = e j * ρ (Function.update y k (mirror (a k) (b k) (y k + j * η))) := fun j => by
    rw [walkIntegrand_eq M.lt σ k ρ hy, hej]
  simp only [hwI] at S1
  obtain ⟨I, hI⟩ : ∃ I, I = ∫ u in (-(4 * σ))..(4 * σ), walkIntegrand a b σ k ρ (y, u) := ⟨_, rfl⟩
  rw [← hI] at S1 ⊢
  change |η * ∑ j ∈ Finset.Icc (-(R : ℤ)) R, e j - walkNorm σ| ≤ _ at S2
  obtain ⟨Z, hZd⟩ : ∃ Z, Z = η * ∑ j ∈ Finset.Icc (-(R : ℤ)) R, e j := ⟨_, rfl⟩
  rw [← hZd] at S2 ⊢
  have hZpos : 0 < Z := by
    rw [hZd]
    exact mul_pos hη (Finset.sum_pos (fun j _ => hepos j) ⟨0, by rw [Finset.mem_Icc]; constructor <;> simp⟩)
  obtain ⟨A, hA⟩ : ∃ A, A = η * ∑ j ∈ Finset.Icc (-(R : ℤ)) R, e j * f n (Function.update x k (reflIdx (N n k) (x k) j)) := ⟨_, rfl⟩
  obtain ⟨A', hA'⟩ : ∃ A', A' = η * ∑ j ∈ Finset.Icc (-(R : ℤ)) R, e j * ρ (Function.update y k (mirror (a k) (b k) (y k + j * η))) := ⟨_, rfl⟩
  rw [← hA]
  rw [← hA'] at S1
  -- replace the values on the grid by those of the limit
  have hAA : |A - A'| ≤ ε / 2 * Z := by
    rw [hA, hA', hZd, ← mul_sub, ← Finset.sum_sub_distrib, abs_mul, abs_of_pos hη, mul_left_comm]
    refine mul_le_mul_of_nonneg_left ?_ hη.le
    rw [Finset.mul_sum]
    refine (Finset.abs_sum_le_sum_abs _ _).trans (Finset.sum_le_sum fun j hj => ?_)
    rw [← mul_sub, abs_mul, abs_of_pos (hepos j), mul_comm (ε / 2)]
    refine mul_le_mul_of_nonneg_left ?_ (hepos j).le
    have q1 := g3 (Function.update x k (reflIdx (N n k) (x k) j))
    have hpm := M.pt_mem n (Function.update x k (reflIdx (N n k) (x k) j))
    rw [pt_update n x k (M.pos n k) j, ← hyd, ← hηd] at q1 hpm
    have hjR : |(j : ℝ)| * η ≤ 4 * σ + 1 := by
      have : |j| ≤ (R : ℤ) := abs_le.2 (Finset.mem_Icc.1 hj)
      have : |(j : ℝ)| ≤ R := by exact_mod_cast this
      nlinarith
    have hyk : |y k| ≤ |a k| + |b k| := by
      have := hy.1 k; have := hy.2 k
      rw [abs_le]; constructor <;> linarith [neg_abs_le (a k), le_abs_self (b k), abs_nonneg (a k), abs_nonneg (b k)]
    have q2 := g2 (Fin.pos (x k)) (y k + j * η) (by
      refine (abs_add_le _ _).trans ?_
      rw [abs_mul, abs_of_pos hη]
      linarith)
    rw [← hηd] at q2
    have q3 := s3 (Function.update y k (mirror (c n k - η / 2) (c n k + (N n k - 1 / 2) * η) (y k + j * η))) (Function.update y k (mirror (a k) (b k) (y k + j * η))) (by
      intro i
      by_cases hi : i = k
      · subst hi
        simp only [Function.update_self]
        exact q2
      · simp only [Function.update_of_ne hi, sub_self, abs_zero]
        exact hδ₃.le)
    rw [clamp_eq hpm, clamp_eq (update_mem hy k (mirror_mem (M.lt k) _))] at q3
    exact (abs_sub_le _ (ρ (Function.update y k (mirror (c n k - η / 2) (c n k + (N n k - 1 / 2) * η) (y k + j * η)))) _).trans (by linarith)
  have hAC : |A'| ≤ C * Z := by
    rw [hA', hZd, abs_mul, abs_of_pos hη, mul_left_comm]
    refine mul_le_mul_of_nonneg_left ?_ hη.le
    rw [Finset.mul_sum]
    refine (Finset.abs_sum_le_sum_abs _ _).trans (Finset.sum_le_sum fun j hj => ?_)
    rw [abs_mul, abs_of_pos (hepos j), mul_comm]
    exact mul_le_mul_of_nonneg_right (hC _ (update_mem hy k (mirror_mem (M.lt k) _))) (hepos j).le
  have p1 : |A / Z - A' / Z| ≤ ε / 2 := by
    rw [← sub_div, abs_div, abs_of_pos hZpos, div_le_iff₀ hZpos]
    exact hAA
  have p2 : |A' / Z - A' / walkNorm σ| ≤ ε / 4 := by
    have : A' / Z - A' / walkNorm σ = A' / Z * (walkNorm σ - Z) / walkNorm σ := by field_simp
    rw [this, abs_div, abs_mul, abs_div, abs_of_pos hZpos, abs_of_pos hZ, div_le_iff₀ hZ]
    rw [abs_sub_comm] at S2
    have : |A'| / Z ≤ C := (div_le_iff₀ hZpos).2 hAC
    calc _ ≤ C * (ε / (4 * C) * walkNorm σ) := mul_le_mul this S2 (abs_nonneg _) hCpos.le
      _ = ε / 4 * walkNorm σ := by field_simp
  have p3 : |A' / walkNorm σ - I / walkNorm σ| ≤ ε / 4 := by
    rw [← sub_div, abs_div, abs_of_pos hZ, div_le_iff₀ hZ]
    exact S1
  have := abs_sub_le (A / Z) (A' / Z) (I / walkNorm σ)
  have := abs_sub_le (A' / Z) (A' / walkNorm σ) (I / walkNorm σ)
  linarith

end BL
