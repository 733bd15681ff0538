import Verif.Model.Basic
import Mathlib.MeasureTheory.Measure.Lebesgue.Basic
import Mathlib.MeasureTheory.Integral.Bochner.Set
import Mathlib.MeasureTheory.Integral.DominatedConvergence
import Mathlib.MeasureTheory.Function.LocallyIntegrable
import Mathlib.MeasureTheory.Constructions.BorelSpace.Order
import Mathlib.Topology.UniformSpace.HeineCantor
import Mathlib.Topology.MetricSpace.Pseudo.Pi
import Mathlib.Tactic.Positivity
import Mathlib.Tactic.FieldSimp
import Mathlib.Tactic.Ring
import Mathlib.Tactic.Linarith

/-! # Sums over grids and integrals -/

set_option linter.unusedSectionVars false

namespace BL
open MeasureTheory Set Filter Topology
variable {d : ℕ}

/-- the cell at a grid point -/
def cellAt (c h : Fin d → ℝ) {N : Fin d → ℕ} (x : Idx N) : Set (Fin d → ℝ) := univ.pi fun k => Ico (c k + (x k : ℕ) * h k) (c k + ((x k : ℕ) + 1) * h k)

/-- all cells -/
def boxOf (c h : Fin d → ℝ) (N : Fin d → ℕ) : Set (Fin d → ℝ) := univ.pi fun k => Ico (c k) (c k + N k * h k)

theorem iUnion_cell (c h : Fin d → ℝ) (N : Fin d → ℕ) (hh : ∀ k, 0 < h k) : (⋃ x : Idx N, cellAt c h x) = boxOf c h N := by
  ext y
  simp only [mem_iUnion, cellAt, boxOf, Set.mem_pi, mem_univ, true_implies, mem_Ico]
  constructor
  · rintro ⟨x, hx⟩ k
    obtain ⟨h1, h2⟩ := hx k
    have e1 : (0 : ℝ) ≤ (x k : ℕ) * h k := mul_nonneg (Nat.cast_nonneg _) (hh k).le
    have e2 : (((x k : ℕ) : ℝ) + 1) * h k ≤ N k * h k := by
      refine mul_le_mul_of_nonneg_right ?_ (hh k).le
      exact_mod_cast (x k).isLt
    exact ⟨by linarith, by linarith⟩
  · intro hy
    have hz : ∀ k, 0 ≤ (y k - c k) / h k := fun k => div_nonneg (by linarith [(hy k).1]) (hh k).le
    have hlt : ∀ k, ⌊(y k - c k) / h k⌋₊ < N k := by
      intro k
      rw [Nat.floor_lt (hz k), div_lt_iff₀ (hh k)]
      linarith [(hy k).2]
    refine ⟨fun k => ⟨⌊(y k - c k) / h k⌋₊, hlt k⟩, fun k => ?_⟩
    have h1 := Nat.floor_le (hz k)
    have h2 := Nat.lt_floor_add_one ((y k - c k) / h k)
    rw [le_div_iff₀ (hh k)] at h1
    rw [div_lt_iff₀ (hh k)] at h2
    exact ⟨by linarith, by linarith⟩

theorem cell_disjoint (c h : Fin d → ℝ) (N : Fin d → ℕ) (hh : ∀ k, 0 < h k) : Pairwise (Function.onFun Disjoint fun x : Idx N => cellAt c h x) := by
  intro x x' hne
  rw [Function.onFun, Set.disjoint_left]
  intro y hy hy'
  apply hne
  funext k
  have h1 := hy k (mem_univ _)
  have h2 := hy' k (mem_univ _)
  rw [mem_Ico] at h1 h2
  have e1 : ((x k : ℕ) : ℝ) < (x' k : ℕ) + 1 := by
    have := lt_of_le_of_lt h1.1 h2.2
    exact lt_of_mul_lt_mul_right (by linarith) (hh k).le
  have e2 : ((x' k : ℕ) : ℝ) < (x k : ℕ) + 1 := by
    have := lt_of_le_of_lt h2.1 h1.2
    exact lt_of_mul_lt_mul_right (by linarith) (hh k).le
  have e1' : (x k : ℕ) < (x' k : ℕ) + 1 := by exact_mod_cast e1
  have e2' : (x' k : ℕ) < (x k : ℕ) + 1 := by exact_mod_cast e2
  exact Fin.ext (by omega)

theorem cell_measurable (c h : Fin d → ℝ) {N : Fin d → ℕ} (x : Idx N) : MeasurableSet (cellAt c h x) := MeasurableSet.univ_pi fun _ => measurableSet_Ico

theorem cell_volume (c h : Fin d → ℝ) {N : Fin d → ℕ} (hh : ∀ k, 0 < h k) (x : Idx N) : volume.real (cellAt c h x) = ∏ k, h k := by
  rw [cellAt, measureReal_def, Real.volume_pi_Ico_toReal]
  · exact Finset.prod_congr rfl fun k _ => by ring
  · intro k
    have := hh k
    nlinarith

theorem box_volume (c h : Fin d → ℝ) (N : Fin d → ℕ) (hh : ∀ k, 0 < h k) : volume.real (boxOf c h N) = ∏ k, (N k * h k) := by
  rw [boxOf, measureReal_def, Real.volume_pi_Ico_toReal]
  · exact Finset.prod_congr rfl fun k _ => by ring
  · intro k
    have := mul_nonneg (Nat.cast_nonneg (α := ℝ) (N k)) (hh k).le
    show c k ≤ _
    linarith

theorem box_finite (c h : Fin d → ℝ) (N : Fin d → ℕ) : volume (boxOf c h N) ≠ ⊤ := by
  rw [boxOf, Real.volume_pi_Ico]
  exact (ENNReal.prod_lt_top fun _ _ => ENNReal.ofReal_lt_top).ne

theorem continuous_integrable {F : (Fin d → ℝ) → ℝ} (hF : Continuous F) (c h : Fin d → ℝ) (N : Fin d → ℕ) : IntegrableOn F (boxOf c h N) := by
  refine (hF.locallyIntegrable.integrableOn_isCompact (isCompact_Icc (a := c) (b := fun k => c k + N k * h k))).mono_set ?_
  intro y hy
  rw [← pi_univ_Icc]
  exact fun k hk => Ico_subset_Icc_self (hy k hk)

/-- A sum over a grid differs from the integral over the cells by at most the variation of the function in a cell times the volume. -/
theorem riemann (c h : Fin d → ℝ) (N : Fin d → ℕ) (hh : ∀ k, 0 < h k) {F : (Fin d → ℝ) → ℝ} (hF : Continuous F) {ε : ℝ}
    (hε : ∀ y y' : Fin d → ℝ, (∀ k, |y k - y' k| ≤ h k) → |F y - F y'| ≤ ε) :
    |(∑ x : Idx N, F fun k => c k + (x k : ℕ) * h k) * (∏ k, h k) - ∫ y in boxOf c h N, F y| ≤ ε * ∏ k, (N k * h k) := by
  have hint := continuous_integrable hF c h N
  have hcell : ∀ x : Idx N, cellAt c h x ⊆ boxOf c h N := fun x => by rw [← iUnion_cell c h N hh]; exact subset_iUnion _ x
  rw [← iUnion_cell c h N hh, integral_iUnion_fintype (fun x => cell_measurable c h x) (cell_disjoint c h N hh) (fun x => hint.mono_set (hcell x)), Finset.sum_mul, ← Finset.sum_sub_distrib]
  have hone : ∀ x : Idx N, |(F fun k => c k + (x k : ℕ) * h k) * (∏ k, h k) - ∫ y in cellAt c h x, F y| ≤ ε * ∏ k, h k := by
    intro x
    have hconst : (F fun k => c k + (x k : ℕ) * h k) * (∏ k, h k) = ∫ y in cellAt c h x, F fun k => c k + (x k : ℕ) * h k := by
      rw [setIntegral_const, cell_volume c h hh x, smul_eq_mul, mul_comm]
    have hfin : volume (cellAt c h x) ≠ ⊤ := ((measure_mono (hcell x)).trans_lt (lt_top_iff_ne_top.2 (box_finite c h N))).ne
    have hci : IntegrableOn (fun _ : Fin d → ℝ => F fun k => c k + (x k : ℕ) * h k) (cellAt c h x) := integrableOn_const hfin (by simp)
    rw [hconst, ← integral_sub hci.integrable (hint.mono_set (hcell x)).integrable]
    rw [← cell_volume c h hh x, ← Real.norm_eq_abs]
    refine norm_setIntegral_le_of_norm_le_const (lt_top_iff_ne_top.2 hfin) fun y hy => ?_
    rw [Real.norm_eq_abs]
    refine hε _ _ fun k => ?_
    have := hy k (mem_univ _)
    rw [mem_Ico] at this
    rw [abs_le]
    constructor <;> nlinarith [this.1, this.2, hh k]
  refine (Finset.abs_sum_le_sum_abs _ _).trans ((Finset.sum_le_sum fun x _ => hone x).trans ?_)
  rw [Finset.sum_const, Finset.card_univ, nsmul_eq_mul, Finset.prod_mul_distrib, Fintype.card_pi]
  simp only [Fintype.card_fin, Nat.cast_prod]
  exact le_of_eq (by ring)

/-- the nearest point of the box -/
def clamp (a b : Fin d → ℝ) (y : Fin d → ℝ) : Fin d → ℝ := fun k => max (a k) (min (b k) (y k))

theorem clamp_mem {a b : Fin d → ℝ} (hab : ∀ k, a k ≤ b k) (y : Fin d → ℝ) : clamp a b y ∈ Icc a b :=
  ⟨fun k => le_max_left _ _, fun k => max_le (hab k) (min_le_left _ _)⟩

theorem clamp_eq {a b y : Fin d → ℝ} (hy : y ∈ Icc a b) : clamp a b y = y := by
  funext k
  simp only [clamp]
  rw [min_eq_right (hy.2 k), max_eq_right (hy.1 k)]

theorem clamp_continuous (a b : Fin d → ℝ) : Continuous (clamp a b) := by
  unfold clamp; fun_prop

theorem clamp_dist (a b y y' : Fin d → ℝ) (k : Fin d) : |clamp a b y k - clamp a b y' k| ≤ |y k - y' k| := by
  simp only [clamp]
  refine (abs_max_sub_max_le_max _ _ _ _).trans ?_
  rw [sub_self, abs_zero]
  refine max_le (abs_nonneg _) ((abs_min_sub_min_le_max _ _ _ _).trans ?_)
  rw [sub_self, abs_zero]
  exact max_le (abs_nonneg _) le_rfl

/-- uniform continuity on the box -/
theorem clamp_uniform {a b : Fin d → ℝ} (hab : ∀ k, a k ≤ b k) {f : (Fin d → ℝ) → ℝ} (hf : ContinuousOn f (Icc a b)) {ε : ℝ} (hε : 0 < ε) :
    ∃ δ > 0, ∀ y y' : Fin d → ℝ, (∀ k, |y k - y' k| ≤ δ) → |f (clamp a b y) - f (clamp a b y')| ≤ ε := by
  have huc := isCompact_Icc.uniformContinuousOn_of_continuous hf
  rw [Metric.uniformContinuousOn_iff] at huc
  obtain ⟨δ, hδ, h⟩ := huc ε hε
  refine ⟨δ / 2, by positivity, fun y y' hyy => ?_⟩
  have := h (clamp a b y) (clamp_mem hab y) (clamp a b y') (clamp_mem hab y') ?_
  · rw [Real.dist_eq] at this; exact this.le
  · rw [dist_pi_lt_iff hδ]
    intro k
    rw [Real.dist_eq]
    have := (clamp_dist a b y y' k).trans (hyy k)
    linarith

theorem clamp_comp_continuous {a b : Fin d → ℝ} (hab : ∀ k, a k ≤ b k) {f : (Fin d → ℝ) → ℝ} (hf : ContinuousOn f (Icc a b)) : Continuous fun y => f (clamp a b y) :=
  hf.comp_continuous (clamp_continuous a b) (clamp_mem hab)

/-- Grids that become finer: the `n`-th grid has the points `c n k + i * h n k` on axis `k`, all inside the box from `a` to `b`, and its cells fill the box in the limit. -/
structure Mesh (a b : Fin d → ℝ) (N : ℕ → Fin d → ℕ) (c h : ℕ → Fin d → ℝ) : Prop where
  lt : ∀ k, a k < b k
  pos : ∀ n k, 0 < h n k
  lo : ∀ k, Tendsto (fun n => c n k) atTop (𝓝 (a k))
  hi : ∀ k, Tendsto (fun n => c n k + N n k * h n k) atTop (𝓝 (b k))
  fine : ∀ k, Tendsto (fun n => h n k) atTop (𝓝 0)
  mem : ∀ n k (i : ℕ), i < N n k → c n k + i * h n k ∈ Icc (a k) (b k)

variable {a b : Fin d → ℝ} {N : ℕ → Fin d → ℕ} {c h : ℕ → Fin d → ℝ}

/-- grid point -/
def pt (c h : ℕ → Fin d → ℝ) {N : ℕ → Fin d → ℕ} (n : ℕ) (x : Idx (N n)) : Fin d → ℝ := fun k => c n k + (x k : ℕ) * h n k

theorem Mesh.pt_mem (M : Mesh a b N c h) (n : ℕ) (x : Idx (N n)) : pt c h n x ∈ Icc a b :=
  ⟨fun k => (M.mem n k (x k) (x k).isLt).1, fun k => (M.mem n k (x k) (x k).isLt).2⟩

theorem Mesh.box_tendsto (M : Mesh a b N c h) {F : (Fin d → ℝ) → ℝ} (hF : Continuous F) :
    Tendsto (fun n => ∫ y in boxOf (c n) (h n) (N n), F y) atTop (𝓝 (∫ y in Icc a b, F y)) := by
  have hm : ∀ n, MeasurableSet (boxOf (c n) (h n) (N n)) := fun n => MeasurableSet.univ_pi fun _ => measurableSet_Ico
  simp_rw [← integral_indicator (hm _)]
  rw [← integral_indicator measurableSet_Icc]
  let big : Set (Fin d → ℝ) := Icc (fun k => a k - 1) (fun k => b k + 1)
  have hbig : IntegrableOn F big := hF.locallyIntegrable.integrableOn_isCompact isCompact_Icc
  have hsub : ∀ᶠ n in atTop, boxOf (c n) (h n) (N n) ⊆ big := by
    have h1 : ∀ᶠ n in atTop, ∀ k, a k - 1 < c n k := eventually_all.2 fun k => (M.lo k).eventually (lt_mem_nhds (by linarith))
    have h2 : ∀ᶠ n in atTop, ∀ k, c n k + N n k * h n k < b k + 1 := eventually_all.2 fun k => (M.hi k).eventually (gt_mem_nhds (by linarith))
    filter_upwards [h1, h2] with n e1 e2 y hy
    refine ⟨fun k => ?_, fun k => ?_⟩
    · have := (hy k (mem_univ _)).1
      have := e1 k
      show a k - 1 ≤ y k
      linarith
    · have := (hy k (mem_univ _)).2
      have := e2 k
      show y k ≤ b k + 1
      linarith
  refine tendsto_integral_filter_of_dominated_convergence (big.indicator fun y => |F y|) ?_ ?_ ?_ ?_
  · exact Eventually.of_forall fun n => (hF.measurable.indicator (hm n)).aestronglyMeasurable
  · filter_upwards [hsub] with n hn
    refine Eventually.of_forall fun y => ?_
    rw [norm_indicator_eq_indicator_norm]
    exact indicator_le_indicator_of_subset hn (fun _ => norm_nonneg _) y
  · rw [integrable_indicator_iff measurableSet_Icc]
    exact hbig.norm
  · have hae : (univ.pi fun k => Ioo (a k) (b k)) =ᵐ[volume] Icc a b := Measure.univ_pi_Ioo_ae_eq_Icc
    filter_upwards [hae.mem_iff] with y hy
    by_cases hin : y ∈ Icc a b
    · have hin' := hy.2 hin
      have h1 : ∀ᶠ n in atTop, ∀ k, c n k < y k := eventually_all.2 fun k => (M.lo k).eventually (gt_mem_nhds (hin' k (mem_univ _)).1)
      have h2 : ∀ᶠ n in atTop, ∀ k, y k < c n k + N n k * h n k := eventually_all.2 fun k => (M.hi k).eventually (lt_mem_nhds (hin' k (mem_univ _)).2)
      refine tendsto_const_nhds.congr' ?_
      filter_upwards [h1, h2] with n e1 e2
      rw [indicator_of_mem hin, indicator_of_mem]
      exact fun k _ => ⟨(e1 k).le, e2 k⟩
    · refine tendsto_const_nhds.congr' ?_
      have : ∃ k, y k < a k ∨ b k < y k := by
        by_contra hc
        push_neg at hc
        exact hin ⟨fun k => (hc k).1, fun k => (hc k).2⟩
      obtain ⟨k, hk⟩ := this
      rcases hk with hk | hk
      · filter_upwards [(M.lo k).eventually (lt_mem_nhds hk)] with n e
        rw [indicator_of_notMem hin, indicator_of_notMem]
        exact fun hc => absurd (hc k (mem_univ _)).1 (not_le.2 e)
      · filter_upwards [(M.hi k).eventually (gt_mem_nhds hk)] with n e
        rw [indicator_of_notMem hin, indicator_of_notMem]
        exact fun hc => absurd (hc k (mem_univ _)).2 (not_lt.2 e.le)

theorem Mesh.volume_tendsto (M : Mesh a b N c h) : Tendsto (fun n => ∏ k, (N n k * h n k)) atTop (𝓝 (∏ k, (b k - a k))) := by
  refine tendsto_finsetProd _ fun k _ => ?_
  have := (M.hi k).sub (M.lo k)
  simpa using this

/-- Functions on finer and finer grids converge uniformly to a function on the box. -/
def UConv (c h : ℕ → Fin d → ℝ) {N : ℕ → Fin d → ℕ} (f : (n : ℕ) → Idx (N n) → ℝ) (ρ : (Fin d → ℝ) → ℝ) : Prop :=
  ∀ ε > 0, ∀ᶠ n in atTop, ∀ x, |f n x - ρ (pt c h n x)| ≤ ε

/-- sums over the grid of convergent functions, times the volume of a cell, converge to the integral -/
theorem Mesh.sum_tendsto (M : Mesh a b N c h) {f : (n : ℕ) → Idx (N n) → ℝ} {ρ : (Fin d → ℝ) → ℝ} (hρ : ContinuousOn ρ (Icc a b)) (hf : UConv c h f ρ) :
    Tendsto (fun n => (∑ x, f n x) * ∏ k, h n k) atTop (𝓝 (∫ y in Icc a b, ρ y)) := by
  have hab : ∀ k, a k ≤ b k := fun k => (M.lt k).le
  let F : (Fin d → ℝ) → ℝ := fun y => ρ (clamp a b y)
  have hF : Continuous F := clamp_comp_continuous hab hρ
  have hFi : ∫ y in Icc a b, ρ y = ∫ y in Icc a b, F y := setIntegral_congr_fun measurableSet_Icc fun y hy => by simp only [F]; rw [clamp_eq hy]
  rw [hFi]
  have h1 := M.box_tendsto hF
  -- the difference tends to zero
  have hdiff : Tendsto (fun n => (∑ x, f n x) * (∏ k, h n k) - ∫ y in boxOf (c n) (h n) (N n), F y) atTop (𝓝 0) := by
    obtain ⟨V, hV⟩ : ∃ V, V = ∏ k, (b k - a k) + 1 := ⟨_, rfl⟩
    have hVpos : 0 < V := by
      rw [hV]
      have : 0 ≤ ∏ k, (b k - a k) := Finset.prod_nonneg fun k _ => by linarith [hab k]
      linarith
    rw [Metric.tendsto_atTop']
    intro ε hε
    obtain ⟨δ, hδ, hu⟩ := clamp_uniform hab hρ (ε := ε / (3 * V)) (by positivity)
    have e1 : ∀ᶠ n in atTop, ∀ k, h n k < δ := eventually_all.2 fun k => (M.fine k).eventually (gt_mem_nhds hδ)
    have e2 : ∀ᶠ n in atTop, ∏ k, (N n k * h n k) < V := M.volume_tendsto.eventually (gt_mem_nhds (by rw [hV]; linarith))
    have e3 := hf (ε / (3 * V)) (by positivity)
    obtain ⟨n0, hn0⟩ := eventually_atTop.1 (e1.and (e2.and e3))
    refine ⟨n0, fun n hn => ?_⟩
    obtain ⟨g1, g2, g3⟩ := hn0 n hn.le
    rw [Real.dist_eq, sub_zero]
    have r := riemann (c n) (h n) (N n) (M.pos n) hF (ε := ε / (3 * V)) fun y y' hy => hu y y' fun k => (hy k).trans (g1 k).le
    have hcell : 0 ≤ ∏ k, h n k := Finset.prod_nonneg fun k _ => (M.pos n k).le
    have hvol : 0 ≤ ∏ k, (N n k * h n k) := Finset.prod_nonneg fun k _ => mul_nonneg (Nat.cast_nonneg _) (M.pos n k).le
    have hs : |(∑ x, f n x) * (∏ k, h n k) - (∑ x : Idx (N n), F fun k => c n k + (x k : ℕ) * h n k) * (∏ k, h n k)| ≤ ε / (3 * V) * ∏ k, (N n k * h n k) := by
      rw [← sub_mul, abs_mul, abs_of_nonneg hcell, ← Finset.sum_sub_distrib]
      have : ∀ x : Idx (N n), |f n x - F fun k => c n k + (x k : ℕ) * h n k| ≤ ε / (3 * V) := by
        intro x
        have := g3 x
        simp only [F]
        rw [show (fun k => c n k + (x k : ℕ) * h n k) = pt c h n x from rfl, clamp_eq (M.pt_mem n x)]
        exact this
      calc |∑ x : Idx (N n), (f n x - F fun k => c n k + (x k : ℕ) * h n k)| * ∏ k, h n k ≤ (∑ _x : Idx (N n), ε / (3 * V)) * ∏ k, h n k := by
            refine mul_le_mul_of_nonneg_right ?_ hcell
            exact (Finset.abs_sum_le_sum_abs _ _).trans (Finset.sum_le_sum fun x _ => this x)
        _ = ε / (3 * V) * ∏ k, (N n k * h n k) := by
            rw [Finset.sum_const, Finset.card_univ, nsmul_eq_mul, Finset.prod_mul_distrib, Fintype.card_pi]
            simp only [Fintype.card_fin, Nat.cast_prod]
            ring
    have hb : ε / (3 * V) * ∏ k, (N n k * h n k) ≤ ε / 3 := by
      calc ε / (3 * V) * ∏ k, (N n k * h n k) ≤ ε / (3 * V) * V := mul_le_mul_of_nonneg_left g2.le (by positivity)
        _ = ε / 3 := by field_simp
    calc _ ≤ _ := abs_sub_le _ ((∑ x : Idx (N n), F fun k => c n k + (x k : ℕ) * h n k) * (∏ k, h n k)) _
      _ ≤ ε / 3 + ε / 3 := add_le_add (hs.trans hb) (r.trans hb)
      _ < ε := by linarith
  have := h1.add hdiff
  simpa using this

end BL
