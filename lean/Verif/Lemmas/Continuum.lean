import Verif.Lemmas.GridWalk
import Verif.Model.Fit
import Mathlib.Data.Finset.Max

/-! # Convergence of the passes of a fit on finer and finer grids -/

set_option linter.unusedSectionVars false

namespace BL
open Spec MeasureTheory Filter Topology Set

variable {d : ℕ} {a b : Fin d → ℝ} {N : ℕ → Fin d → ℕ} {c h : ℕ → Fin d → ℝ}

/-! ## Uniform convergence -/

theorem UConv.congr {f g : (n : ℕ) → Idx (N n) → ℝ} {ρ : Dens d} (hf : UConv c h f ρ) (he : ∀ᶠ n in atTop, ∀ x, f n x = g n x) : UConv c h g ρ := by
  intro ε hε
  filter_upwards [hf ε hε, he] with n h1 h2 x
  rw [← h2 x]; exact h1 x

theorem UConv.limit {f : (n : ℕ) → Idx (N n) → ℝ} {ρ ρ' : Dens d} (M : Mesh a b N c h) (hf : UConv c h f ρ) (he : ∀ y ∈ Icc a b, ρ y = ρ' y) : UConv c h f ρ' := by
  intro ε hε
  filter_upwards [hf ε hε] with n h1 x
  rw [← he _ (M.pt_mem n x)]; exact h1 x

theorem UConv.self (ρ : Dens d) : UConv c h (fun n (x : Idx (N n)) => ρ (pt c h n x)) ρ := by
  intro ε hε
  exact Eventually.of_forall fun n x => by rw [sub_self, abs_zero]; exact hε.le

theorem UConv.scalar {s : ℕ → ℝ} {S : ℝ} (hs : Tendsto s atTop (𝓝 S)) : UConv c h (fun n (_ : Idx (N n)) => s n) fun _ => S := by
  intro ε hε
  filter_upwards [Metric.tendsto_nhds.1 hs ε hε] with n h1 x
  rw [Real.dist_eq] at h1; exact h1.le

theorem bounded_on {ρ : Dens d} (hρ : ContinuousOn ρ (Icc a b)) : ∃ C > 0, ∀ y ∈ Icc a b, |ρ y| ≤ C := by
  obtain ⟨B, hB⟩ := (isCompact_Icc (a := a) (b := b)).exists_bound_of_continuousOn hρ
  refine ⟨|B| + 1, by positivity, fun y hy => ?_⟩
  have := hB y hy
  rw [Real.norm_eq_abs] at this
  linarith [le_abs_self B]

theorem UConv.mul (M : Mesh a b N c h) {f g : (n : ℕ) → Idx (N n) → ℝ} {ρ τ : Dens d} (hf : UConv c h f ρ) (hg : UConv c h g τ) (hρ : ContinuousOn ρ (Icc a b)) (hτ : ContinuousOn τ (Icc a b)) :
    UConv c h (fun n x => f n x * g n x) fun y => ρ y * τ y := by
  obtain ⟨A, hA, hA'⟩ := bounded_on hρ
  obtain ⟨B, hB, hB'⟩ := bounded_on hτ
  intro ε hε
  filter_upwards [hf (min 1 (ε / (2 * (B + 1)))) (by positivity), hg (min 1 (ε / (2 * A))) (by positivity)] with n h1 h2 x
  have e : f n x * g n x - ρ (pt c h n x) * τ (pt c h n x) = (f n x - ρ (pt c h n x)) * g n x + ρ (pt c h n x) * (g n x - τ (pt c h n x)) := by ring
  have hgb : |g n x| ≤ B + 1 := by
    have := abs_sub_abs_le_abs_sub (g n x) (τ (pt c h n x))
    have := (h2 x).trans (min_le_left _ _)
    have := hB' _ (M.pt_mem n x)
    linarith
  rw [e]
  refine (abs_add_le _ _).trans ?_
  rw [abs_mul, abs_mul]
  have k1 : |f n x - ρ (pt c h n x)| * |g n x| ≤ ε / (2 * (B + 1)) * (B + 1) := mul_le_mul ((h1 x).trans (min_le_right _ _)) hgb (abs_nonneg _) (by positivity)
  have k2 : |ρ (pt c h n x)| * |g n x - τ (pt c h n x)| ≤ A * (ε / (2 * A)) := mul_le_mul (hA' _ (M.pt_mem n x)) ((h2 x).trans (min_le_right _ _)) (abs_nonneg _) hA.le
  have e1 : ε / (2 * (B + 1)) * (B + 1) = ε / 2 := by field_simp
  have e2 : A * (ε / (2 * A)) = ε / 2 := by field_simp
  linarith

theorem UConv.div (M : Mesh a b N c h) {f : (n : ℕ) → Idx (N n) → ℝ} {ρ : Dens d} (hf : UConv c h f ρ) (hρ : ContinuousOn ρ (Icc a b)) {s : ℕ → ℝ} {S : ℝ} (hs : Tendsto s atTop (𝓝 S)) (hS : S ≠ 0) :
    UConv c h (fun n x => f n x / s n) fun y => ρ y / S := by
  have := UConv.mul M hf (UConv.scalar (c := c) (h := h) (N := N) (hs.inv₀ hS)) hρ continuousOn_const
  simpa only [div_eq_mul_inv] using this

theorem UConv.sub {f g : (n : ℕ) → Idx (N n) → ℝ} {ρ τ : Dens d} (hf : UConv c h f ρ) (hg : UConv c h g τ) : UConv c h (fun n x => f n x - g n x) fun y => ρ y - τ y := by
  intro ε hε
  filter_upwards [hf (ε / 2) (by positivity), hg (ε / 2) (by positivity)] with n h1 h2 x
  have e : f n x - g n x - (ρ (pt c h n x) - τ (pt c h n x)) = (f n x - ρ (pt c h n x)) - (g n x - τ (pt c h n x)) := by ring
  rw [e]
  exact (abs_sub _ _).trans (by linarith [h1 x, h2 x])

theorem UConv.max {f : (n : ℕ) → Idx (N n) → ℝ} {ρ : Dens d} (hf : UConv c h f ρ) (v : ℝ) : UConv c h (fun n x => Max.max (f n x) v) fun y => Max.max (ρ y) v := by
  intro ε hε
  filter_upwards [hf ε hε] with n h1 x
  refine (abs_max_sub_max_le_max _ _ _ _).trans ?_
  rw [sub_self, abs_zero]
  exact max_le (h1 x) hε.le

theorem Mesh.cell_pos (M : Mesh a b N c h) (n : ℕ) : 0 < ∏ k, h n k := Finset.prod_pos fun k _ => M.pos n k

theorem Mesh.cell_tendsto (M : Mesh a b N c h) (hd : 0 < d) : Tendsto (fun n => ∏ k, h n k) atTop (𝓝 0) := by
  have := tendsto_finsetProd (f := fun (k : Fin d) n => h n k) (x := atTop) (a := fun _ => (0 : ℝ)) Finset.univ fun k _ => M.fine k
  have e : ∏ _k : Fin d, (0 : ℝ) = 0 := Finset.prod_eq_zero (Finset.mem_univ ⟨0, hd⟩) rfl
  rwa [e] at this

theorem Mesh.nonempty (M : Mesh a b N c h) : ∀ᶠ n in atTop, ∀ k, 0 < N n k := by
  refine eventually_all.2 fun k => ?_
  have := (M.hi k).sub (M.lo k)
  filter_upwards [this.eventually (lt_mem_nhds (show (0 : ℝ) < b k - a k by linarith [M.lt k]))] with n hn
  by_contra h0
  have : N n k = 0 := by omega
  rw [this] at hn
  simp at hn

/-- every point of the box is close to a point of the grid -/
theorem Mesh.dense (M : Mesh a b N c h) {δ : ℝ} (hδ : 0 < δ) : ∀ᶠ n in atTop, ∀ y ∈ Icc a b, ∃ x : Idx (N n), ∀ k, |pt c h n x k - y k| ≤ δ := by
  have h1 : ∀ᶠ n in atTop, ∀ k, h n k < δ / 2 := eventually_all.2 fun k => (M.fine k).eventually (gt_mem_nhds (by positivity))
  have h2 : ∀ᶠ n in atTop, ∀ k, |c n k - a k| < δ / 2 := eventually_all.2 fun k => by
    filter_upwards [Metric.tendsto_nhds.1 (M.lo k) (δ / 2) (by positivity)] with n hn
    rwa [Real.dist_eq] at hn
  have h3 : ∀ᶠ n in atTop, ∀ k, |c n k + N n k * h n k - b k| < δ / 2 := eventually_all.2 fun k => by
    filter_upwards [Metric.tendsto_nhds.1 (M.hi k) (δ / 2) (by positivity)] with n hn
    rwa [Real.dist_eq] at hn
  filter_upwards [h1, h2, h3, M.nonempty] with n g1 g2 g3 g4 y hy
  refine ⟨fun k => ⟨min (N n k - 1) ⌊(y k - c n k) / h n k⌋₊, by have := g4 k; omega⟩, fun k => ?_⟩
  have hh := M.pos n k
  have q1 := hy.1 k
  have q2 := hy.2 k
  obtain ⟨p1, p2⟩ := abs_lt.1 (g2 k)
  obtain ⟨p3, p4⟩ := abs_lt.1 (g3 k)
  have r1 := g1 k
  simp only [pt]
  by_cases hneg : (y k - c n k) / h n k < 0
  · rw [Nat.floor_of_nonpos hneg.le, Nat.min_zero]
    have : y k - c n k < 0 := by rwa [div_lt_iff₀ hh, zero_mul] at hneg
    rw [abs_le]; constructor <;> push_cast <;> linarith
  · have hnn := not_lt.1 hneg
    have f1 := Nat.floor_le hnn
    have f2 := Nat.lt_floor_add_one ((y k - c n k) / h n k)
    rw [le_div_iff₀ hh] at f1
    rw [div_lt_iff₀ hh] at f2
    rcases le_total (N n k - 1) ⌊(y k - c n k) / h n k⌋₊ with hle | hle
    · rw [min_eq_left hle]
      have hcast : ((N n k - 1 : ℕ) : ℝ) = N n k - 1 := by rw [Nat.cast_sub (g4 k)]; simp
      have hle' : ((N n k - 1 : ℕ) : ℝ) * h n k ≤ ⌊(y k - c n k) / h n k⌋₊ * h n k := mul_le_mul_of_nonneg_right (by exact_mod_cast hle) hh.le
      rw [hcast] at hle' ⊢
      rw [abs_le]; constructor <;> nlinarith
    · rw [min_eq_right hle]
      rw [abs_le]; constructor <;> nlinarith

/-- the largest value on the grid converges to the maximum on the box -/
theorem Mesh.amax_tendsto (M : Mesh a b N c h) {f : (n : ℕ) → Idx (N n) → ℝ} {ρ : Dens d} (hρ : ContinuousOn ρ (Icc a b)) (hf : UConv c h f ρ) {m : ℝ} (hm : IsGreatest (ρ '' Icc a b) m) :
    ∃ s : ℕ → ℝ, (∀ᶠ n in atTop, amax (f n) = some (s n)) ∧ Tendsto s atTop (𝓝 m) := by
  have hab : ∀ k, a k ≤ b k := fun k => (M.lt k).le
  obtain ⟨⟨y₀, hy₀, hy₀m⟩, hub⟩ := hm
  refine ⟨fun n => (amax (f n)).getD 0, ?_, ?_⟩
  · filter_upwards [M.nonempty] with n hn
    have : (Finset.univ.image (f n)).Nonempty := ⟨f n fun k => ⟨0, hn k⟩, Finset.mem_image_of_mem _ (Finset.mem_univ _)⟩
    obtain ⟨v, hv⟩ := Finset.max_of_nonempty this
    simp only [amax]
    rw [hv]; rfl
  · rw [Metric.tendsto_nhds]
    intro ε hε
    obtain ⟨δ, hδ, hu⟩ := clamp_uniform hab hρ (ε := ε / 4) (by positivity)
    filter_upwards [M.nonempty, M.dense hδ, hf (ε / 4) (by positivity)] with n hn g1 g2
    have hne : (Finset.univ.image (f n)).Nonempty := ⟨f n fun k => ⟨0, hn k⟩, Finset.mem_image_of_mem _ (Finset.mem_univ _)⟩
    obtain ⟨v, hv⟩ := Finset.max_of_nonempty hne
    have hval : (amax (f n)).getD 0 = v := by simp only [amax]; rw [hv]; rfl
    rw [hval, Real.dist_eq]
    obtain ⟨x, _, hx⟩ := Finset.mem_image.1 (Finset.mem_of_max hv)
    have h1 : ρ (pt c h n x) ≤ m := hub ⟨_, M.pt_mem n x, rfl⟩
    have h2 := abs_le.1 (g2 x)
    obtain ⟨x', hx'⟩ := g1 y₀ hy₀
    have h3 := abs_le.1 (hu _ _ hx')
    rw [clamp_eq (M.pt_mem n x'), clamp_eq hy₀, hy₀m] at h3
    have h4 := abs_le.1 (g2 x')
    have h5 : f n x' ≤ v := Finset.le_max_of_eq (Finset.mem_image_of_mem _ (Finset.mem_univ x')) hv
    rw [abs_lt]
    constructor <;> linarith [h2.1, h2.2, h3.1, h3.2, h4.1, h4.2]

/-! ## Arrays that converge after division by a power of the cell volume -/

/-- the arrays `p n`, divided by the `e`-th power of the cell volume, converge to `ρ` -/
def Tends (c h : ℕ → Fin d → ℝ) (e : ℕ) (p : (n : ℕ) → Arr ℝ (N n)) (ρ : Dens d) : Prop :=
  ∃ f : (n : ℕ) → Idx (N n) → ℝ, (∀ᶠ n in atTop, p n = some (f n)) ∧ UConv c h (fun n x => f n x / (∏ k, h n k) ^ e) ρ

theorem Tends.congr {e : ℕ} {p q : (n : ℕ) → Arr ℝ (N n)} {ρ : Dens d} (hp : Tends c h e p ρ) (he : ∀ᶠ n in atTop, p n = q n) : Tends c h e q ρ := by
  obtain ⟨f, h1, h2⟩ := hp
  exact ⟨f, by filter_upwards [h1, he] with n g1 g2; rw [← g2, g1], h2⟩

theorem Mesh.sum_scaled (M : Mesh a b N c h) {e : ℕ} {f : (n : ℕ) → Idx (N n) → ℝ} {ρ : Dens d} (hρ : ContinuousOn ρ (Icc a b)) (hf : UConv c h (fun n x => f n x / (∏ k, h n k) ^ e) ρ) :
    Tendsto (fun n => (∑ x, f n x) / (∏ k, h n k) ^ e * ∏ k, h n k) atTop (𝓝 (boxMass a b ρ)) := by
  have := M.sum_tendsto hρ hf
  refine this.congr fun n => ?_
  rw [Finset.sum_div]

theorem unitMass_continuousOn {ρ : Dens d} (hρ : ContinuousOn ρ (Icc a b)) : ContinuousOn (unitMass a b ρ) (Icc a b) := by
  unfold unitMass
  exact hρ.div_const _

theorem Tends.normalize (M : Mesh a b N c h) {e : ℕ} {p : (n : ℕ) → Arr ℝ (N n)} {ρ : Dens d} (hρ : ContinuousOn ρ (Icc a b)) (hp : Tends c h e p ρ) (hm : boxMass a b ρ ≠ 0) :
    Tends c h 1 (fun n => (p n).bind BL.normalize) (unitMass a b ρ) := by
  obtain ⟨f, h1, h2⟩ := hp
  have hs := M.sum_scaled hρ h2
  have hne : ∀ᶠ n in atTop, ∑ x, f n x ≠ 0 := by
    filter_upwards [hs.eventually_ne hm] with n hn h0
    rw [h0] at hn; simp at hn
  refine ⟨fun n x => f n x / ∑ y, f n y, ?_, ?_⟩
  · filter_upwards [h1, hne] with n g1 g2
    rw [g1]
    simp only [Option.bind_some, BL.normalize]
    rw [if_neg g2]
  · refine (UConv.div M h2 hρ hs hm).congr ?_
    filter_upwards [hne] with n g x
    have hc := (M.cell_pos n).ne'
    field_simp

theorem Tends.scale {e : ℕ} {p : (n : ℕ) → Arr ℝ (N n)} {ρ : Dens d} (M : Mesh a b N c h) (hp : Tends c h e p ρ) : Tends c h (e + 1) (fun n => (p n).map fun f x => f x * ∏ k, h n k) ρ := by
  obtain ⟨f, h1, h2⟩ := hp
  refine ⟨fun n x => f n x * ∏ k, h n k, ?_, ?_⟩
  · filter_upwards [h1] with n g1
    rw [g1]; rfl
  · refine h2.congr (Eventually.of_forall fun n x => ?_)
    have hc := (M.cell_pos n).ne'
    field_simp
    ring

theorem boxMass_const (v : ℝ) (hab : ∀ k, a k ≤ b k) : boxMass a b (fun _ => v) = (∏ k, (b k - a k)) * v := by
  unfold boxMass
  rw [setIntegral_const, smul_eq_mul, measureReal_def, Real.volume_Icc_pi_toReal hab]

theorem boxMass_max_pos (hab : ∀ k, a k < b k) {ρ : Dens d} (hρ : ContinuousOn ρ (Icc a b)) {v : ℝ} (hv : 0 < v) : 0 < boxMass a b fun y => max (ρ y) v := by
  have h1 : 0 < boxMass a b fun _ => v := by
    rw [boxMass_const v fun k => (hab k).le]
    exact mul_pos (Finset.prod_pos fun k _ => sub_pos.2 (hab k)) hv
  refine h1.trans_le ?_
  unfold boxMass
  refine setIntegral_mono_on ?_ ?_ measurableSet_Icc fun y _ => le_max_right _ _
  · exact continuousOn_const.integrableOn_compact isCompact_Icc
  · exact (hρ.sup continuousOn_const).integrableOn_compact isCompact_Icc

theorem Tends.floor (M : Mesh a b N c h) {p : (n : ℕ) → Arr ℝ (N n)} {ρ : Dens d} (hp : Tends c h 1 p ρ) (v : ℝ) :
    Tends c h 1 (fun n => (p n).map fun f => floorAt (v * ∏ k, h n k) f) fun y => max (ρ y) v := by
  obtain ⟨f, h1, h2⟩ := hp
  refine ⟨fun n => floorAt (v * ∏ k, h n k) (f n), ?_, ?_⟩
  · filter_upwards [h1] with n g1
    rw [g1]; rfl
  · refine (h2.max v).congr (Eventually.of_forall fun n x => ?_)
    have hc := M.cell_pos n
    simp only [pow_one, floorAt]
    split
    · rename_i hlt
      rw [max_eq_right]
      · field_simp
      · rw [div_le_iff₀ hc]; exact hlt.le
    · rename_i hge
      rw [max_eq_left]
      rw [le_div_iff₀ hc]; exact not_lt.1 hge


/-! ## Transition models -/

/-- studies that differ in their grids only -/
structure Refines (names : Fin d → String) (h : ℕ → Fin d → ℝ) (E : (n : ℕ) → Env ℝ (N n)) : Prop where
  names_eq : ∀ n, (E n).names = names
  lattice : ∀ n, (E n).lattice = h n
  pow10 : ∀ n, (E n).ext.pow10 = fun x => (10 : ℝ) ^ x
  gaussR : ∀ n, (E n).ext.gaussR = scipyRadius
  gaussW : ∀ n, (E n).ext.gaussW = scipyWeight

variable {names : Fin d → String} {E : (n : ℕ) → Env ℝ (N n)} {reset : Dens d}

theorem Refines.cell (R : Refines names h E) (n : ℕ) : (E n).cell = ∏ k, h n k := by
  unfold Env.cell; rw [R.lattice]

theorem axis_eq {gs : Fin d → ℕ} (E : Env ℝ gs) {target : String} {k : Fin d} (hk : E.names k = target) (hlt : ∀ i < k, E.names i ≠ target) : E.axis target = .ok k := by
  have : (List.finRange d).find? (fun a => E.names a = target) = some k := by
    rw [List.find?_eq_some_iff_getElem]
    refine ⟨by simpa using hk, k, by simp, by simp, fun j hj => ?_⟩
    simpa using hlt ⟨j, by omega⟩ hj
  unfold Env.axis
  rw [this]

/-- what is shown for every step of a transition model -/
def MoveOK (c h : ℕ → Fin d → ℝ) (a b : Fin d → ℝ) (r : (n : ℕ) → Except PyErr (Arr ℝ (N n))) (s' : Dens d × ℕ) : Prop :=
  ∃ p' : (n : ℕ) → Arr ℝ (N n), (∀ᶠ n in atTop, r n = .ok (p' n)) ∧ Tends c h (1 + s'.2) p' s'.1 ∧ ContinuousOn s'.1 (Icc a b)

theorem MoveOK.congr {r r' : (n : ℕ) → Except PyErr (Arr ℝ (N n))} {s' : Dens d × ℕ} (hr : MoveOK c h a b r s') (he : ∀ᶠ n in atTop, r n = r' n) : MoveOK c h a b r' s' := by
  obtain ⟨p', h1, h2⟩ := hr
  exact ⟨p', by filter_upwards [h1, he] with n g1 g2; rw [← g2, g1], h2⟩

theorem resetCell_tends (M : Mesh a b N c h) (R : Refines names h E) (hr : Tends c h 1 (fun n => (E n).resetArr) reset) : Tends c h 2 (fun n => (E n).resetCell) reset := by
  refine (hr.scale M).congr (Eventually.of_forall fun n => ?_)
  simp only [Env.resetCell, R.cell]

theorem leaf_move (M : Mesh a b N c h) (R : Refines names h E) (hr : Tends c h 1 (fun n => (E n).resetArr) reset) (hrc : ContinuousOn reset (Icc a b)) (toff : ℝ) (kind : Leaf ℝ)
    (vals : List (HVal ℝ)) (t : ℝ) {s s' : Dens d × ℕ} (hm : LeafMoves names a b reset kind vals t s s') {p : (n : ℕ) → Arr ℝ (N n)} (hp : Tends c h (1 + s.2) p s.1)
    (hs : ContinuousOn s.1 (Icc a b)) : MoveOK c h a b (fun n => leafFwd (E n) toff kind vals (p n) t) s' := by
  cases kind with
  | static => simp only [LeafMoves] at hm; subst hm; exact ⟨p, Eventually.of_forall fun n => rfl, hp, hs⟩
  | grw target =>
    obtain ⟨k, σ, hk, hlt, hv, hs'⟩ := hm
    have hsc : scalarAt vals 0 = .ok σ := by unfold scalarAt; rw [hv]
    have hax : ∀ n, (E n).axis target = .ok k := fun n => axis_eq (E n) (by rw [R.names_eq]; exact hk) (by rw [R.names_eq]; exact hlt)
    have hval : ∀ n, leafFwd (E n) toff (.grw target) vals (p n) t = .ok (if 0 < σ then (p n).map (filterAxis (scipyRadius (σ / h n k)) (scipyWeight (σ / h n k)) k) else p n) := by
      intro n
      have hh := M.pos n k
      simp only [leafFwd, grwFwd, hax, hsc, R.lattice, R.gaussR, R.gaussW, Bind.bind, Except.bind]
      rw [if_neg hh.ne']
      by_cases hσ : 0 < σ
      · rw [if_pos (div_pos hσ hh), if_pos hσ]
      · rw [if_neg (fun hc => hσ (by have := mul_pos hc hh; rwa [div_mul_cancel₀ _ hh.ne'] at this)), if_neg hσ]
    refine MoveOK.congr (r := fun n => .ok (if 0 < σ then (p n).map (filterAxis (scipyRadius (σ / h n k)) (scipyWeight (σ / h n k)) k) else p n)) ?_ (Eventually.of_forall fun n => (hval n).symm)
    rw [hs']
    refine ⟨_, Eventually.of_forall fun n => rfl, ?_, ?_⟩
    · by_cases hσ : 0 < σ
      · simp only [if_pos hσ]
        obtain ⟨f, h1, h2⟩ := hp
        refine ⟨fun n => filterAxis (scipyRadius (σ / h n k)) (scipyWeight (σ / h n k)) k (f n), ?_, ?_⟩
        · filter_upwards [h1] with n g1
          rw [g1]; rfl
        · refine (M.filter_tendsto hs h2 k hσ).congr (Eventually.of_forall fun n x => ?_)
          simp only [filterAxis, Finset.sum_div, mul_div_assoc]
      · simp only [if_neg hσ]
        exact hp
    · by_cases hσ : 0 < σ
      · simp only [if_pos hσ]
        exact gaussWalk_continuousOn M.lt σ k hs
      · simp only [if_neg hσ]
        exact hs
  | alphaStable _ => exact hm.elim
  | changePoint =>
    obtain ⟨τ, hv, hs'⟩ := hm
    have hval : ∀ n, leafFwd (E n) toff .changePoint vals (p n) t = .ok (if t = τ then (E n).resetCell else p n) := by
      intro n
      have : cpHit vals t = .ok (decide (t = τ)) := by unfold cpHit; rw [hv]
      simp only [leafFwd, this, Bind.bind, Except.bind]
      by_cases ht : t = τ <;> simp [ht]
    refine MoveOK.congr (r := fun n => .ok (if t = τ then (E n).resetCell else p n)) ?_ (Eventually.of_forall fun n => (hval n).symm)
    by_cases ht : t = τ
    · simp only [if_pos ht] at hs' ⊢
      rw [hs']
      exact ⟨_, Eventually.of_forall fun n => rfl, resetCell_tends M R hr, hrc⟩
    · simp only [if_neg ht] at hs' ⊢
      rw [hs']
      exact ⟨_, Eventually.of_forall fun n => rfl, hp, hs⟩
  | independent =>
    simp only [LeafMoves] at hm; subst hm
    exact ⟨_, Eventually.of_forall fun n => rfl, hr, hrc⟩
  | regimeSwitch =>
    obtain ⟨v, hv, hs0, hs'⟩ := hm
    have hsc : scalarAt vals 0 = .ok v := by unfold scalarAt; rw [hv]
    rw [hs0] at hp
    have hfl := Tends.floor M hp ((10 : ℝ) ^ v)
    have hcont : ContinuousOn (fun y => max (s.1 y) ((10 : ℝ) ^ v)) (Icc a b) := hs.sup continuousOn_const
    have hpos : boxMass a b (fun y => max (s.1 y) ((10 : ℝ) ^ v)) ≠ 0 := (boxMass_max_pos M.lt hs (by positivity)).ne'
    have hn := Tends.normalize M hcont hfl hpos
    rw [hs']
    refine ⟨_, ?_, hn, unitMass_continuousOn hcont⟩
    refine Eventually.of_forall fun n => ?_
    simp only [leafFwd, regimeFwd, hsc, Bind.bind, Except.bind, R.pow10, R.cell]
    cases p n <;> rfl
  | notEqual =>
    obtain ⟨v, m, hv, hgr, hpos, hs'⟩ := hm
    have hsc : scalarAt vals 0 = .ok v := by unfold scalarAt; rw [hv]
    obtain ⟨f, h1, h2⟩ := hp
    obtain ⟨sm, hsm, hst⟩ := M.amax_tendsto hs h2 hgr
    have hamax : ∀ᶠ n in atTop, amax (f n) = some (sm n * (∏ k, h n k) ^ (1 + s.2)) := by
      filter_upwards [hsm] with n hn
      have hc : 0 < (∏ k, h n k) ^ (1 + s.2) := pow_pos (M.cell_pos n) _
      have himg : (Finset.univ.image (f n)) = (Finset.univ.image fun x => f n x / (∏ k, h n k) ^ (1 + s.2)).image (fun v => v * (∏ k, h n k) ^ (1 + s.2)) := by
        rw [Finset.image_image]
        refine Finset.image_congr fun x _ => ?_
        simp only [Function.comp]
        rw [div_mul_cancel₀ _ hc.ne']
      simp only [amax] at hn ⊢
      rw [himg]
      have hmem := Finset.mem_of_max hn
      show Finset.max _ = ((sm n * (∏ k, h n k) ^ (1 + s.2) : ℝ) : WithBot ℝ)
      refine le_antisymm ?_ (Finset.le_max (Finset.mem_image_of_mem _ hmem))
      refine Finset.max_le fun v hv => ?_
      obtain ⟨u, hu, rfl⟩ := Finset.mem_image.1 hv
      exact WithBot.coe_le_coe.2 (mul_le_mul_of_nonneg_right (Finset.le_max_of_eq hu hn) hc.le)
    have hq : Tends c h (1 + s.2) (fun n => some fun x => sm n * (∏ k, h n k) ^ (1 + s.2) - f n x) fun y => m - s.1 y := by
      refine ⟨_, Eventually.of_forall fun n => rfl, ((UConv.scalar hst).sub h2).congr (Eventually.of_forall fun n x => ?_)⟩
      have hc : (∏ k, h n k) ^ (1 + s.2) ≠ 0 := (pow_pos (M.cell_pos n) _).ne'
      field_simp
    have hcont : ContinuousOn (fun y => m - s.1 y) (Icc a b) := continuousOn_const.sub hs
    have hn := Tends.normalize M hcont hq hpos.ne'
    have hc1 := unitMass_continuousOn hcont
    have hfl := Tends.floor M hn ((10 : ℝ) ^ v)
    have hc2 : ContinuousOn (fun y => max (unitMass a b (fun y => m - s.1 y) y) ((10 : ℝ) ^ v)) (Icc a b) := hc1.sup continuousOn_const
    have hn2 := Tends.normalize M hc2 hfl (boxMass_max_pos M.lt hc1 (by positivity)).ne'
    rw [hs']
    refine ⟨_, ?_, hn2, unitMass_continuousOn hc2⟩
    filter_upwards [h1, hamax] with n g1 g2
    simp only [leafFwd, notEqualFwd, hsc, Bind.bind, Except.bind, R.pow10, R.cell, g1, g2]
    simp only [Option.bind_some, Pure.pure, Except.pure]
    cases BL.normalize (fun x => sm n * (∏ k, h n k) ^ (1 + s.2) - f n x) <;> rfl
  | deterministic _ _ => exact hm.elim
  | bivariate => exact hm.elim
  | breakPoint => exact hm.elim


theorem scalars_scalars (vs : List ℝ) : scalars (vs.map HVal.scalar) = .ok vs := by
  induction vs with
  | nil => rfl
  | cons v vs ih => simp only [List.map_cons, scalars, ih, Bind.bind, Except.bind]

theorem cpIn_zip (vs : List ℝ) (mask : List Bool) (t : ℝ) : cpIn vs mask t = true ↔ ∃ p ∈ vs.zip mask, p.2 = true ∧ p.1 = t := by
  unfold cpIn
  simp only [List.any_eq_true, Bool.and_eq_true, decide_eq_true_eq]

mutual
theorem move (M : Mesh a b N c h) (R : Refines names h E) (hr : Tends c h 1 (fun n => (E n).resetArr) reset) (hrc : ContinuousOn reset (Icc a b)) (toff : ℝ) :
    ∀ (tm : TM ℝ) (t : ℝ) (s s' : Dens d × ℕ), Moves names a b reset tm t s s' → ∀ p : (n : ℕ) → Arr ℝ (N n), Tends c h (1 + s.2) p s.1 → ContinuousOn s.1 (Icc a b) →
      MoveOK c h a b (fun n => tm.fwd (E n) toff (p n) t) s'
  | .leaf kind hn vals pr, t, s, s', hm, p, hp, hs => by
      simp only [Moves] at hm
      simp only [TM.fwd]
      exact leaf_move M R hr hrc toff kind vals t hm hp hs
  | .combined ms, t, s, s', hm, p, hp, hs => by
      simp only [Moves] at hm
      simp only [TM.fwd]
      exact moveAll M R hr hrc toff ms t s s' hm p hp hs
  | .serial hn vals pr mask ms, t, s, s', hm, p, hp, hs => by
      simp only [Moves] at hm
      obtain ⟨vs, hvs, s₁, hm₁, hs'⟩ := hm
      obtain ⟨p', h1, h2, h3⟩ := moveNth M R hr hrc (breakOffset vs (modelIndex vs t)) ms _ t s s₁ hm₁ p hp hs
      have hval : ∀ᶠ n in atTop, (TM.serial hn vals pr mask ms).fwd (E n) toff (p n) t = .ok (if cpIn vs mask t then (E n).resetCell else p' n) := by
        filter_upwards [h1] with n g1
        simp only [TM.fwd, hvs, scalars_scalars, Bind.bind, Except.bind]
        rw [show TM.fwdNth (E n) (breakOffset vs (modelIndex vs t)) ms (modelIndex vs t) (p n) t = .ok (p' n) from g1]
        rfl
      refine MoveOK.congr (r := fun n => .ok (if cpIn vs mask t then (E n).resetCell else p' n)) ?_ (hval.mono fun n g => g.symm)
      by_cases hc : cpIn vs mask t = true
      · rw [if_pos ((cpIn_zip vs mask t).1 hc)] at hs'
        simp only [if_pos hc]
        rw [hs']
        exact ⟨_, Eventually.of_forall fun n => rfl, resetCell_tends M R hr, hrc⟩
      · rw [if_neg fun hx => hc ((cpIn_zip vs mask t).2 hx)] at hs'
        simp only [if_neg hc]
        rw [hs']
        exact ⟨_, Eventually.of_forall fun n => rfl, h2, h3⟩
theorem moveAll (M : Mesh a b N c h) (R : Refines names h E) (hr : Tends c h 1 (fun n => (E n).resetArr) reset) (hrc : ContinuousOn reset (Icc a b)) (toff : ℝ) :
    ∀ (ms : List (TM ℝ)) (t : ℝ) (s s' : Dens d × ℕ), MovesAll names a b reset ms t s s' → ∀ p : (n : ℕ) → Arr ℝ (N n), Tends c h (1 + s.2) p s.1 → ContinuousOn s.1 (Icc a b) →
      MoveOK c h a b (fun n => TM.fwdAll (E n) toff ms (p n) t) s'
  | [], t, s, s', hm, p, hp, hs => by
      simp only [MovesAll] at hm
      subst hm
      exact ⟨p, Eventually.of_forall fun n => rfl, hp, hs⟩
  | m :: ms, t, s, s', hm, p, hp, hs => by
      simp only [MovesAll] at hm
      obtain ⟨s₁, hm₁, hm₂⟩ := hm
      obtain ⟨p', h1, h2, h3⟩ := move M R hr hrc toff m t s s₁ hm₁ p hp hs
      refine (moveAll M R hr hrc toff ms t s₁ s' hm₂ p' h2 h3).congr ?_
      filter_upwards [h1] with n g1
      simp only [TM.fwdAll, g1, Bind.bind, Except.bind]
theorem moveNth (M : Mesh a b N c h) (R : Refines names h E) (hr : Tends c h 1 (fun n => (E n).resetArr) reset) (hrc : ContinuousOn reset (Icc a b)) (toff : ℝ) :
    ∀ (ms : List (TM ℝ)) (i : ℕ) (t : ℝ) (s s' : Dens d × ℕ), MovesNth names a b reset ms i t s s' → ∀ p : (n : ℕ) → Arr ℝ (N n), Tends c h (1 + s.2) p s.1 → ContinuousOn s.1 (Icc a b) →
      MoveOK c h a b (fun n => TM.fwdNth (E n) toff ms i (p n) t) s'
  | [], i, t, s, s', hm, p, hp, hs => by simp only [MovesNth] at hm
  | m :: _, 0, t, s, s', hm, p, hp, hs => by
      simp only [MovesNth] at hm
      simp only [TM.fwdNth]
      exact move M R hr hrc toff m t s s' hm p hp hs
  | _ :: ms, i + 1, t, s, s', hm, p, hp, hs => by
      simp only [MovesNth] at hm
      simp only [TM.fwdNth]
      exact moveNth M R hr hrc toff ms i t s s' hm p hp hs
end

theorem leafBwd_of_moves {gs : Fin d → ℕ} (E : Env ℝ gs) (toff : ℝ) (kind : Leaf ℝ) (vals : List (HVal ℝ)) (t : ℝ) {s s' : Dens d × ℕ} (hm : LeafMoves names a b reset kind vals (t - 1) s s')
    (p : Arr ℝ gs) : leafBwd E toff kind vals p t = leafFwd E toff kind vals p (t - 1) := by
  cases kind <;> first | rfl | exact hm.elim

mutual
theorem bwd_of_moves {gs : Fin d → ℕ} (E : Env ℝ gs) (toff : ℝ) : ∀ (tm : TM ℝ) (t : ℝ) (s s' : Dens d × ℕ), Moves names a b reset tm (t - 1) s s' → ∀ p : Arr ℝ gs,
    tm.bwd E toff p t = tm.fwd E toff p (t - 1)
  | .leaf kind hn vals pr, t, s, s', hm, p => by
      simp only [Moves] at hm
      simp only [TM.fwd, TM.bwd]
      exact leafBwd_of_moves E toff kind vals t hm p
  | .combined ms, t, s, s', hm, p => by
      simp only [Moves] at hm
      simp only [TM.fwd, TM.bwd]
      exact bwdAll_of_moves E toff ms t s s' hm p
  | .serial hn vals pr mask ms, t, s, s', hm, p => by
      simp only [Moves] at hm
      obtain ⟨vs, hvs, s₁, hm₁, hs'⟩ := hm
      simp only [TM.fwd, TM.bwd, hvs, scalars_scalars, Bind.bind, Except.bind]
      rw [bwdNth_of_moves E (breakOffset vs (modelIndex vs (t - 1))) ms (modelIndex vs (t - 1)) t s s₁ hm₁ p]
theorem bwdAll_of_moves {gs : Fin d → ℕ} (E : Env ℝ gs) (toff : ℝ) : ∀ (ms : List (TM ℝ)) (t : ℝ) (s s' : Dens d × ℕ), MovesAll names a b reset ms (t - 1) s s' → ∀ p : Arr ℝ gs,
    TM.bwdAll E toff ms p t = TM.fwdAll E toff ms p (t - 1)
  | [], t, s, s', hm, p => rfl
  | m :: ms, t, s, s', hm, p => by
      simp only [MovesAll] at hm
      obtain ⟨s₁, hm₁, hm₂⟩ := hm
      simp only [TM.fwdAll, TM.bwdAll]
      rw [bwd_of_moves E toff m t s s₁ hm₁ p]
      congr 1
      funext q
      exact bwdAll_of_moves E toff ms t s₁ s' hm₂ q
theorem bwdNth_of_moves {gs : Fin d → ℕ} (E : Env ℝ gs) (toff : ℝ) : ∀ (ms : List (TM ℝ)) (i : ℕ) (t : ℝ) (s s' : Dens d × ℕ), MovesNth names a b reset ms i (t - 1) s s' → ∀ p : Arr ℝ gs,
    TM.bwdNth E toff ms i p t = TM.fwdNth E toff ms i p (t - 1)
  | [], i, t, s, s', hm, p => rfl
  | m :: _, 0, t, s, s', hm, p => by
      simp only [MovesNth] at hm
      simp only [TM.fwdNth, TM.bwdNth]
      exact bwd_of_moves E toff m t s s' hm p
  | _ :: ms, i + 1, t, s, s', hm, p => by
      simp only [MovesNth] at hm
      simp only [TM.fwdNth, TM.bwdNth]
      exact bwdNth_of_moves E toff ms i t s s' hm p
end

/-! ## The passes -/

/-- Steps of forward passes on finer and finer grids and their limits: filtered density, likelihood, time. -/
def StepsConv (c h : ℕ → Fin d → ℝ) : ((n : ℕ) → List (Step ℝ (N n))) → List (Dens d × Dens d × ℝ) → Prop
  | steps, [] => ∀ᶠ n in atTop, steps n = []
  | steps, (ρ, L, t) :: items => ∃ (st : (n : ℕ) → Step ℝ (N n)) (rest : (n : ℕ) → List (Step ℝ (N n))), (∀ᶠ n in atTop, steps n = st n :: rest n) ∧
      UConv c h (fun n x => (st n).alpha x / ∏ k, h n k) ρ ∧ (∀ᶠ n in atTop, ∀ x, (st n).lik x = L (pt c h n x)) ∧ (∀ᶠ n in atTop, (st n).t = t) ∧ StepsConv c h rest items

/-- one data point: norm and normalised distribution -/
theorem data_step (M : Mesh a b N c h) {e : ℕ} {p : (n : ℕ) → Arr ℝ (N n)} {ρ L : Dens d} (hp : Tends c h e p ρ) (hρ : ContinuousOn ρ (Icc a b)) (hL : ContinuousOn L (Icc a b))
    (hpos : 0 < boxMass a b fun y => ρ y * L y) :
    ∃ f : (n : ℕ) → Idx (N n) → ℝ, (∀ᶠ n in atTop, p n = some (f n)) ∧ (∀ᶠ n in atTop, 0 < ∑ x, f n x * L (pt c h n x)) ∧
      Tendsto (fun n => (∑ x, f n x * L (pt c h n x)) / (∏ k, h n k) ^ e * ∏ k, h n k) atTop (𝓝 (boxMass a b fun y => ρ y * L y)) ∧
      UConv c h (fun n x => f n x * L (pt c h n x) / (∑ x, f n x * L (pt c h n x)) / ∏ k, h n k) (unitMass a b fun y => ρ y * L y) := by
  obtain ⟨f, h1, h2⟩ := hp
  have hc : ContinuousOn (fun y => ρ y * L y) (Icc a b) := hρ.mul hL
  have hu : UConv c h (fun n (x : Idx (N n)) => f n x * L (pt c h n x) / (∏ k, h n k) ^ e) fun y => ρ y * L y :=
    (UConv.mul M h2 (UConv.self L) hρ hL).congr (Eventually.of_forall fun n x => by ring)
  have hs := M.sum_scaled (f := fun n x => f n x * L (pt c h n x)) hc hu
  have hsp : ∀ᶠ n in atTop, 0 < ∑ x, f n x * L (pt c h n x) := by
    filter_upwards [hs.eventually (lt_mem_nhds hpos)] with n hn
    have hcell := M.cell_pos n
    by_contra hle
    have : (∑ x, f n x * L (pt c h n x)) / (∏ k, h n k) ^ e * ∏ k, h n k ≤ 0 := mul_nonpos_of_nonpos_of_nonneg (div_nonpos_of_nonpos_of_nonneg (not_lt.1 hle) (by positivity)) hcell.le
    linarith
  refine ⟨f, h1, hsp, hs, (UConv.div M hu hc hs hpos.ne').congr ?_⟩
  filter_upwards [hsp] with n hn x
  have hcell := (M.cell_pos n).ne'
  have := hn.ne'
  field_simp

/-- limits of the likelihoods -/
abbrev liksAt (c h : ℕ → Fin d → ℝ) {N : ℕ → Fin d → ℕ} (n : ℕ) (data : List (Dens d × ℝ)) : List (Idx (N n) → ℝ) := data.map fun D x => D.1 (pt c h n x)

theorem forward_one (M : Mesh a b N c h) (R : Refines names h E) (hr : Tends c h 1 (fun n => (E n).resetArr) reset) (hrc : ContinuousOn reset (Icc a b)) (tm : TM ℝ)
    {e : ℕ} {p : (n : ℕ) → Arr ℝ (N n)} {s s' : Dens d × ℕ} {L : Dens d} {t : ℝ} (hp : Tends c h e p s.1) (hs : ContinuousOn s.1 (Icc a b)) (hL : ContinuousOn L (Icc a b))
    (hpos : 0 < boxMass a b fun y => s.1 y * L y) (hm : Moves names a b reset tm t (unitMass a b fun y => s.1 y * L y, 0) s') :
    ∃ (st : (n : ℕ) → Step ℝ (N n)) (nx : (n : ℕ) → Arr ℝ (N n)), UConv c h (fun n x => (st n).alpha x / ∏ k, h n k) (unitMass a b fun y => s.1 y * L y) ∧
      (∀ n x, (st n).lik x = L (pt c h n x)) ∧ (∀ n, (st n).t = t) ∧
      Tendsto (fun n => (st n).norm / (∏ k, h n k) ^ e * ∏ k, h n k) atTop (𝓝 (boxMass a b fun y => s.1 y * L y)) ∧ Tends c h (1 + s'.2) nx s'.1 ∧ ContinuousOn s'.1 (Icc a b) ∧
      ∀ᶠ n in atTop, ∀ rest ts o, fwdPass (E n) tm false (E n).prior (nx n) rest ts = .ok o →
        fwdPass (E n) tm false (E n).prior (p n) ((fun x => L (pt c h n x)) :: rest) (t :: ts) = .ok { o with steps := st n :: o.steps } := by
  obtain ⟨f, h1, h2, h3, h4⟩ := data_step M hp hs hL hpos
  let α : (n : ℕ) → Idx (N n) → ℝ := fun n x => f n x * L (pt c h n x) / ∑ x, f n x * L (pt c h n x)
  have hα : Tends c h (1 + 0) (fun n => some (α n)) (unitMass a b fun y => s.1 y * L y) := by
    refine ⟨α, Eventually.of_forall fun n => rfl, ?_⟩
    simpa only [add_zero, pow_one] using h4
  obtain ⟨nx, m1, m2, m3⟩ := move M R hr hrc 0 tm t (unitMass a b fun y => s.1 y * L y, 0) s' hm (fun n => some (α n)) hα (unitMass_continuousOn (hs.mul hL))
  refine ⟨fun n => ⟨α n, ∑ x, f n x * L (pt c h n x), fun x => L (pt c h n x), t⟩, nx, h4, fun n x => rfl, fun n => rfl, h3, m2, m3, ?_⟩
  filter_upwards [h1, h2, m1] with n g1 g2 g3 rest ts o ho
  rw [g1]
  simp only [fwdPass]
  rw [if_pos g2]
  simp only [Bool.false_eq_true, if_false, Bool.false_and]
  rw [show tm.fwd { E n with prior := (E n).prior } 0 (some fun x => f n x * L (pt c h n x) / ∑ x, f n x * L (pt c h n x)) t = .ok (nx n) from g3]
  simp only [Bind.bind, Except.bind]
  rw [ho]

theorem forward_pass (M : Mesh a b N c h) (R : Refines names h E) (hr : Tends c h 1 (fun n => (E n).resetArr) reset) (hrc : ContinuousOn reset (Icc a b)) (tm : TM ℝ)
    {s : Dens d × ℕ} {data : List (Dens d × ℝ)} {out : List (ℝ × Dens d)} {k : ℕ} (hF : Filtered a b (Moves names a b reset tm) s data out k) (hL : ∀ D ∈ data, ContinuousOn D.1 (Icc a b))
    {p : (n : ℕ) → Arr ℝ (N n)} (hp : Tends c h (1 + s.2) p s.1) (hs : ContinuousOn s.1 (Icc a b)) :
    ∃ steps : (n : ℕ) → List (Step ℝ (N n)), (∀ᶠ n in atTop, fwdPass (E n) tm false (E n).prior (p n) (liksAt c h n data) (data.map Prod.snd) = .ok ⟨steps n, false, (E n).prior⟩) ∧
      StepsConv c h steps (List.zipWith (fun o D => (o.2, D.1, D.2)) out data) ∧
      (∀ o ∈ out, ContinuousOn o.2 (Icc a b)) ∧ out.length = data.length ∧
      Tendsto (fun n => ((steps n).map Step.norm).prod / (∏ k, h n k) ^ k) atTop (𝓝 (out.map Prod.fst).prod) := by
  induction hF generalizing p with
  | done s => exact ⟨fun n => [], Eventually.of_forall fun n => rfl, Eventually.of_forall fun n => rfl, by simp, rfl, by simp⟩
  | data s s' L t rest out k hpos hm _ ih =>
    obtain ⟨st, nx, h1, h2, h3, h4, h5, h6, h7⟩ := forward_one M R hr hrc tm hp hs (hL (L, t) (by simp)) hpos hm
    obtain ⟨steps, i1, i2, i4, i5, i3⟩ := ih (fun D hD => hL D (by simp [hD])) h5 h6
    refine ⟨fun n => st n :: steps n, ?_, ⟨st, steps, Eventually.of_forall fun n => rfl, h1, Eventually.of_forall fun n x => h2 n x, Eventually.of_forall fun n => h3 n, i2⟩,
      by intro o ho; rcases List.mem_cons.1 ho with rfl | ho; exacts [unitMass_continuousOn (hs.mul (hL (L, t) (by simp))), i4 o ho], by simp [i5], ?_⟩
    · filter_upwards [h7, i1] with n g1 g2
      exact g1 _ _ _ g2
    · simp only [List.map_cons, List.prod_cons]
      refine (h4.mul i3).congr fun n => ?_
      have hc := (M.cell_pos n).ne'
      rw [pow_add, pow_add, pow_one]
      field_simp

/-- the first data point: the initial distribution is a density -/
theorem forward_pass_start (M : Mesh a b N c h) (R : Refines names h E) (hr : Tends c h 1 (fun n => (E n).resetArr) reset) (hrc : ContinuousOn reset (Icc a b)) (tm : TM ℝ)
    {ρ : Dens d} {data : List (Dens d × ℝ)} {out : List (ℝ × Dens d)} {k : ℕ} (hF : Filtered a b (Moves names a b reset tm) (ρ, 0) data out k) (hL : ∀ D ∈ data, ContinuousOn D.1 (Icc a b))
    (hne : data ≠ []) {p : (n : ℕ) → Arr ℝ (N n)} (hp : Tends c h 0 p ρ) (hs : ContinuousOn ρ (Icc a b)) :
    ∃ steps : (n : ℕ) → List (Step ℝ (N n)), (∀ᶠ n in atTop, fwdPass (E n) tm false (E n).prior (p n) (liksAt c h n data) (data.map Prod.snd) = .ok ⟨steps n, false, (E n).prior⟩) ∧
      StepsConv c h steps (List.zipWith (fun o D => (o.2, D.1, D.2)) out data) ∧
      (∀ o ∈ out, ContinuousOn o.2 (Icc a b)) ∧ out.length = data.length ∧
      Tendsto (fun n => ((steps n).map Step.norm).prod * (∏ k, h n k) / (∏ k, h n k) ^ k) atTop (𝓝 (out.map Prod.fst).prod) := by
  cases hF with
  | done s => exact absurd rfl hne
  | data s s' L t rest out k hpos hm hF' =>
    obtain ⟨st, nx, h1, h2, h3, h4, h5, h6, h7⟩ := forward_one (s := (ρ, 0)) M R hr hrc tm hp hs (hL (L, t) (by simp)) hpos hm
    obtain ⟨steps, i1, i2, i4, i5, i3⟩ := forward_pass M R hr hrc tm hF' (fun D hD => hL D (by simp [hD])) h5 h6
    refine ⟨fun n => st n :: steps n, ?_, ⟨st, steps, Eventually.of_forall fun n => rfl, h1, Eventually.of_forall fun n x => h2 n x, Eventually.of_forall fun n => h3 n, i2⟩,
      by intro o ho; rcases List.mem_cons.1 ho with rfl | ho; exacts [unitMass_continuousOn (hs.mul (hL (L, t) (by simp))), i4 o ho], by simp [i5], ?_⟩
    · filter_upwards [h7, i1] with n g1 g2
      exact g1 _ _ _ g2
    · simp only [List.map_cons, List.prod_cons]
      refine (h4.mul i3).congr fun n => ?_
      have hc := (M.cell_pos n).ne'
      rw [pow_zero]
      field_simp
      ring_nf

/-- stored arrays converge to densities -/
def CellsConv (c h : ℕ → Fin d → ℝ) : ((n : ℕ) → List (Cell (Idx (N n) → ℝ))) → List (Dens d) → Prop
  | cells, [] => ∀ᶠ n in atTop, cells n = []
  | cells, ρ :: ρs => ∃ (f : (n : ℕ) → Idx (N n) → ℝ) (rest : (n : ℕ) → List (Cell (Idx (N n) → ℝ))), (∀ᶠ n in atTop, cells n = .val (f n) :: rest n) ∧
      UConv c h (fun n x => f n x / ∏ k, h n k) ρ ∧ CellsConv c h rest ρs

theorem backward_pass (M : Mesh a b N c h) (R : Refines names h E) (hr : Tends c h 1 (fun n => (E n).resetArr) reset) (hrc : ContinuousOn reset (Icc a b)) (tm : TM ℝ)
    {items : List (Dens d × Dens d × ℝ)} {posts : List (Dens d)} {β : Dens d} (hS : Smoothed a b (Moves names a b reset tm) items posts β)
    (hc : ∀ i ∈ items, ContinuousOn i.1 (Icc a b) ∧ ContinuousOn i.2.1 (Icc a b)) {steps : (n : ℕ) → List (Step ℝ (N n))} (hst : StepsConv c h steps items) :
    ∃ o : (n : ℕ) → BwdOut ℝ (N n), (∀ᶠ n in atTop, bwdPass (E n) tm (steps n) = .ok (o n)) ∧ (∀ᶠ n in atTop, (o n).stopped = false) ∧ CellsConv c h (fun n => (o n).posts) posts ∧
      Tends c h 1 (fun n => (o n).beta) β ∧ ContinuousOn β (Icc a b) := by
  induction hS generalizing steps with
  | done =>
    have hone : Tends c h 0 (fun n => some fun (_ : Idx (N n)) => (1 : ℝ)) fun _ => 1 := ⟨_, Eventually.of_forall fun n => rfl, by simpa using UConv.self (c := c) (h := h) (N := N) fun _ => 1⟩
    have hm1 : boxMass a b (fun _ => 1) ≠ 0 := by
      rw [boxMass_const 1 fun k => (M.lt k).le, mul_one]
      exact (Finset.prod_pos fun k _ => sub_pos.2 (M.lt k)).ne'
    refine ⟨fun n => ⟨[], [], BL.normalize fun _ => 1, false⟩, ?_, Eventually.of_forall fun n => rfl, Eventually.of_forall fun n => rfl, Tends.normalize M continuousOn_const hone hm1,
      unitMass_continuousOn continuousOn_const⟩
    filter_upwards [hst] with n hn
    rw [hn]; rfl
  | data ρ L t rest posts β s' _ hpos hm hne ih =>
    obtain ⟨st, srest, h1, h2, h3, h4, h5⟩ := hst
    obtain ⟨hρ, hL⟩ := hc (ρ, L, t) (by simp)
    obtain ⟨o, o1, o2, o3, ⟨g, b1, b2⟩, bc⟩ := ih (fun i hi => hc i (by simp [hi])) h5
    -- the product of both densities
    have hc2 : ContinuousOn (fun y => ρ y * β y) (Icc a b) := hρ.mul bc
    have hu : UConv c h (fun n (x : Idx (N n)) => (st n).alpha x * g n x / (∏ k, h n k) ^ 2) fun y => ρ y * β y :=
      (UConv.mul M h2 b2 hρ bc).congr (Eventually.of_forall fun n x => by rw [pow_one, pow_two, div_mul_div_comm])
    have hs := M.sum_scaled (f := fun n x => (st n).alpha x * g n x) hc2 hu
    have hsp : ∀ᶠ n in atTop, 0 < ∑ x, (st n).alpha x * g n x := by
      filter_upwards [hs.eventually (lt_mem_nhds hpos)] with n hn
      have hcell := M.cell_pos n
      by_contra hle
      have : (∑ x, (st n).alpha x * g n x) / (∏ k, h n k) ^ 2 * ∏ k, h n k ≤ 0 := mul_nonpos_of_nonpos_of_nonneg (div_nonpos_of_nonpos_of_nonneg (not_lt.1 hle) (by positivity)) hcell.le
      linarith
    have hpost : UConv c h (fun n x => (st n).alpha x * g n x / (∑ x, (st n).alpha x * g n x) / ∏ k, h n k) (unitMass a b fun y => ρ y * β y) := by
      refine (UConv.div M hu hc2 hs hpos.ne').congr ?_
      filter_upwards [hsp] with n hn x
      have hcell := (M.cell_pos n).ne'
      have := hn.ne'
      field_simp
    have hq : Tends c h (1 + 0) (fun n => some fun x => g n x * (st n).lik x) fun y => β y * L y := by
      refine ⟨_, Eventually.of_forall fun n => rfl, ?_⟩
      refine (UConv.mul M b2 (UConv.self L) bc hL).congr ?_
      filter_upwards [h3] with n hn x
      rw [hn x]; ring
    obtain ⟨nb, m1, m2, m3⟩ := move M R hr hrc 0 tm (t - 1) (fun y => β y * L y, 0) s' hm _ hq (bc.mul hL)
    refine ⟨fun n => ⟨.val (fun x => (st n).alpha x * g n x / ∑ x, (st n).alpha x * g n x) :: (o n).posts,
      localEv (E n) (fun x => (st n).alpha x * g n x / ∑ x, (st n).alpha x * g n x) (st n).lik :: (o n).locals, (nb n).bind BL.normalize, false⟩, ?_, Eventually.of_forall fun n => rfl,
      ⟨_, _, Eventually.of_forall fun n => rfl, hpost, o3⟩, Tends.normalize M m3 m2 hne, unitMass_continuousOn m3⟩
    filter_upwards [h1, h4, o1, o2, b1, hsp, m1] with n g1 g4 g5 g6 g7 g8 g9
    rw [g1]
    simp only [bwdPass, g5, Bind.bind, Except.bind, g6, g7]
    rw [if_pos g8, g4, bwd_of_moves (E n) 0 tm t _ _ hm, g9]
    simp only [Bool.false_eq_true, if_false]

end BL
