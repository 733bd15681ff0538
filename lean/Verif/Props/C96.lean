import Verif.Lemmas.Consistency
import Verif.Spec.BestFit
import Verif.Props.C55
import Verif.Props.C56
import Verif.Props.C57
import Verif.Props.C62
import Mathlib.Probability.HasLawExists
import Mathlib.Probability.Distributions.Poisson.Basic

/-! # C96: more data find the true parameter values -/

set_option linter.unusedSectionVars false

open MeasureTheory ProbabilityTheory
open scoped ENNReal

namespace Spec
open BL

variable {d : ℕ} {gs : Fin d → ℕ}

/-- `Finds grid x0 n fo ε r`: the fit `r` of `n + 1` data points has found the grid point `x0`.  Its posterior probability is above `1 - ε`, and the mean values differ
from the parameter values at `x0` by at most the fraction `ε` of the range of the parameter; at all time steps, for forward-only fits at the last one. -/
def Finds (grid : (a : Fin d) → Fin (gs a) → ℝ) (x0 : Idx gs) (n : ℕ) (fo : Bool) (ε : ℝ) (r : Except PyErr (FitState ℝ gs)) : Prop :=
  ∃ R, r = .ok R ∧ ∀ k ≤ n, (fo = true → k = n) →
    ∃ p, R.posts[k]? = some (.val p) ∧ 1 - ε < p x0 ∧
      ∀ a, ∃ m, (R.means a)[k]? = some m ∧ ∀ D, (∀ i, |grid a i - grid a (x0 a)| ≤ D) → |m - grid a (x0 a)| ≤ ε * D

end Spec

namespace BL
open Spec
variable {d : ℕ} {gs : Fin d → ℕ}

theorem mean_close {p : Idx gs → ℝ} (hp : ∀ x, 0 ≤ p x) (h1 : ∑ x, p x = 1) {x0 : Idx gs} {ε : ℝ} (h : 1 - ε < p x0) (grid : (a : Fin d) → Fin (gs a) → ℝ) (a : Fin d) {D : ℝ}
    (hD : ∀ i, |grid a i - grid a (x0 a)| ≤ D) : |mean grid a p - grid a (x0 a)| ≤ ε * D := by
  have hD0 : 0 ≤ D := (abs_nonneg _).trans (hD (x0 a))
  have e1 : mean grid a p - grid a (x0 a) = ∑ x, p x * (grid a (x a) - grid a (x0 a)) := by
    simp only [mul_sub, Finset.sum_sub_distrib, ← Finset.sum_mul, h1, one_mul, mean]
  have e2 : ∑ x, p x * |grid a (x a) - grid a (x0 a)| ≤ ∑ x, if x = x0 then 0 else p x * D := by
    refine Finset.sum_le_sum fun x _ => ?_
    split
    · next hx => rw [hx]; simp
    · exact mul_le_mul_of_nonneg_left (hD _) (hp x)
  have e3 : ∑ x, (if x = x0 then 0 else p x * D) = (1 - p x0) * D := by
    have : ∀ x, (if x = x0 then 0 else p x * D) = p x * D - if x = x0 then p x * D else 0 := by
      intro x; split <;> simp
    simp only [this, Finset.sum_sub_distrib, Finset.sum_ite_eq', Finset.mem_univ, if_true, ← Finset.sum_mul, h1]
    ring
  rw [e1]
  refine (Finset.abs_sum_le_sum_abs _ _).trans ?_
  simp only [abs_mul, abs_of_nonneg (hp _)]
  rw [e3] at e2
  exact e2.trans (mul_le_mul_of_nonneg_right (by linarith) hD0)

theorem normal_continuous (μ σ : ℝ) : Continuous (normalDensity μ σ) := by
  unfold normalDensity
  fun_prop

theorem laplace_continuous (μ b : ℝ) : Continuous (laplaceDensity μ b) := by
  unfold laplaceDensity
  fun_prop

/-- densities `c/σ · k((y-μ)/σ)` with a unique maximum are different for different parameters -/
theorem peak_inj {f g : ℝ → ℝ} {μ σ μ' σ' c : ℝ} (hc : 0 < c) (hσ : 0 < σ) (hσ' : 0 < σ') (hf : ∀ y, f y ≤ 1 / (σ * c) ∧ (f y = 1 / (σ * c) ↔ y = μ)) (hg : ∀ y, g y ≤ 1 / (σ' * c) ∧ (g y = 1 / (σ' * c) ↔ y = μ'))
    (h : f = g) : μ = μ' ∧ σ = σ' := by
  subst h
  have h1 : 1 / (σ * c) ≤ 1 / (σ' * c) := by rw [← ((hf μ).2).2 rfl]; exact (hg μ).1
  have h2 : 1 / (σ' * c) ≤ 1 / (σ * c) := by rw [← ((hg μ').2).2 rfl]; exact (hf μ').1
  have h3 := le_antisymm h1 h2
  refine ⟨((hg μ).2).1 ((((hf μ).2).2 rfl).trans h3), ?_⟩
  have h4 : σ * c = σ' * c := by
    have := congrArg (fun z => 1 / z) h3
    simpa using this
  exact mul_right_cancel₀ hc.ne' h4

theorem normal_inj {μ σ μ' σ' : ℝ} (hσ : 0 < σ) (hσ' : 0 < σ') (h : normalDensity μ σ = normalDensity μ' σ') : μ = μ' ∧ σ = σ' := by
  have key : ∀ {μ σ : ℝ}, 0 < σ → ∀ y, normalDensity μ σ y ≤ 1 / (σ * Real.sqrt (2 * Real.pi)) ∧ (normalDensity μ σ y = 1 / (σ * Real.sqrt (2 * Real.pi)) ↔ y = μ) := by
    intro μ σ hσ y
    have hp : 0 < 1 / (σ * Real.sqrt (2 * Real.pi)) := by positivity
    have he : -(y - μ) ^ 2 / (2 * σ ^ 2) ≤ 0 := by rw [neg_div]; exact neg_nonpos.2 (by positivity)
    refine ⟨mul_le_of_le_one_right hp.le (Real.exp_le_one_iff.2 he), ?_⟩
    rw [normalDensity, mul_eq_left₀ hp.ne', Real.exp_eq_one_iff, div_eq_zero_iff, neg_eq_zero, pow_eq_zero_iff two_ne_zero, sub_eq_zero]
    exact or_iff_left (by positivity)
  exact peak_inj (Real.sqrt_pos.2 (by positivity)) hσ hσ' (key hσ) (key hσ') h

theorem laplace_inj {μ b μ' b' : ℝ} (hb : 0 < b) (hb' : 0 < b') (h : laplaceDensity μ b = laplaceDensity μ' b') : μ = μ' ∧ b = b' := by
  have key : ∀ {μ b : ℝ}, 0 < b → ∀ y, laplaceDensity μ b y ≤ 1 / (b * 2) ∧ (laplaceDensity μ b y = 1 / (b * 2) ↔ y = μ) := by
    intro μ b hb y
    have hp : 0 < 1 / (2 * b) := by positivity
    have he : -(|y - μ| / b) ≤ 0 := neg_nonpos.2 (by positivity)
    rw [mul_comm b 2]
    refine ⟨mul_le_of_le_one_right hp.le (Real.exp_le_one_iff.2 he), ?_⟩
    rw [laplaceDensity, mul_eq_left₀ hp.ne', Real.exp_eq_one_iff, neg_eq_zero, div_eq_zero_iff, abs_eq_zero, sub_eq_zero]
    exact or_iff_left hb.ne'
  exact peak_inj two_pos hb hb' (key hb) (key hb') h

end BL

namespace Props
open BL Spec
variable {d : ℕ} {gs : Fin d → ℕ} {Ω Y : Type} [MeasurableSpace Ω] [MeasurableSpace Y]

/-- the fit of a static model has found the value of high posterior probability -/
theorem finds_of_high {E : Env ℝ gs} {grid : (a : Fin d) → Fin (gs a) → ℝ} (hE : Regular E) {nm : List String} {vs : List (HVal ℝ)} {hpr : Option (Nest (HPrior ℝ))} {S : FitState ℝ gs} {π : Idx gs → ℝ}
    (hp : PriorMass E.cell S.prior π) {n : ℕ} (L : Fin (n + 1) → Idx gs → ℝ) (hL0 : ∀ i x, 0 ≤ L i x) (ts : List ℝ) (hts : ts.length = n + 1) (fo : Bool) {x0 : Idx gs} {ε : ℝ} (hε : ε ≤ 1)
    (h : 1 - ε < (π x0 * ∏ i, L i x0) / ∑ x, π x * ∏ i, L i x) : Finds grid x0 n fo ε (fit E grid (.leaf .static nm vs hpr) (List.ofFn L) ts fo false S) := by
  have := hE.nonempty
  have hπ := priorMass_nonneg (cell_pos hE.lattice_pos) hp
  have hu : ∀ x, 0 ≤ π x * ∏ i, L i x := fun x => mul_nonneg (hπ x) (Finset.prod_nonneg fun i _ => hL0 i x)
  have hs : (∑ x, π x * ∏ i, L i x) ≠ 0 := by
    intro h0
    rw [h0, div_zero] at h
    linarith
  have hs0 : 0 < ∑ x, π x * ∏ i, L i x := lt_of_le_of_ne (Finset.sum_nonneg fun x _ => hu x) (Ne.symm hs)
  obtain ⟨R, h1, h2, h3⟩ := static_fit (grid := grid) hE hp (nm := nm) (vs := vs) (hpr := hpr) (Ls := List.ofFn L) (ts := ts) (by simp [List.ofFn_succ]) (by simpa using hts)
    (by intro l hl x; obtain ⟨i, rfl⟩ := List.mem_ofFn.1 hl; exact hL0 i x) fo false
  simp only [prod_ofFn_apply] at h2 h3
  have hfin : R.logEv ≠ LogV.ninf := by
    intro hc
    rw [hc] at h2
    exact hs h2.symm
  obtain ⟨hf, ht⟩ := h3 hs trivial
  have hpost : ∀ k ≤ n, (fo = true → k = n) → R.posts[k]? = some (.val fun x => (π x * ∏ i, L i x) / ∑ y, π y * ∏ i, L i y) := by
    intro k hk hkn
    cases fo with
    | false =>
        rw [(hf rfl).1, List.getElem?_replicate, if_pos (by simpa using by omega)]
    | true =>
        obtain rfl := hkn rfl
        have htake : (List.ofFn L).take (k + 1) = List.ofFn L := List.take_of_length_le (by simp)
        rw [ht rfl, List.getElem?_map, List.getElem?_range (by simp)]
        simp only [Option.map_some, htake, prod_ofFn_apply]
  refine ⟨R, h1, fun k hk hkn => ⟨_, hpost k hk hkn, h, fun a => ?_⟩⟩
  have hmeans := fit_means E grid _ _ _ fo S R h1 hfin a
  have := congrArg (·[k]?) hmeans
  simp only [List.getElem?_map, hpost k hk hkn, Option.map_some, Cell.get?] at this
  cases hm : (R.means a)[k]? with
  | none => rw [hm] at this; simp at this
  | some m =>
      rw [hm] at this
      obtain rfl : m = mean grid a fun x => (π x * ∏ i, L i x) / ∑ y, π y * ∏ i, L i y := by simpa using this
      refine ⟨_, rfl, fun D hD => mean_close (fun x => div_nonneg (hu x) hs0.le) ?_ h grid a hD⟩
      rw [← Finset.sum_div, div_self hs]

/-- The data are independent draws from one of the distributions that the observation model assigns to the grid points, and no other grid point has the same distribution: then the probability that
the fit has not found this grid point decreases at least geometrically with the number of data points, whatever the time stamps. -/
theorem C96_rate (E : Env ℝ gs) (grid : (a : Fin d) → Fin (gs a) → ℝ) (hE : Regular E) (nm : List String) (vs : List (HVal ℝ)) (hpr : Option (Nest (HPrior ℝ))) (S : FitState ℝ gs) (π : Idx gs → ℝ)
    (hp : PriorMass E.cell S.prior π) (ν : Measure Y) (q : Idx gs → Y → ℝ) (hq : ∀ x, Measurable (q x)) (hq0 : ∀ x y, 0 ≤ q x y) (hqi : ∀ x, Integrable (q x) ν) (hq1 : ∀ x, ∫ y, q x y ∂ν = 1)
    (x0 : Idx gs) (hπ0 : 0 < π x0) (hne : ∀ x, x ≠ x0 → ¬ q x =ᵐ[ν] q x0) (P : Measure Ω) (X : ℕ → Ω → Y) (hX : IID P X (ν.withDensity fun y => ENNReal.ofReal (q x0 y))) (fo : Bool) :
    ∃ C ρ : ℝ, 0 ≤ ρ ∧ ρ < 1 ∧ ∀ (n : ℕ) (ε : ℝ), 0 < ε → ε ≤ 1 →
      P {ω | ¬ ∀ ts : List ℝ, ts.length = n + 1 → Finds grid x0 n fo ε (fit E grid (.leaf .static nm vs hpr) (List.ofFn fun (i : Fin (n + 1)) x => q x (X i ω)) ts fo false S)} ≤
        ENNReal.ofReal (C / Real.sqrt ε * ρ ^ (n + 1)) := by
  have := hE.nonempty
  obtain ⟨C, ρ, -, h2, h3, h4⟩ := odds_bound hX.measurable hX.indep hq hq0 hqi hq1 hne hX.law (priorMass_nonneg (cell_pos hE.lattice_pos) hp) hπ0
  refine ⟨C, ρ, h2, h3, fun n ε hε hε1 => (measure_mono fun ω hω => ?_).trans (h4 (n + 1) ε hε)⟩
  intro hc
  refine hω fun ts hts => finds_of_high hE hp _ (fun i x => hq0 _ _) ts hts fo hε1 ?_
  simpa only [Finset.prod_range] using hc

/-- **C96.** With probability one, the fit of a static model finds the true parameter values as the number of data points grows: for every `ε`, all fits of sufficiently many data points have found
them up to `ε`. -/
theorem C96 (E : Env ℝ gs) (grid : (a : Fin d) → Fin (gs a) → ℝ) (hE : Regular E) (nm : List String) (vs : List (HVal ℝ)) (hpr : Option (Nest (HPrior ℝ))) (S : FitState ℝ gs) (π : Idx gs → ℝ)
    (hp : PriorMass E.cell S.prior π) (ν : Measure Y) (q : Idx gs → Y → ℝ) (hq : ∀ x, Measurable (q x)) (hq0 : ∀ x y, 0 ≤ q x y) (hqi : ∀ x, Integrable (q x) ν) (hq1 : ∀ x, ∫ y, q x y ∂ν = 1)
    (x0 : Idx gs) (hπ0 : 0 < π x0) (hne : ∀ x, x ≠ x0 → ¬ q x =ᵐ[ν] q x0) (P : Measure Ω) (X : ℕ → Ω → Y) (hX : IID P X (ν.withDensity fun y => ENNReal.ofReal (q x0 y))) (fo : Bool) :
    ∀ᵐ ω ∂P, ∀ ε, 0 < ε → ∃ N, ∀ n ≥ N, ∀ ts : List ℝ, ts.length = n + 1 →
      Finds grid x0 n fo ε (fit E grid (.leaf .static nm vs hpr) (List.ofFn fun (i : Fin (n + 1)) x => q x (X i ω)) ts fo false S) := by
  obtain ⟨C, ρ, h2, h3, h4⟩ := C96_rate E grid hE nm vs hpr S π hp ν q hq hq0 hqi hq1 x0 hπ0 hne P X hX fo
  have key : ∀ j : ℕ, ∀ᵐ ω ∂P, ∃ N, ∀ n ≥ N, ∀ ts : List ℝ, ts.length = n + 1 →
      Finds grid x0 n fo (1 / ((j : ℝ) + 1)) (fit E grid (.leaf .static nm vs hpr) (List.ofFn fun (i : Fin (n + 1)) x => q x (X i ω)) ts fo false S) := by
    intro j
    have hj : 0 < 1 / ((j : ℝ) + 1) := by positivity
    have hj1 : 1 / ((j : ℝ) + 1) ≤ 1 := by rw [div_le_one (by positivity)]; linarith [(Nat.cast_nonneg j : (0 : ℝ) ≤ j)]
    have hsum : Summable fun n : ℕ => C / Real.sqrt (1 / ((j : ℝ) + 1)) * ρ ^ (n + 1) :=
      ((summable_nat_add_iff 1).2 (summable_geometric_of_lt_one h2 h3)).mul_left _
    have := ae_eventually_notMem (ne_top_of_le_ne_top hsum.tsum_ofReal_ne_top (ENNReal.tsum_le_tsum fun n => h4 n _ hj hj1))
    filter_upwards [this] with ω hω
    obtain ⟨N, hN⟩ := Filter.eventually_atTop.1 hω
    exact ⟨N, fun n hn => not_not.1 (hN n hn)⟩
  filter_upwards [ae_all_iff.2 key] with ω hω ε hε
  obtain ⟨j, hj⟩ := exists_nat_one_div_lt hε
  obtain ⟨N, hN⟩ := hω j
  refine ⟨N, fun n hn ts hts => ?_⟩
  obtain ⟨R, h1, h2⟩ := hN n hn ts hts
  refine ⟨R, h1, fun k hk hkn => ?_⟩
  obtain ⟨p, h3, h4, h5⟩ := h2 k hk hkn
  refine ⟨p, h3, by linarith, fun a => ?_⟩
  obtain ⟨m, h6, h7⟩ := h5 a
  exact ⟨m, h6, fun D hD => (h7 D hD).trans (mul_le_mul_of_nonneg_right hj.le ((abs_nonneg _).trans (hD (x0 a))))⟩

/-- **C96 (Gaussian, Laplace, WhiteNoise).** With the built-in observation models for real-valued data: pairwise different parameter values with positive widths are sufficient. -/
theorem C96_real (E : Env ℝ gs) (grid : (a : Fin d) → Fin (gs a) → ℝ) (hE : Regular E) (nm : List String) (vs : List (HVal ℝ)) (hpr : Option (Nest (HPrior ℝ))) (S : FitState ℝ gs) (π : Idx gs → ℝ)
    (hp : PriorMass E.cell S.prior π) (m : OM) (hm : m = .gaussian ∨ m = .laplace ∨ m = .whiteNoise) (hd : d = m.nParameters) (hgrid : ∀ a, Function.Injective (grid a))
    (hadm : ∀ x, Admissible m (gridPoint grid x)) (x0 : Idx gs) (hπ0 : 0 < π x0) (P : Measure Ω) (X : ℕ → Ω → ℝ)
    (hX : IID P X (volume.withDensity fun y => ENNReal.ofReal (textbook m (gridPoint grid x0) 0 y))) (fo : Bool) :
    ∀ᵐ ω ∂P, ∀ ε, 0 < ε → ∃ N, ∀ n ≥ N, ∀ ts : List ℝ, ts.length = n + 1 →
      Finds grid x0 n fo ε (fit E grid (.leaf .static nm vs hpr) (List.ofFn fun i : Fin (n + 1) => m.likelihood grid (.flat [some (X i ω)])) ts fo false S) := by
  have hm' : RealValued m := by rcases hm with rfl | rfl | rfl <;> simp [RealValued]
  have hseg : ∀ y : ℝ, (dataSegment m 0 y).map some = [some y] := by
    intro y; rcases hm with rfl | rfl | rfl <;> simp [dataSegment, OM.segmentLength]
  have hlik : ∀ y x, m.likelihood grid (.flat [some y]) x = textbook m (gridPoint grid x) 0 y := fun y x => by
    rw [← (C57 m hm' grid x (hadm x) 0).1 y, hseg]
  have hden : ∀ x, IsDensity fun y => textbook m (gridPoint grid x) 0 y := fun x => by
    have := (C57 m hm' grid x (hadm x) 0).2
    simpa only [hseg, hlik] using this
  have hcont : ∀ x, Continuous fun y => textbook m (gridPoint grid x) 0 y := by
    intro x
    rcases hm with rfl | rfl | rfl
    · exact normal_continuous _ _
    · exact laplace_continuous _ _
    · exact normal_continuous _ _
  have hfit : ∀ (n : ℕ) ω, (List.ofFn fun i : Fin (n + 1) => m.likelihood grid (.flat [some (X i ω)])) = List.ofFn fun (i : Fin (n + 1)) x => textbook m (gridPoint grid x) 0 (X i ω) := by
    intro n ω
    congr 1
    funext i x
    exact hlik _ _
  simp only [hfit]
  refine C96 E grid hE nm vs hpr S π hp volume (fun x y => textbook m (gridPoint grid x) 0 y) (fun x => (hcont x).measurable) (fun x => (hden x).nonneg) (fun x => (hden x).integrable) (fun x => (hden x).total) x0 hπ0
    (fun x hx h => hx ?_) P X hX fo
  have heq := ((hcont x).ae_eq_iff_eq volume (hcont x0)).1 h
  -- the values of all parameters agree
  have hpar : ∀ a < d, gridPoint grid x a = gridPoint grid x0 a := by
    intro a ha
    rcases hm with rfl | rfl | rfl
    · obtain ⟨e1, e2⟩ := normal_inj (hadm x) (hadm x0) heq
      have ha := ha.trans_eq hd
      simp only [OM.nParameters] at ha
      interval_cases a
      · exact e1
      · exact e2
    · obtain ⟨e1, e2⟩ := laplace_inj (hadm x) (hadm x0) heq
      have ha := ha.trans_eq hd
      simp only [OM.nParameters] at ha
      interval_cases a
      · exact e1
      · exact e2
    · obtain ⟨-, e2⟩ := normal_inj (hadm x) (hadm x0) heq
      have ha := ha.trans_eq hd
      simp only [OM.nParameters] at ha
      interval_cases a
      exact e2
  funext a
  have := hpar a a.isLt
  rw [gridPoint, gridPoint, dif_pos a.isLt, dif_pos a.isLt] at this
  exact hgrid a this

/-- **C96 for discrete observations** -/
theorem C96_discrete [Countable Y] [MeasurableSingletonClass Y] (E : Env ℝ gs) (grid : (a : Fin d) → Fin (gs a) → ℝ) (hE : Regular E) (nm : List String) (vs : List (HVal ℝ)) (hpr : Option (Nest (HPrior ℝ))) (S : FitState ℝ gs)
    (π : Idx gs → ℝ) (hp : PriorMass E.cell S.prior π) (q : Idx gs → Y → ℝ) (hq0 : ∀ x y, 0 ≤ q x y) (hq1 : ∀ x, HasSum (q x) 1) (x0 : Idx gs) (hπ0 : 0 < π x0) (hne : ∀ x, x ≠ x0 → q x ≠ q x0)
    (P : Measure Ω) (X : ℕ → Ω → Y) (hX : ∀ i, Measurable (X i)) (hind : iIndepFun X P) (hlaw : ∀ i y, P {ω | X i ω = y} = ENNReal.ofReal (q x0 y)) (fo : Bool) :
    ∀ᵐ ω ∂P, ∀ ε, 0 < ε → ∃ N, ∀ n ≥ N, ∀ ts : List ℝ, ts.length = n + 1 →
      Finds grid x0 n fo ε (fit E grid (.leaf .static nm vs hpr) (List.ofFn fun (i : Fin (n + 1)) x => q x (X i ω)) ts fo false S) := by
  have hint : ∀ x, Integrable (q x) Measure.count := fun x => integrable_count_iff.2 (by simpa [abs_of_nonneg (hq0 x _)] using (hq1 x).summable)
  have hlaw' : ∀ i, P.map (X i) = Measure.count.withDensity fun y => ENNReal.ofReal (q x0 y) := by
    intro i
    refine Measure.ext_of_singleton fun y => ?_
    rw [Measure.map_apply (hX i) (measurableSet_singleton y), withDensity_apply _ (measurableSet_singleton y)]
    simp only [Measure.restrict_singleton, Measure.count_singleton, one_smul, lintegral_dirac]
    exact hlaw i y
  refine C96 E grid hE nm vs hpr S π hp Measure.count q (fun x => measurable_of_countable _) hq0 hint (fun x => ?_) x0 hπ0 (fun x hx h => hne x hx ?_) P X ⟨hX, hind, hlaw'⟩ fo
  · rw [integral_countable (hint x)]
    simpa using (hq1 x).tsum_eq
  · rw [Filter.EventuallyEq, Measure.ae_count_iff] at h
    exact funext h

/-- **C96 (Poisson).** -/
theorem C96_poisson {gs : Fin 1 → ℕ} (E : Env ℝ gs) (grid : (a : Fin 1) → Fin (gs a) → ℝ) (hE : Regular E) (nm : List String) (vs : List (HVal ℝ)) (hpr : Option (Nest (HPrior ℝ))) (S : FitState ℝ gs) (π : Idx gs → ℝ)
    (hp : PriorMass E.cell S.prior π) (hgrid : Function.Injective (grid 0)) (hpos : ∀ i, 0 ≤ grid 0 i) (x0 : Idx gs) (hπ0 : 0 < π x0)
    (P : Measure Ω) (X : ℕ → Ω → ℕ) (hX : ∀ i, Measurable (X i)) (hind : iIndepFun X P) (hlaw : ∀ i k, P {ω | X i ω = k} = ENNReal.ofReal (poissonMass (grid 0 (x0 0)) k)) (fo : Bool) :
    ∀ᵐ ω ∂P, ∀ ε, 0 < ε → ∃ N, ∀ n ≥ N, ∀ ts : List ℝ, ts.length = n + 1 →
      Finds grid x0 n fo ε (fit E grid (.leaf .static nm vs hpr) (List.ofFn fun i : Fin (n + 1) => OM.poisson.likelihood grid (.flat [some (X i ω : ℝ)])) ts fo false S) := by
  have hpt : ∀ x : Idx gs, gridPoint grid x 0 = grid 0 (x 0) := fun x => by rw [gridPoint, dif_pos (by norm_num)]; rfl
  have hv := fun x : Idx gs => C56_poisson grid x (by rw [hpt]; exact hpos _)
  refine C96_discrete E grid hE nm vs hpr S π hp (fun x (k : ℕ) => OM.poisson.likelihood grid (.flat [some (k : ℝ)]) x) (fun x k => (hv x).2.1 k) (fun x => (hv x).2.2) x0 hπ0 (fun x hx h => hx ?_) P X hX hind
    (fun i k => ?_) fo
  · have h0 := congrFun h 0
    simp only [(hv _).1, hpt, poissonMass] at h0
    have : grid 0 (x 0) = grid 0 (x0 0) := by simpa using h0
    funext a
    rw [Subsingleton.elim a 0]
    exact hgrid this
  · rw [(hv x0).1, hpt]; exact hlaw i k

/-- **C96 (Bernoulli).** -/
theorem C96_bernoulli {gs : Fin 1 → ℕ} (E : Env ℝ gs) (grid : (a : Fin 1) → Fin (gs a) → ℝ) (hE : Regular E) (nm : List String) (vs : List (HVal ℝ)) (hpr : Option (Nest (HPrior ℝ))) (S : FitState ℝ gs) (π : Idx gs → ℝ)
    (hp : PriorMass E.cell S.prior π) (hgrid : Function.Injective (grid 0)) (h0 : ∀ i, 0 ≤ grid 0 i) (h1 : ∀ i, grid 0 i ≤ 1) (x0 : Idx gs) (hπ0 : 0 < π x0)
    (P : Measure Ω) (X : ℕ → Ω → Fin 2) (hX : ∀ i, Measurable (X i)) (hind : iIndepFun X P) (hlaw : ∀ i, P {ω | X i ω = 1} = ENNReal.ofReal (grid 0 (x0 0))) (fo : Bool) :
    ∀ᵐ ω ∂P, ∀ ε, 0 < ε → ∃ N, ∀ n ≥ N, ∀ ts : List ℝ, ts.length = n + 1 →
      Finds grid x0 n fo ε (fit E grid (.leaf .static nm vs hpr) (List.ofFn fun i : Fin (n + 1) => OM.bernoulli.likelihood grid (.flat [some ((X i ω).val : ℝ)])) ts fo false S) := by
  have hprob : IsProbabilityMeasure P := hind.isProbabilityMeasure
  have hpt : ∀ x : Idx gs, gridPoint grid x 0 = grid 0 (x 0) := fun x => by rw [gridPoint, dif_pos (by norm_num)]; rfl
  have hv := fun x : Idx gs => C56_bernoulli grid x (by rw [hpt]; exact h0 _) (by rw [hpt]; exact h1 _)
  have hone : ∀ x, OM.bernoulli.likelihood grid (.flat [some (((1 : Fin 2).val : ℕ) : ℝ)]) x = grid 0 (x 0) := fun x => by
    have := (hv x).1; rw [hpt] at this; simpa using this
  have hzero : ∀ x, OM.bernoulli.likelihood grid (.flat [some (((0 : Fin 2).val : ℕ) : ℝ)]) x = 1 - grid 0 (x 0) := fun x => by
    have := (hv x).2.1; rw [hpt] at this; simpa using this
  refine C96_discrete E grid hE nm vs hpr S π hp (fun x (k : Fin 2) => OM.bernoulli.likelihood grid (.flat [some (k.val : ℝ)]) x) (fun x k => ?_) (fun x => ?_) x0 hπ0 (fun x hx h => hx ?_) P X hX hind
    (fun i k => ?_) fo
  · fin_cases k
    · exact (hzero x).symm ▸ sub_nonneg.2 (h1 _)
    · exact (hone x).symm ▸ h0 _
  · have := hasSum_fintype fun k : Fin 2 => OM.bernoulli.likelihood grid (.flat [some (k.val : ℝ)]) x
    rw [Fin.sum_univ_two, hone, hzero] at this
    simpa using this
  · have h0 := congrFun h 1
    simp only [hone] at h0
    funext a
    rw [Subsingleton.elim a 0]
    exact hgrid h0
  · fin_cases k
    · have hcompl : {ω | X i ω = (0 : Fin 2)} = {ω | X i ω = 1}ᶜ := by
        ext ω
        simp only [Set.mem_ofPred_eq, Set.mem_compl_iff]
        omega
      change P {ω | X i ω = (0 : Fin 2)} = ENNReal.ofReal (OM.bernoulli.likelihood grid (.flat [some (((0 : Fin 2).val : ℕ) : ℝ)]) x0)
      rw [hcompl, prob_compl_eq_one_sub (s := {ω | X i ω = 1}) (hX i (measurableSet_singleton 1)), hlaw i, hzero, ENNReal.ofReal_sub _ (h0 _), ENNReal.ofReal_one]
    · change P {ω | X i ω = (1 : Fin 2)} = ENNReal.ofReal (OM.bernoulli.likelihood grid (.flat [some (((1 : Fin 2).val : ℕ) : ℝ)]) x0)
      rw [hone]; exact hlaw i

/-- a study with one parameter with the values 1, 2, 3 -/
noncomputable def _root_.Ex.realEnv : Env ℝ Ex.gs3 := ⟨fun _ => "x", fun _ => 1, .none, realExt 2 fun _ _ p => p⟩

/-- The hypotheses are met: independent data exist; here for Poisson with the rates 1, 2, 3, where 2 is true. -/
example : ∃ (Ω : Type) (_ : MeasurableSpace Ω) (P : Measure Ω) (X : ℕ → Ω → ℕ), IsProbabilityMeasure P ∧ ∀ᵐ ω ∂P, ∀ ε, 0 < ε → ∃ N, ∀ n ≥ N, ∀ ts : List ℝ, ts.length = n + 1 →
    Finds (fun _ (i : Fin 3) => (i.val : ℝ) + 1) (fun _ => 1) n false ε
      (fit Ex.realEnv (fun _ (i : Fin 3) => (i.val : ℝ) + 1) (.leaf .static [] [] none) (List.ofFn fun i : Fin (n + 1) => OM.poisson.likelihood (gs := Ex.gs3) (fun _ (i : Fin 3) => (i.val : ℝ) + 1) (.flat [some (X i ω : ℝ)]))
        ts false false (FitState.init .none)) := by
  obtain ⟨Ω, hΩ, P, X, h1, h2, h3, h4⟩ := exists_iid ℕ (poissonMeasure 2)
  have hreg : Regular Ex.realEnv := ⟨fun _ => one_pos, ⟨fun _ => ⟨0, by simp [Ex.gs3]⟩⟩, realExt_gaussOK _ _⟩
  refine ⟨Ω, hΩ, P, X, h4, C96_poisson Ex.realEnv (fun _ (i : Fin 3) => (i.val : ℝ) + 1) hreg [] [] none _ _ .flat ?_ ?_ (fun _ => (1 : Fin 3)) ?_ P X h1 h3 ?_ false⟩
  · intro i j hij
    exact Fin.ext (by exact_mod_cast add_right_cancel hij)
  · intro i; positivity
  · have := hreg.nonempty
    positivity
  · intro i k
    rw [(h2 i).measure_eq (p := fun y => y = k) (measurableSet_singleton k)]
    refine (poissonMeasure_singleton 2 k).trans ?_
    congr 1
    norm_num [poissonMass]

/-- … and for Laplace-distributed data with mean 0 and scale 2 -/
example : ∃ (Ω : Type) (_ : MeasurableSpace Ω) (P : Measure Ω) (X : ℕ → Ω → ℝ), IID P X (volume.withDensity fun y => ENNReal.ofReal (laplaceDensity 0 2 y)) := by
  have hden := laplace_isDensity (b := 2) two_pos 0
  have : IsProbabilityMeasure (volume.withDensity fun y => ENNReal.ofReal (laplaceDensity 0 2 y)) := by
    constructor
    rw [withDensity_apply _ MeasurableSet.univ, Measure.restrict_univ, ← ofReal_integral_eq_lintegral_ofReal hden.integrable (.of_forall hden.nonneg), hden.total, ENNReal.ofReal_one]
  obtain ⟨Ω, hΩ, P, X, h1, h2, h3, h4⟩ := exists_iid ℕ (volume.withDensity fun y => ENNReal.ofReal (laplaceDensity 0 2 y))
  exact ⟨Ω, hΩ, P, X, h1, h3, fun i => (h2 i).map_eq⟩

end Props
