import Verif.Lemmas.BestFit
import Verif.Props.C96
import Mathlib.Analysis.Complex.ExponentialBounds

/-! # C107: more data find the parameter values that describe the data best, also if none of them is true -/

set_option linter.unusedSectionVars false

open MeasureTheory ProbabilityTheory Filter
open scoped ENNReal Topology

namespace Spec
open BL
variable {d : ℕ} {gs : Fin d → ℕ}

/-- `Collects M n fo ε r`: the fit `r` of `n + 1` data points gives the grid points in `M` together a posterior probability above `1 - ε`; at all time steps, for forward-only fits at the last one. -/
def Collects (M : Finset (Idx gs)) (n : ℕ) (fo : Bool) (ε : ℝ) (r : Except PyErr (FitState ℝ gs)) : Prop :=
  ∃ R, r = .ok R ∧ ∀ k ≤ n, (fo = true → k = n) → ∃ p, R.posts[k]? = some (.val p) ∧ 1 - ε < ∑ x ∈ M, p x

/-- how badly the observation `y` is described by the parameter values `θ` (negative logarithm of the likelihood, without terms that do not depend on `θ`) -/
noncomputable def misfit (m : OM) (θ : ℕ → ℝ) (y : ℝ) : ℝ :=
  match m with
  | .gaussian => Real.log (θ 1) + (y - θ 0) ^ 2 / (2 * θ 1 ^ 2)
  | .laplace => Real.log (θ 1) + |y - θ 0| / θ 1
  | .whiteNoise => Real.log (θ 0) + y ^ 2 / (2 * θ 0 ^ 2)
  | .poisson => θ 0 - y * Real.log (θ 0)
  | .bernoulli => -Real.log (if y = 1 then θ 0 else 1 - θ 0)
  | _ => 0

end Spec

namespace Props
open BL Spec
variable {d : ℕ} {gs : Fin d → ℕ} {Ω Y : Type} [MeasurableSpace Ω] [MeasurableSpace Y]

/-- posterior distributions of a static model -/
theorem static_posts {E : Env ℝ gs} {grid : (a : Fin d) → Fin (gs a) → ℝ} (hE : Regular E) {nm : List String} {vs : List (HVal ℝ)} {hpr : Option (Nest (HPrior ℝ))} {S : FitState ℝ gs} {π : Idx gs → ℝ}
    (hp : PriorMass E.cell S.prior π) {n : ℕ} (L : Fin (n + 1) → Idx gs → ℝ) (hL0 : ∀ i x, 0 ≤ L i x) (ts : List ℝ) (hts : ts.length = n + 1) (fo : Bool) (hs : (∑ x, π x * ∏ i, L i x) ≠ 0) :
    ∃ R, fit E grid (.leaf .static nm vs hpr) (List.ofFn L) ts fo false S = .ok R ∧
      ∀ k ≤ n, (fo = true → k = n) → R.posts[k]? = some (.val fun x => (π x * ∏ i, L i x) / ∑ y, π y * ∏ i, L i y) := by
  obtain ⟨R, h1, h2, h3⟩ := static_fit (grid := grid) hE hp (nm := nm) (vs := vs) (hpr := hpr) (Ls := List.ofFn L) (ts := ts) (by simp [List.ofFn_succ]) (by simpa using hts)
    (by intro l hl x; obtain ⟨i, rfl⟩ := List.mem_ofFn.1 hl; exact hL0 i x) fo false
  simp only [prod_ofFn_apply] at h2 h3
  obtain ⟨hf, ht⟩ := h3 hs trivial
  refine ⟨R, h1, fun k hk hkn => ?_⟩
  cases fo with
  | false =>
      rw [(hf rfl).1, List.getElem?_replicate, if_pos (by simpa using by omega)]
  | true =>
      obtain rfl := hkn rfl
      have htake : (List.ofFn L).take (k + 1) = List.ofFn L := List.take_of_length_le (by simp)
      rw [ht rfl, List.getElem?_map, List.getElem?_range (by simp)]
      simp only [Option.map_some, htake, prod_ofFn_apply]

/-- **C107 (several best values).** Independent data with any distribution `μ`, which need not be one of those that the observation model assigns to the grid points; a static model.  Let `x0` be a grid point with positive prior
probability that excludes none of the data, and `M` a set of grid points such that all grid points outside of it (with positive prior probability) describe the data worse than `x0`.  With probability one, the posterior
probability of `M` tends to one as the number of data points grows, whatever the time stamps. -/
theorem C107_set (E : Env ℝ gs) (grid : (a : Fin d) → Fin (gs a) → ℝ) (hE : Regular E) (nm : List String) (vs : List (HVal ℝ)) (hpr : Option (Nest (HPrior ℝ))) (S : FitState ℝ gs) (π : Idx gs → ℝ)
    (hp : PriorMass E.cell S.prior π) (μ : Measure Y) (q : Idx gs → Y → ℝ) (hq : ∀ x, Measurable (q x)) (hq0 : ∀ x y, 0 ≤ q x y) (M : Finset (Idx gs)) (x0 : Idx gs) (hπ0 : 0 < π x0)
    (hpos : ∀ᵐ y ∂μ, 0 < q x0 y) (hM : ∀ x, x ∉ M → π x = 0 ∨ Worse μ (q x) (q x0)) (P : Measure Ω) (X : ℕ → Ω → Y) (hX : IID P X μ) (fo : Bool) :
    ∀ᵐ ω ∂P, ∀ ε, 0 < ε → ∃ N, ∀ n ≥ N, ∀ ts : List ℝ, ts.length = n + 1 →
      Collects M n fo ε (fit E grid (.leaf .static nm vs hpr) (List.ofFn fun (i : Fin (n + 1)) x => q x (X i ω)) ts fo false S) := by
  have := hE.nonempty
  have hπ := priorMass_nonneg (cell_pos hE.lattice_pos) hp
  filter_upwards [mass_tendsto hX hq hq0 hπ M hπ0 hpos hM] with ω hω ε hε
  obtain ⟨N, hN⟩ := eventually_atTop.1 (hω.eventually (lt_mem_nhds (show max (1 - ε) 0 < 1 by simpa using hε)))
  refine ⟨N, fun n hn ts hts => ?_⟩
  have h1 := hN (n + 1) (by omega)
  simp only [Finset.prod_range] at h1
  have hs : (∑ x, π x * ∏ i : Fin (n + 1), q x (X i ω)) ≠ 0 := by
    intro h0
    rw [h0, div_zero] at h1
    exact absurd h1 (not_lt.2 (le_max_right _ _))
  obtain ⟨R, h2, h3⟩ := static_posts (grid := grid) hE hp (nm := nm) (vs := vs) (hpr := hpr) (fun (i : Fin (n + 1)) x => q x (X i ω)) (fun i x => hq0 _ _) ts hts fo hs
  refine ⟨R, h2, fun k hk hkn => ⟨_, h3 k hk hkn, ?_⟩⟩
  rw [← Finset.sum_div]
  exact (le_max_left _ _).trans_lt h1

/-- **C107.** If one grid point describes the data better than all others, then with probability one the fit of a static model finds it as the number of data points grows: its posterior probability tends to one, the mean values tend to
its parameter values.  No grid point needs to be true. -/
theorem C107 (E : Env ℝ gs) (grid : (a : Fin d) → Fin (gs a) → ℝ) (hE : Regular E) (nm : List String) (vs : List (HVal ℝ)) (hpr : Option (Nest (HPrior ℝ))) (S : FitState ℝ gs) (π : Idx gs → ℝ)
    (hp : PriorMass E.cell S.prior π) (μ : Measure Y) (q : Idx gs → Y → ℝ) (hq : ∀ x, Measurable (q x)) (hq0 : ∀ x y, 0 ≤ q x y) (x0 : Idx gs) (hπ0 : 0 < π x0)
    (hpos : ∀ᵐ y ∂μ, 0 < q x0 y) (hM : ∀ x, x ≠ x0 → π x = 0 ∨ Worse μ (q x) (q x0)) (P : Measure Ω) (X : ℕ → Ω → Y) (hX : IID P X μ) (fo : Bool) :
    ∀ᵐ ω ∂P, ∀ ε, 0 < ε → ∃ N, ∀ n ≥ N, ∀ ts : List ℝ, ts.length = n + 1 →
      Finds grid x0 n fo ε (fit E grid (.leaf .static nm vs hpr) (List.ofFn fun (i : Fin (n + 1)) x => q x (X i ω)) ts fo false S) := by
  classical
  have := hE.nonempty
  have hπ := priorMass_nonneg (cell_pos hE.lattice_pos) hp
  filter_upwards [mass_tendsto hX hq hq0 hπ {x0} hπ0 hpos (fun x hx => hM x (by simpa using hx))] with ω hω ε hε
  have hmin : 0 < min ε 1 := lt_min hε one_pos
  obtain ⟨N, hN⟩ := eventually_atTop.1 (hω.eventually (lt_mem_nhds (show 1 - min ε 1 < 1 by linarith)))
  refine ⟨N, fun n hn ts hts => ?_⟩
  have h1 := hN (n + 1) (by omega)
  simp only [Finset.prod_range, Finset.sum_singleton] at h1
  obtain ⟨R, h2, h3⟩ := finds_of_high (grid := grid) hE (nm := nm) (vs := vs) (hpr := hpr) hp (fun (i : Fin (n + 1)) x => q x (X i ω)) (fun i x => hq0 _ _) ts hts fo (min_le_right ε 1) h1
  refine ⟨R, h2, fun k hk hkn => ?_⟩
  obtain ⟨p, h4, h5, h6⟩ := h3 k hk hkn
  refine ⟨p, h4, by linarith [min_le_left ε 1], fun a => ?_⟩
  obtain ⟨m, h7, h8⟩ := h6 a
  exact ⟨m, h7, fun D hD => (h8 D hD).trans (mul_le_mul_of_nonneg_right (min_le_left _ _) ((abs_nonneg _).trans (hD (x0 a))))⟩

/-- **C107 (evidence).** In the same situation (now some grid points may describe the data as well as `x0`) the log-evidence per data point tends to the expected logarithm of the likelihood at `x0`. -/
theorem C107_evidence (E : Env ℝ gs) (grid : (a : Fin d) → Fin (gs a) → ℝ) (hE : Regular E) (nm : List String) (vs : List (HVal ℝ)) (hpr : Option (Nest (HPrior ℝ))) (S : FitState ℝ gs) (π : Idx gs → ℝ)
    (hp : PriorMass E.cell S.prior π) (μ : Measure Y) (q : Idx gs → Y → ℝ) (hq : ∀ x, Measurable (q x)) (hq0 : ∀ x y, 0 ≤ q x y) (x0 : Idx gs) (hπ0 : 0 < π x0)
    (hpos : ∀ᵐ y ∂μ, 0 < q x0 y) (hi : Integrable (fun y => Real.log (q x0 y)) μ) (hM : ∀ x, π x = 0 ∨ NotBetter μ (q x) (q x0)) (P : Measure Ω) (X : ℕ → Ω → Y) (hX : IID P X μ) :
    ∀ᵐ ω ∂P, ∀ ε, 0 < ε → ∃ N, ∀ n ≥ N, ∀ (ts : List ℝ) (fo eo : Bool), ts.length = n + 1 →
      ∃ R, fit E grid (.leaf .static nm vs hpr) (List.ofFn fun (i : Fin (n + 1)) x => q x (X i ω)) ts fo eo S = .ok R ∧ 0 < R.logEv.exp ∧
        |Real.log R.logEv.exp / (n + 1 : ℕ) - ∫ y, Real.log (q x0 y) ∂μ| < ε := by
  have := hE.nonempty
  have hπ := priorMass_nonneg (cell_pos hE.lattice_pos) hp
  filter_upwards [evidence_rate hX hq hq0 hπ hπ0 hpos hi hM] with ω hω ε hε
  obtain ⟨h1, h2⟩ := hω
  obtain ⟨N, hN⟩ := Metric.tendsto_atTop.1 h2 ε hε
  refine ⟨N, fun n hn ts fo eo hts => ?_⟩
  obtain ⟨R, h3, h4, -⟩ := static_fit (grid := grid) hE hp (nm := nm) (vs := vs) (hpr := hpr) (Ls := List.ofFn fun (i : Fin (n + 1)) x => q x (X i ω)) (ts := ts) (by simp [List.ofFn_succ]) (by simpa using hts)
    (by intro l hl x; obtain ⟨i, rfl⟩ := List.mem_ofFn.1 hl; exact hq0 _ _) fo eo
  have h5 := hN (n + 1) (by omega)
  have h6 := h1 (n + 1)
  simp only [prod_ofFn_apply] at h4
  simp only [Finset.prod_range] at h5 h6
  refine ⟨R, h3, h4 ▸ h6, ?_⟩
  rw [h4]
  exact h5

/-- **C107 (comparison).** Two studies with static models analyse the same data with different observation models, grids and priors.  If the best grid point of the second one describes the data better on average than the best one of
the first, then with probability one the ratio of the first to the second evidence tends to zero: the evidence selects the better description. -/
theorem C107_compare {d' : ℕ} {gs' : Fin d' → ℕ} (E : Env ℝ gs) (grid : (a : Fin d) → Fin (gs a) → ℝ) (hE : Regular E) (nm : List String) (vs : List (HVal ℝ)) (hpr : Option (Nest (HPrior ℝ))) (S : FitState ℝ gs) (π : Idx gs → ℝ)
    (hp : PriorMass E.cell S.prior π) (E' : Env ℝ gs') (grid' : (a : Fin d') → Fin (gs' a) → ℝ) (hE' : Regular E') (nm' : List String) (vs' : List (HVal ℝ)) (hpr' : Option (Nest (HPrior ℝ))) (S' : FitState ℝ gs') (π' : Idx gs' → ℝ)
    (hp' : PriorMass E'.cell S'.prior π') (μ : Measure Y) (q : Idx gs → Y → ℝ) (hq : ∀ x, Measurable (q x)) (hq0 : ∀ x y, 0 ≤ q x y) (x0 : Idx gs) (hπ0 : 0 < π x0)
    (hpos : ∀ᵐ y ∂μ, 0 < q x0 y) (hi : Integrable (fun y => Real.log (q x0 y)) μ) (hM : ∀ x, π x = 0 ∨ NotBetter μ (q x) (q x0))
    (q' : Idx gs' → Y → ℝ) (hq' : ∀ x, Measurable (q' x)) (hq0' : ∀ x y, 0 ≤ q' x y) (x0' : Idx gs') (hπ0' : 0 < π' x0')
    (hpos' : ∀ᵐ y ∂μ, 0 < q' x0' y) (hi' : Integrable (fun y => Real.log (q' x0' y)) μ) (hM' : ∀ x, π' x = 0 ∨ NotBetter μ (q' x) (q' x0'))
    (hlt : ∫ y, Real.log (q x0 y) ∂μ < ∫ y, Real.log (q' x0' y) ∂μ) (P : Measure Ω) (X : ℕ → Ω → Y) (hX : IID P X μ) :
    ∀ᵐ ω ∂P, ∀ ε, 0 < ε → ∃ N, ∀ n ≥ N, ∀ (ts ts' : List ℝ) (fo eo fo' eo' : Bool), ts.length = n + 1 → ts'.length = n + 1 →
      ∃ R R', fit E grid (.leaf .static nm vs hpr) (List.ofFn fun (i : Fin (n + 1)) x => q x (X i ω)) ts fo eo S = .ok R ∧
        fit E' grid' (.leaf .static nm' vs' hpr') (List.ofFn fun (i : Fin (n + 1)) x => q' x (X i ω)) ts' fo' eo' S' = .ok R' ∧ 0 < R'.logEv.exp ∧ R.logEv.exp / R'.logEv.exp < ε := by
  have := hE.nonempty
  have hπ := priorMass_nonneg (cell_pos hE.lattice_pos) hp
  have := hE'.nonempty
  have hπ' := priorMass_nonneg (cell_pos hE'.lattice_pos) hp'
  filter_upwards [evidence_rate hX hq hq0 hπ hπ0 hpos hi hM, evidence_rate hX hq' hq0' hπ' hπ0' hpos' hi' hM'] with ω hω hω' ε hε
  obtain ⟨N, hN⟩ := eventually_atTop.1 ((rate_compare hω.1 hω'.1 hlt hω.2 hω'.2).eventually (gt_mem_nhds hε))
  refine ⟨N, fun n hn ts ts' fo eo fo' eo' hts hts' => ?_⟩
  obtain ⟨R, h3, h4, -⟩ := static_fit (grid := grid) hE hp (nm := nm) (vs := vs) (hpr := hpr) (Ls := List.ofFn fun (i : Fin (n + 1)) x => q x (X i ω)) (ts := ts) (by simp [List.ofFn_succ]) (by simpa using hts)
    (by intro l hl x; obtain ⟨i, rfl⟩ := List.mem_ofFn.1 hl; exact hq0 _ _) fo eo
  obtain ⟨R', h3', h4', -⟩ := static_fit (grid := grid') hE' hp' (nm := nm') (vs := vs') (hpr := hpr') (Ls := List.ofFn fun (i : Fin (n + 1)) x => q' x (X i ω)) (ts := ts') (by simp [List.ofFn_succ]) (by simpa using hts')
    (by intro l hl x; obtain ⟨i, rfl⟩ := List.mem_ofFn.1 hl; exact hq0' _ _) fo' eo'
  have h5 := hN (n + 1) (by omega)
  have h6 := hω'.1 (n + 1)
  simp only [prod_ofFn_apply] at h4 h4'
  simp only [Finset.prod_range] at h5 h6
  refine ⟨R, R', h3, h3', h4' ▸ h6, ?_⟩
  rw [h4, h4']
  exact h5

/-- logarithm of the likelihood ratio of the models for real-valued data -/
theorem log_ratio_real {m : OM} (hm : m = .gaussian ∨ m = .laplace ∨ m = .whiteNoise) {θ θ' : ℕ → ℝ} (h : Admissible m θ) (h' : Admissible m θ') (y : ℝ) :
    0 < textbook m θ 0 y ∧ Real.log (textbook m θ 0 y / textbook m θ' 0 y) = misfit m θ' y - misfit m θ y := by
  have key : ∀ {a b s t : ℝ}, 0 < a → 0 < b → Real.log (a * Real.exp s / (b * Real.exp t)) = (Real.log a - Real.log b) + (s - t) := by
    intro a b s t ha hb
    rw [Real.log_div (by positivity) (by positivity), Real.log_mul ha.ne' (Real.exp_ne_zero _), Real.log_mul hb.ne' (Real.exp_ne_zero _), Real.log_exp, Real.log_exp]
    ring
  have hc : 0 < Real.sqrt (2 * Real.pi) := Real.sqrt_pos.2 (by positivity)
  have hlog : ∀ {c σ : ℝ}, 0 < c → 0 < σ → Real.log (1 / (σ * c)) = -Real.log σ - Real.log c := by
    intro c σ hc hσ
    rw [one_div, Real.log_inv, Real.log_mul hσ.ne' hc.ne']
    ring
  rcases hm with rfl | rfl | rfl
  · simp only [Admissible] at h h'
    refine ⟨by simp only [textbook, normalDensity]; positivity, ?_⟩
    simp only [textbook, normalDensity, misfit]
    rw [key (by positivity) (by positivity), hlog hc h, hlog hc h']
    ring
  · simp only [Admissible] at h h'
    refine ⟨by simp only [textbook, laplaceDensity]; positivity, ?_⟩
    simp only [textbook, laplaceDensity, misfit]
    rw [key (by positivity) (by positivity), mul_comm 2 (θ 1), mul_comm 2 (θ' 1), hlog two_pos h, hlog two_pos h']
    ring
  · simp only [Admissible] at h h'
    refine ⟨by simp only [textbook, normalDensity]; positivity, ?_⟩
    simp only [textbook, normalDensity, misfit]
    rw [key (by positivity) (by positivity), hlog hc h, hlog hc h']
    ring

/-- **C107 (Gaussian, Laplace, WhiteNoise).** Independent real-valued data of any distribution `μ` for which the expected misfits are finite: if the expected misfit is smallest at the grid point `x0` (for the Gaussian model
`log σ + E (y - mean)² / (2 σ²)`), the fit finds `x0`. -/
theorem C107_real (E : Env ℝ gs) (grid : (a : Fin d) → Fin (gs a) → ℝ) (hE : Regular E) (nm : List String) (vs : List (HVal ℝ)) (hpr : Option (Nest (HPrior ℝ))) (S : FitState ℝ gs) (π : Idx gs → ℝ)
    (hp : PriorMass E.cell S.prior π) (m : OM) (hm : m = .gaussian ∨ m = .laplace ∨ m = .whiteNoise) (hadm : ∀ x, Admissible m (gridPoint grid x)) (μ : Measure ℝ)
    (hi : ∀ x, Integrable (misfit m (gridPoint grid x)) μ) (x0 : Idx gs) (hπ0 : 0 < π x0)
    (hbest : ∀ x, x ≠ x0 → ∫ y, misfit m (gridPoint grid x0) y ∂μ < ∫ y, misfit m (gridPoint grid x) y ∂μ) (P : Measure Ω) (X : ℕ → Ω → ℝ) (hX : IID P X μ) (fo : Bool) :
    ∀ᵐ ω ∂P, ∀ ε, 0 < ε → ∃ N, ∀ n ≥ N, ∀ ts : List ℝ, ts.length = n + 1 →
      Finds grid x0 n fo ε (fit E grid (.leaf .static nm vs hpr) (List.ofFn fun i : Fin (n + 1) => m.likelihood grid (.flat [some (X i ω)])) ts fo false S) := by
  have hm' : RealValued m := by rcases hm with rfl | rfl | rfl <;> simp [RealValued]
  have hseg : ∀ y : ℝ, (dataSegment m 0 y).map some = [some y] := by
    intro y; rcases hm with rfl | rfl | rfl <;> simp [dataSegment, OM.segmentLength]
  have hlik : ∀ y x, m.likelihood grid (.flat [some y]) x = textbook m (gridPoint grid x) 0 y := fun y x => by
    rw [← (C57 m hm' grid x (hadm x) 0).1 y, hseg]
  have hcont : ∀ x, Continuous fun y => textbook m (gridPoint grid x) 0 y := by
    intro x
    rcases hm with rfl | rfl | rfl
    · exact normal_continuous _ _
    · exact laplace_continuous _ _
    · exact normal_continuous _ _
  have hfit : ∀ (n : ℕ) ω, (List.ofFn fun i : Fin (n + 1) => m.likelihood grid (.flat [some (X i ω)])) = List.ofFn fun (i : Fin (n + 1)) x => textbook m (gridPoint grid x) 0 (X i ω) := by
    intro n ω
    congr 1
    funext i x
    exact hlik _ _
  simp only [hfit]
  refine C107 E grid hE nm vs hpr S π hp μ (fun x y => textbook m (gridPoint grid x) 0 y) (fun x => (hcont x).measurable) (fun x y => (log_ratio_real hm (hadm x) (hadm x) y).1.le) x0 hπ0
    (.of_forall fun y => (log_ratio_real hm (hadm x0) (hadm x0) y).1) (fun x hx => .inr (.inr ?_)) P X hX fo
  simp only [fun y => (log_ratio_real hm (hadm x) (hadm x0) y).2]
  refine ⟨(hi x0).sub (hi x), ?_⟩
  rw [integral_sub (hi x0) (hi x)]
  exact sub_neg.2 (hbest x hx)

/-- **C107 (Poisson).** Numbers of events of any distribution with a finite mean value: the fit finds the rate `r` of the grid for which `r - (mean number of events) · log r` is smallest. -/
theorem C107_poisson {gs : Fin 1 → ℕ} (E : Env ℝ gs) (grid : (a : Fin 1) → Fin (gs a) → ℝ) (hE : Regular E) (nm : List String) (vs : List (HVal ℝ)) (hpr : Option (Nest (HPrior ℝ))) (S : FitState ℝ gs) (π : Idx gs → ℝ)
    (hp : PriorMass E.cell S.prior π) (hgrid : ∀ i, 0 < grid 0 i) (μ : Measure ℕ) (hi : Integrable (fun k : ℕ => (k : ℝ)) μ) (x0 : Idx gs) (hπ0 : 0 < π x0)
    (hbest : ∀ x, x ≠ x0 → grid 0 (x0 0) - (∫ k, (k : ℝ) ∂μ) * Real.log (grid 0 (x0 0)) < grid 0 (x 0) - (∫ k, (k : ℝ) ∂μ) * Real.log (grid 0 (x 0))) (P : Measure Ω) (X : ℕ → Ω → ℕ) (hX : IID P X μ) (fo : Bool) :
    ∀ᵐ ω ∂P, ∀ ε, 0 < ε → ∃ N, ∀ n ≥ N, ∀ ts : List ℝ, ts.length = n + 1 →
      Finds grid x0 n fo ε (fit E grid (.leaf .static nm vs hpr) (List.ofFn fun i : Fin (n + 1) => OM.poisson.likelihood grid (.flat [some (X i ω : ℝ)])) ts fo false S) := by
  have hprob : IsProbabilityMeasure P := hX.indep.isProbabilityMeasure
  have hμ : IsProbabilityMeasure μ := by rw [← hX.law 0]; exact Measure.isProbabilityMeasure_map (hX.measurable 0).aemeasurable
  have hpt : ∀ x : Idx gs, gridPoint grid x 0 = grid 0 (x 0) := fun x => by rw [gridPoint, dif_pos (by norm_num)]; rfl
  have hv : ∀ (x : Idx gs) (k : ℕ), OM.poisson.likelihood grid (.flat [some (k : ℝ)]) x = poissonMass (grid 0 (x 0)) k := fun x k => by
    rw [(C56_poisson grid x (by rw [hpt]; exact (hgrid _).le)).1 k, hpt]
  have hpos : ∀ (x : Idx gs) (k : ℕ), 0 < poissonMass (grid 0 (x 0)) k := fun x k => by
    have := hgrid (x 0)
    rw [poissonMass]; positivity
  refine C107 E grid hE nm vs hpr S π hp μ (fun x (k : ℕ) => OM.poisson.likelihood grid (.flat [some (k : ℝ)]) x) (fun x => measurable_of_countable _) (fun x k => hv x k ▸ (hpos x k).le) x0 hπ0
    (.of_forall fun k => (hv x0 k).symm ▸ hpos x0 k) (fun x hx => .inr (.inr ?_)) P X hX fo
  have hlog : ∀ k : ℕ, Real.log (OM.poisson.likelihood grid (.flat [some (k : ℝ)]) x / OM.poisson.likelihood grid (.flat [some (k : ℝ)]) x0) =
      (grid 0 (x0 0) - grid 0 (x 0)) + (k : ℝ) * (Real.log (grid 0 (x 0)) - Real.log (grid 0 (x0 0))) := by
    intro k
    have h1 := hgrid (x 0)
    have h2 := hgrid (x0 0)
    rw [hv, hv, Real.log_div (hpos x k).ne' (hpos x0 k).ne']
    simp only [poissonMass]
    rw [Real.log_div (by positivity) (by positivity), Real.log_div (by positivity) (by positivity), Real.log_mul (Real.exp_ne_zero _) (by positivity), Real.log_mul (Real.exp_ne_zero _) (by positivity), Real.log_exp,
      Real.log_exp, Real.log_pow, Real.log_pow]
    ring
  simp only [hlog]
  have hi2 := hi.mul_const (Real.log (grid 0 (x 0)) - Real.log (grid 0 (x0 0)))
  refine ⟨(integrable_const _).add hi2, ?_⟩
  rw [integral_add (integrable_const _) hi2, integral_mul_const, integral_const, probReal_univ, one_smul]
  have := hbest x hx
  linarith

/-- **C107 (Bernoulli).** Data with any probability `r` of success: the fit finds the probability `p` of the grid for which the expected logarithm `r · log p + (1 - r) · log (1 - p)` is largest. -/
theorem C107_bernoulli {gs : Fin 1 → ℕ} (E : Env ℝ gs) (grid : (a : Fin 1) → Fin (gs a) → ℝ) (hE : Regular E) (nm : List String) (vs : List (HVal ℝ)) (hpr : Option (Nest (HPrior ℝ))) (S : FitState ℝ gs) (π : Idx gs → ℝ)
    (hp : PriorMass E.cell S.prior π) (h0 : ∀ i, 0 < grid 0 i) (h1 : ∀ i, grid 0 i < 1) (r : ℝ) (x0 : Idx gs) (hπ0 : 0 < π x0)
    (hbest : ∀ x, x ≠ x0 → r * Real.log (grid 0 (x 0)) + (1 - r) * Real.log (1 - grid 0 (x 0)) < r * Real.log (grid 0 (x0 0)) + (1 - r) * Real.log (1 - grid 0 (x0 0)))
    (P : Measure Ω) (X : ℕ → Ω → Fin 2) (hX : ∀ i, Measurable (X i)) (hind : iIndepFun X P) (hlaw : ∀ i, P.real {ω | X i ω = 1} = r) (fo : Bool) :
    ∀ᵐ ω ∂P, ∀ ε, 0 < ε → ∃ N, ∀ n ≥ N, ∀ ts : List ℝ, ts.length = n + 1 →
      Finds grid x0 n fo ε (fit E grid (.leaf .static nm vs hpr) (List.ofFn fun i : Fin (n + 1) => OM.bernoulli.likelihood grid (.flat [some ((X i ω).val : ℝ)])) ts fo false S) := by
  have hprob : IsProbabilityMeasure P := hind.isProbabilityMeasure
  have hpt : ∀ x : Idx gs, gridPoint grid x 0 = grid 0 (x 0) := fun x => by rw [gridPoint, dif_pos (by norm_num)]; rfl
  have hv := fun x : Idx gs => C56_bernoulli grid x (by rw [hpt]; exact (h0 _).le) (by rw [hpt]; exact (h1 _).le)
  have hlik : ∀ (x : Idx gs) (k : Fin 2), OM.bernoulli.likelihood grid (.flat [some (k.val : ℝ)]) x = if k = 1 then grid 0 (x 0) else 1 - grid 0 (x 0) := fun x k => by
    fin_cases k
    · have := (hv x).2.1; rw [hpt] at this; simpa using this
    · have := (hv x).1; rw [hpt] at this; simpa using this
  have hpos : ∀ (x : Idx gs) (k : Fin 2), 0 < if k = 1 then grid 0 (x 0) else 1 - grid 0 (x 0) := fun x k => by
    split
    · exact h0 _
    · exact sub_pos.2 (h1 _)
  obtain ⟨μ, hμ⟩ : ∃ μ, μ = P.map (X 0) := ⟨_, rfl⟩
  have hμP : IsProbabilityMeasure μ := by rw [hμ]; exact Measure.isProbabilityMeasure_map (hX 0).aemeasurable
  have hone : ∀ i, (P.map (X i)).real {1} = r := fun i => by rw [map_measureReal_apply (hX i) (measurableSet_singleton 1)]; exact hlaw i
  have hzero : ∀ i, (P.map (X i)).real {0} = 1 - r := fun i => by
    have := Measure.isProbabilityMeasure_map (μ := P) (hX i).aemeasurable
    have hc : ({0} : Set (Fin 2)) = {1}ᶜ := by ext k; fin_cases k <;> simp
    rw [hc, probReal_compl_eq_one_sub (measurableSet_singleton 1), hone i]
  have hl : ∀ i, P.map (X i) = μ := by
    intro i
    have := Measure.isProbabilityMeasure_map (μ := P) (hX i).aemeasurable
    have := Measure.isProbabilityMeasure_map (μ := P) (hX 0).aemeasurable
    rw [hμ]
    refine Measure.ext_of_singleton fun k => ?_
    rw [← measureReal_eq_measureReal_iff]
    fin_cases k
    · exact (hzero i).trans (hzero 0).symm
    · exact (hone i).trans (hone 0).symm
  refine C107 E grid hE nm vs hpr S π hp μ (fun x (k : Fin 2) => OM.bernoulli.likelihood grid (.flat [some (k.val : ℝ)]) x) (fun x => measurable_of_countable _) (fun x k => hlik x k ▸ (hpos x k).le) x0 hπ0
    (.of_forall fun k => (hlik x0 k).symm ▸ hpos x0 k) (fun x hx => .inr (.inr ⟨.of_finite, ?_⟩)) P X ⟨hX, hind, hl⟩ fo
  rw [integral_fintype .of_finite, Fin.sum_univ_two]
  simp only [smul_eq_mul]
  have e1 : μ.real {1} = r := hμ ▸ hone 0
  have e0 : μ.real {0} = 1 - r := hμ ▸ hzero 0
  rw [e1, e0, hlik, hlik, hlik, hlik]
  simp only [Fin.isValue, zero_ne_one, if_false, if_true]
  rw [Real.log_div (sub_pos.2 (h1 _)).ne' (sub_pos.2 (h1 _)).ne', Real.log_div (h0 _).ne' (h0 _).ne']
  have := hbest x hx
  linarith

/-- A case for C107_bernoulli: success probability 2/5, grid with the values 1/4, 2/4, 3/4; the fit finds 2/4. -/
example : ∃ (Ω : Type) (_ : MeasurableSpace Ω) (P : Measure Ω) (X : ℕ → Ω → Fin 2), IsProbabilityMeasure P ∧ (∀ i, P.real {ω | X i ω = 1} = 2 / 5) ∧ ∀ᵐ ω ∂P, ∀ ε, 0 < ε → ∃ N, ∀ n ≥ N, ∀ ts : List ℝ, ts.length = n + 1 →
    Finds (fun _ (i : Fin 3) => ((i.val : ℝ) + 1) / 4) (fun _ => 1) n false ε
      (fit Ex.realEnv (fun _ (i : Fin 3) => ((i.val : ℝ) + 1) / 4) (.leaf .static [] [] none) (List.ofFn fun i : Fin (n + 1) => OM.bernoulli.likelihood (gs := Ex.gs3) (fun _ (i : Fin 3) => ((i.val : ℝ) + 1) / 4) (.flat [some ((X i ω).val : ℝ)]))
        ts false false (FitState.init .none)) := by
  obtain ⟨μ, hμ⟩ : ∃ μ : Measure (Fin 2), μ = ENNReal.ofReal (2 / 5) • Measure.dirac 1 + ENNReal.ofReal (3 / 5) • Measure.dirac 0 := ⟨_, rfl⟩
  have hp : IsProbabilityMeasure μ := ⟨by rw [hμ]; simp only [Measure.coe_add, Measure.coe_smul, Pi.add_apply, Pi.smul_apply, measure_univ, smul_eq_mul, mul_one]; rw [← ENNReal.ofReal_add (by norm_num) (by norm_num)]; norm_num⟩
  have h1 : μ.real {1} = 2 / 5 := by rw [hμ, Measure.real]; simp; norm_num
  obtain ⟨Ω, hΩ, P, X, e1, e2, e3, e4⟩ := exists_iid ℕ μ
  have hlaw : ∀ i, P.real {ω | X i ω = 1} = 2 / 5 := by
    intro i
    rw [← h1, ← (e2 i).map_eq, map_measureReal_apply (e1 i) (measurableSet_singleton 1)]
    rfl
  have hreg : Regular Ex.realEnv := ⟨fun _ => one_pos, ⟨fun _ => ⟨0, by simp [Ex.gs3]⟩⟩, realExt_gaussOK _ _⟩
  have := hreg.nonempty
  refine ⟨Ω, hΩ, P, X, e4, hlaw, C107_bernoulli Ex.realEnv (fun _ (i : Fin 3) => ((i.val : ℝ) + 1) / 4) hreg [] [] none _ _ .flat (fun i => by positivity) (fun i => ?_) (2 / 5) (fun _ => (1 : Fin 3)) (by positivity) (fun x hx => ?_) P X e1 e3
    hlaw false⟩
  · have : (i.val : ℝ) ≤ 2 := by exact_mod_cast Nat.lt_succ_iff.1 i.isLt
    rw [div_lt_one (by norm_num)]
    linarith
  · have h3 : 3 * Real.log 3 < 5 * Real.log 2 := by
      have h := Real.log_lt_log (by norm_num) (show (3 : ℝ) ^ 3 < 2 ^ 5 by norm_num)
      rw [Real.log_pow, Real.log_pow] at h
      exact_mod_cast h
    have l4 : Real.log 4 = 2 * Real.log 2 := by rw [show (4 : ℝ) = 2 ^ 2 by norm_num, Real.log_pow]; norm_num
    have l2 : 0 < Real.log 2 := Real.log_pos (by norm_num)
    have q1 : Real.log (1 / 4) = -(2 * Real.log 2) := by rw [one_div, Real.log_inv, l4]
    have q2 : Real.log (1 / 2) = -Real.log 2 := by rw [one_div, Real.log_inv]
    have q3 : Real.log (3 / 4) = Real.log 3 - 2 * Real.log 2 := by rw [Real.log_div (by norm_num) (by norm_num), l4]
    have hx0 : x = fun _ => x 0 := funext fun a => by rw [Subsingleton.elim a 0]
    obtain ⟨i, hi⟩ : ∃ i : Fin 3, i = x 0 := ⟨_, rfl⟩
    have hne : i ≠ 1 := fun h => hx (by rw [hx0, ← hi, h])
    have e : ∀ i : Fin 3, i ≠ 1 → 2 / 5 * Real.log (((i.val : ℝ) + 1) / 4) + (1 - 2 / 5) * Real.log (1 - ((i.val : ℝ) + 1) / 4) <
        2 / 5 * Real.log ((((1 : Fin 3).val : ℝ) + 1) / 4) + (1 - 2 / 5) * Real.log (1 - (((1 : Fin 3).val : ℝ) + 1) / 4) := by
      intro i hi
      fin_cases i
      · norm_num [q1, q2, q3]
        linarith
      · exact absurd rfl hi
      · norm_num [q1, q2, q3]
        linarith
    exact e (x 0) (hi ▸ hne)

/-- A case for C107_real: values 0 and 1 with equal probability, described by WhiteNoise with the standard deviations 1, 2, 3; the expected misfit `log σ + E y² / (2 σ²)` is smallest for 1, the root of the mean square is not on the grid. -/
example : ∃ μ : Measure ℝ, IsProbabilityMeasure μ ∧ (∀ x : Idx Ex.gs3, Integrable (misfit .whiteNoise (gridPoint (gs := Ex.gs3) (fun _ (i : Fin 3) => (i.val : ℝ) + 1) x)) μ) ∧
    ∀ x : Idx Ex.gs3, x ≠ (fun _ => (0 : Fin 3)) →
      ∫ y, misfit .whiteNoise (gridPoint (gs := Ex.gs3) (fun _ (i : Fin 3) => (i.val : ℝ) + 1) (fun _ => (0 : Fin 3))) y ∂μ < ∫ y, misfit .whiteNoise (gridPoint (gs := Ex.gs3) (fun _ (i : Fin 3) => (i.val : ℝ) + 1) x) y ∂μ := by
  obtain ⟨μ, hμ⟩ : ∃ μ : Measure ℝ, μ = ENNReal.ofReal (1 / 2) • Measure.dirac 0 + ENNReal.ofReal (1 / 2) • Measure.dirac 1 := ⟨_, rfl⟩
  have hp : IsProbabilityMeasure μ :=
    ⟨by rw [hμ]; simp only [Measure.coe_add, Measure.coe_smul, Pi.add_apply, Pi.smul_apply, measure_univ, smul_eq_mul, mul_one]; rw [← ENNReal.ofReal_add (by norm_num) (by norm_num)]; norm_num⟩
  have hint : ∀ (f : ℝ → ℝ) (z : ℝ), Integrable f (ENNReal.ofReal (1 / 2) • Measure.dirac z) := fun f z => (integrable_dirac (by simp)).smul_measure ENNReal.ofReal_ne_top
  have hI : ∀ f : ℝ → ℝ, ∫ y, f y ∂μ = 1 / 2 * f 0 + 1 / 2 * f 1 := by
    intro f
    rw [hμ, integral_add_measure (hint f 0) (hint f 1), integral_smul_measure, integral_smul_measure, integral_dirac, integral_dirac]
    norm_num
  refine ⟨μ, hp, fun x => ?_, fun x hx => ?_⟩
  · rw [hμ]
    exact (hint _ _).add_measure (hint _ _)
  · have hpt : ∀ x : Idx Ex.gs3, gridPoint (gs := Ex.gs3) (fun _ (i : Fin 3) => (i.val : ℝ) + 1) x 0 = ((x 0 : Fin 3).val : ℝ) + 1 := fun x => by unfold gridPoint; rw [dif_pos (by norm_num)]; rfl
    rw [hI, hI]
    simp only [misfit, hpt]
    have hne : (x 0 : Fin 3) ≠ (0 : Fin 3) := fun h => hx (funext fun a => by rw [Subsingleton.elim a 0]; exact h)
    have e : ∀ i : Fin 3, i ≠ 0 → 1 / 2 * (Real.log (((0 : Fin 3).val : ℝ) + 1) + 0 ^ 2 / (2 * (((0 : Fin 3).val : ℝ) + 1) ^ 2)) + 1 / 2 * (Real.log (((0 : Fin 3).val : ℝ) + 1) + 1 ^ 2 / (2 * (((0 : Fin 3).val : ℝ) + 1) ^ 2)) <
        1 / 2 * (Real.log ((i.val : ℝ) + 1) + 0 ^ 2 / (2 * ((i.val : ℝ) + 1) ^ 2)) + 1 / 2 * (Real.log ((i.val : ℝ) + 1) + 1 ^ 2 / (2 * ((i.val : ℝ) + 1) ^ 2)) := by
      have l2 : 1 / 2 < Real.log 2 := by linarith [Real.log_two_gt_d9]
      have l3 : 1 / 2 < Real.log 3 := l2.trans (Real.log_lt_log (by norm_num) (by norm_num))
      intro i hi
      fin_cases i
      · exact absurd rfl hi
      · norm_num
        linarith
      · norm_num
        linarith
    exact e (x 0) hne

/-- A case for C107_compare and C107_evidence: data that are always one, described with the success probabilities 1/8, 2/8, 3/8 and with 1/4, 2/4, 3/4. -/
example : ∃ (Ω : Type) (_ : MeasurableSpace Ω) (P : Measure Ω) (X : ℕ → Ω → Fin 2), IsProbabilityMeasure P ∧
    ∀ᵐ ω ∂P, ∀ ε, 0 < ε → ∃ N, ∀ n ≥ N, ∀ (ts ts' : List ℝ) (fo eo fo' eo' : Bool), ts.length = n + 1 → ts'.length = n + 1 →
      ∃ R R', fit Ex.realEnv (fun _ (i : Fin 3) => ((i.val : ℝ) + 1) / 8) (.leaf .static [] [] none) (List.ofFn fun (i : Fin (n + 1)) (x : Idx Ex.gs3) => if X i ω = 1 then (((x 0 : Fin 3).val : ℝ) + 1) / 8 else 1 - (((x 0 : Fin 3).val : ℝ) + 1) / 8)
          ts fo eo (FitState.init .none) = .ok R ∧
        fit Ex.realEnv (fun _ (i : Fin 3) => ((i.val : ℝ) + 1) / 4) (.leaf .static [] [] none) (List.ofFn fun (i : Fin (n + 1)) (x : Idx Ex.gs3) => if X i ω = 1 then (((x 0 : Fin 3).val : ℝ) + 1) / 4 else 1 - (((x 0 : Fin 3).val : ℝ) + 1) / 4)
          ts' fo' eo' (FitState.init .none) = .ok R' ∧ 0 < R'.logEv.exp ∧ R.logEv.exp / R'.logEv.exp < ε := by
  obtain ⟨Ω, hΩ, P, X, e1, e2, e3, e4⟩ := exists_iid ℕ (Measure.dirac (1 : Fin 2))
  have hreg : Regular Ex.realEnv := ⟨fun _ => one_pos, ⟨fun _ => ⟨0, by simp [Ex.gs3]⟩⟩, realExt_gaussOK _ _⟩
  have := hreg.nonempty
  have hle : ∀ x : Idx Ex.gs3, (((x 0 : Fin 3).val : ℝ) + 1) ≤ 3 := fun x => by
    have : ((x 0 : Fin 3).val : ℝ) ≤ 2 := by exact_mod_cast Nat.lt_succ_iff.1 (x 0 : Fin 3).isLt
    linarith
  have hc : ∀ c : ℝ, 4 ≤ c → (∀ (x : Idx Ex.gs3) (y : Fin 2), 0 ≤ if y = 1 then (((x 0 : Fin 3).val : ℝ) + 1) / c else 1 - (((x 0 : Fin 3).val : ℝ) + 1) / c) ∧
      ∀ x : Idx Ex.gs3, NotBetter (Measure.dirac (1 : Fin 2)) (fun y => if y = 1 then (((x 0 : Fin 3).val : ℝ) + 1) / c else 1 - (((x 0 : Fin 3).val : ℝ) + 1) / c)
        (fun y => if y = 1 then ((((2 : Fin 3)).val : ℝ) + 1) / c else 1 - ((((2 : Fin 3)).val : ℝ) + 1) / c) := by
    intro c hc
    have hc0 : 0 < c := by linarith
    refine ⟨fun x y => ?_, fun x => .inr ⟨.of_finite, ?_⟩⟩
    · split
      · positivity
      · rw [sub_nonneg, div_le_one hc0]
        linarith [hle x]
    · rw [integral_dirac]
      simp only [if_true]
      rw [div_div_div_cancel_right₀ hc0.ne']
      refine Real.log_nonpos (by positivity) (div_le_one_of_le₀ ?_ (by positivity))
      have := hle x
      norm_num
      linarith
  refine ⟨Ω, hΩ, P, X, e4, C107_compare Ex.realEnv (fun _ (i : Fin 3) => ((i.val : ℝ) + 1) / 8) hreg [] [] none _ _ .flat Ex.realEnv (fun _ (i : Fin 3) => ((i.val : ℝ) + 1) / 4) hreg [] [] none _ _ .flat
    (Measure.dirac 1) _ (fun x => measurable_of_countable _) (hc 8 (by norm_num)).1 (fun _ => (2 : Fin 3)) (by positivity) (by rw [ae_dirac_eq]; simp; norm_num) .of_finite (fun x => .inr ((hc 8 (by norm_num)).2 x))
    _ (fun x => measurable_of_countable _) (hc 4 le_rfl).1 (fun _ => (2 : Fin 3)) (by positivity) (by rw [ae_dirac_eq]; simp; norm_num) .of_finite (fun x => .inr ((hc 4 le_rfl).2 x)) ?_ P X ⟨e1, e3, fun i => (e2 i).map_eq⟩⟩
  rw [integral_dirac, integral_dirac]
  simp only [if_true]
  exact Real.log_lt_log (by norm_num) (by norm_num)

end Props
