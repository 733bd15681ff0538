import Verif.Lemmas.GridFit
import Verif.Lemmas.ContinuumUnique

/-! # C91: with finer and finer grids the results converge to those of Bayesian inference without a grid -/

set_option linter.unusedSectionVars false

namespace Props
open BL Spec Filter Topology

variable {d : ℕ} {closed : Fin d → Bool} {a b : Fin d → ℝ} {N : ℕ → Fin d → ℕ} {grid : (n : ℕ) → (k : Fin d) → Fin (N n k) → ℝ} {lattice : ℕ → Fin d → ℝ}

/-- **C91 (filtering).** Forward-only and evidence-only fits with Static, GaussianRandomWalk, RegimeSwitch, NotEqual, ChangePoint, Independent, Combined and Serial models: the fit succeeds on all sufficiently fine grids;
the reported evidence, divided by the `k`-th power of the cell volume (`k` counts the change-points between data points), converges to the exact probability density of the data; stored distributions, divided by the
cell volume, converge uniformly to the exact filtering densities, stored mean values to their mean values.  Missing for the full claim: with change-points the evidence itself does not converge to the exact one, see
`C91_refuted`. -/
theorem C91_filtering_partial (G : FinerGrids closed a b N grid lattice) (hd : 0 < d) (names : Fin d → String) (l : ℕ → ℕ) (shift : (n : ℕ) → Fin d → ℝ → (Idx (N n) → ℝ) → (Idx (N n) → ℝ))
    (U : UserPrior d) (hU : U.Regular a b) (tm : TM ℝ) (data : List (Dens d × ℝ)) (hne : data ≠ []) (hL : ∀ D ∈ data, ContinuousOn D.1 (Set.Icc a b)) (out : List (ℝ × Dens d)) (k : ℕ)
    (hF : Filtered a b (Moves names a b (U.reset a b) tm) (U.start a b, 0) data out k)
    (S : (n : ℕ) → FitState ℝ (N n)) (hS : ∀ n, (S n).prior = U.onGrid (grid n)) (eo : Bool) :
    ∃ S' : (n : ℕ) → FitState ℝ (N n),
      (∀ᶠ n in atTop, fit (studyOn names U (grid n) (lattice n) (l n) (shift n)) (grid n) tm (likOn (grid n) data) (data.map Prod.snd) true eo (S n) = .ok (S' n)) ∧
      Tendsto (fun n => (S' n).logEv.exp / (∏ k, lattice n k) ^ k) atTop (𝓝 (out.map Prod.fst).prod) ∧
      (eo = false → PostsTo grid lattice (fun n => (S' n).posts) (out.map Prod.snd) ∧ MeansTo a b (fun n => (S' n).means) (out.map Prod.snd)) :=
  grid_fit_forward G hd U hU tm hne hL hF S hS eo

/-- **C91 (evidence without change-points).** Without change-points the evidence of a fit converges to the exact probability density of the data. -/
theorem C91_evidence_partial (G : FinerGrids closed a b N grid lattice) (hd : 0 < d) (names : Fin d → String) (l : ℕ → ℕ) (shift : (n : ℕ) → Fin d → ℝ → (Idx (N n) → ℝ) → (Idx (N n) → ℝ))
    (U : UserPrior d) (hU : U.Regular a b) (tm : TM ℝ) (hn : NoChangePoint tm) (data : List (Dens d × ℝ)) (hne : data ≠ []) (hL : ∀ D ∈ data, ContinuousOn D.1 (Set.Icc a b)) (out : List (ℝ × Dens d)) (k : ℕ)
    (hF : Filtered a b (Moves names a b (U.reset a b) tm) (U.start a b, 0) data out k)
    (S : (n : ℕ) → FitState ℝ (N n)) (hS : ∀ n, (S n).prior = U.onGrid (grid n)) (eo : Bool) :
    ∃ S' : (n : ℕ) → FitState ℝ (N n),
      (∀ᶠ n in atTop, fit (studyOn names U (grid n) (lattice n) (l n) (shift n)) (grid n) tm (likOn (grid n) data) (data.map Prod.snd) true eo (S n) = .ok (S' n)) ∧
      Tendsto (fun n => (S' n).logEv.exp) atTop (𝓝 (out.map Prod.fst).prod) := by
  obtain ⟨S', h1, h2, -⟩ := grid_fit_forward (names := names) (l := l) (shift := shift) G hd U hU tm hne hL hF S hS eo
  refine ⟨S', h1, ?_⟩
  rw [filtered_count hn hF rfl] at h2
  simpa using h2

/-- **C91 (smoothing).** Full fits: the stored distributions and mean values converge to those of the library's backward recursion, carried out without grid.  (For when this is the exact smoothing distribution see
`C91_expectation_partial`, C05 and C06.) -/
theorem C91_smoothing_partial (G : FinerGrids closed a b N grid lattice) (hd : 0 < d) (names : Fin d → String) (l : ℕ → ℕ) (shift : (n : ℕ) → Fin d → ℝ → (Idx (N n) → ℝ) → (Idx (N n) → ℝ))
    (U : UserPrior d) (hU : U.Regular a b) (tm : TM ℝ) (data : List (Dens d × ℝ)) (hne : data ≠ []) (hL : ∀ D ∈ data, ContinuousOn D.1 (Set.Icc a b)) (out : List (ℝ × Dens d)) (k : ℕ)
    (hF : Filtered a b (Moves names a b (U.reset a b) tm) (U.start a b, 0) data out k) (posts : List (Dens d)) (β : Dens d)
    (hB : Smoothed a b (Moves names a b (U.reset a b) tm) (List.zipWith (fun o D => (o.2, D.1, D.2)) out data) posts β)
    (S : (n : ℕ) → FitState ℝ (N n)) (hS : ∀ n, (S n).prior = U.onGrid (grid n)) :
    ∃ S' : (n : ℕ) → FitState ℝ (N n),
      (∀ᶠ n in atTop, fit (studyOn names U (grid n) (lattice n) (l n) (shift n)) (grid n) tm (likOn (grid n) data) (data.map Prod.snd) false false (S n) = .ok (S' n)) ∧
      Tendsto (fun n => (S' n).logEv.exp / (∏ k, lattice n k) ^ k) atTop (𝓝 (out.map Prod.fst).prod) ∧
      PostsTo grid lattice (fun n => (S' n).posts) posts ∧ MeansTo a b (fun n => (S' n).means) posts := by
  obtain ⟨S', h1, h2, h3, -, h4⟩ := grid_fit_full (names := names) (l := l) (shift := shift) G hd U hU tm hne hL hF hB S hS
  exact ⟨S', h1, h2, cells_posts G h3, h4⟩

/-- **C91 (expected values given all data).** For linear models, unit-spaced times, and either no resets or a flat prior: expected values of functions `φ` of the parameters at time step `i` under the stored distributions
of a full fit converge to the exact conditional expected values given all data: the density of the data weighted with `φ`, divided by the density of the data. -/
theorem C91_expectation_partial (G : FinerGrids closed a b N grid lattice) (hd : 0 < d) (names : Fin d → String) (l : ℕ → ℕ) (shift : (n : ℕ) → Fin d → ℝ → (Idx (N n) → ℝ) → (Idx (N n) → ℝ))
    (U : UserPrior d) (hU : U.Regular a b) (hU0 : U.Nonneg a b) (tm : TM ℝ) (hl : ∀ n, Linear (studyOn names U (grid n) (lattice n) (l n) (shift n)) tm) (hR : ResetFree tm ∨ U = .none)
    {m : ℕ} (L : Fin (m + 1) → Dens d) (hLc : ∀ j, ContinuousOn (L j) (Set.Icc a b)) (hL0 : ∀ j, ∀ y ∈ Set.Icc a b, 0 ≤ L j y) (τ : Fin (m + 1) → ℝ) (hτ : ∀ j : Fin m, τ j.succ = τ j.castSucc + 1)
    (i : Fin (m + 1)) (φ : Dens d) (hφc : ContinuousOn φ (Set.Icc a b)) (hφ0 : ∀ y ∈ Set.Icc a b, 0 ≤ φ y) (out out' : List (ℝ × Dens d)) (k : ℕ)
    (hF : Filtered a b (Moves names a b (U.reset a b) tm) (U.start a b, 0) (List.ofFn fun j => (L j, τ j)) out k)
    (hF' : Filtered a b (Moves names a b (U.reset a b) tm) (U.start a b, 0) (List.ofFn fun j => (Function.update L i (fun y => L i y * φ y) j, τ j)) out' k)
    (S : (n : ℕ) → FitState ℝ (N n)) (hS : ∀ n, (S n).prior = U.onGrid (grid n)) (ε : ℝ) (hε : 0 < ε) :
    ∀ᶠ n in atTop, ∃ S', fit (studyOn names U (grid n) (lattice n) (l n) (shift n)) (grid n) tm (likOn (grid n) (List.ofFn fun j => (L j, τ j))) (List.ofFn τ) false false (S n) = .ok S' ∧
      ∃ f : Idx (N n) → ℝ, S'.posts[i.val]? = some (Cell.val f) ∧ |∑ x, f x * φ (gridValue (grid n) x) - (out'.map Prod.fst).prod / (out.map Prod.fst).prod| ≤ ε :=
  grid_expectation G hd U hU hU0 tm hl hR L hLc hL0 τ hτ i φ hφc hφ0 hF hF' S hS ε hε

theorem positive_nice {U : UserPrior d} (hab : ∀ k, a k < b k) (h : U.Positive a b) : Nice a b (U.start a b) ∧ Nice a b (U.reset a b) := by
  cases U with
  | none => exact ⟨nice_one.unit hab, nice_one.unit hab⟩
  | func π => exact ⟨Nice.unit hab h, Nice.unit hab h⟩
  | randomVars π => exact ⟨h, nice_one.unit hab⟩

/-- **C91 (the limits exist).** For linear models, positive continuous priors and positive continuous likelihoods the exact filtering and smoothing densities exist; the number of change-points between data points is
the same for all likelihoods. -/
theorem C91_exists (names : Fin d → String) (hab : ∀ k, a k < b k) (U : UserPrior d) (hU : U.Positive a b) {gs : Fin d → ℕ} (E : Env ℝ gs) (hE : E.names = names) (tm : TM ℝ) (hl : Linear E tm) (times : List ℝ) :
    ∃ k, ∀ data : List (Dens d × ℝ), data.map Prod.snd = times → (∀ D ∈ data, ContinuousOn D.1 (Set.Icc a b) ∧ ∀ y ∈ Set.Icc a b, 0 < D.1 y) →
      ∃ out posts β, Filtered a b (Moves names a b (U.reset a b) tm) (U.start a b, 0) data out k ∧
        Smoothed a b (Moves names a b (U.reset a b) tm) (List.zipWith (fun o D => (o.2, D.1, D.2)) out data) posts β := by
  subst hE
  obtain ⟨hs, hr⟩ := positive_nice hab hU
  obtain ⟨k, hk⟩ := filtered_exists hab E hr tm hl times 0
  refine ⟨k, fun data hd hD => ?_⟩
  obtain ⟨out, h1, h2⟩ := hk _ hs data hd hD
  obtain ⟨posts, β, h3, -⟩ := smoothed_exists hab E hr tm hl (List.zipWith (fun o D => (o.2, D.1, D.2)) out data) fun i hi => by
    obtain ⟨o, ho, D, hD', rfl⟩ := mem_zipWith_items hi
    exact ⟨(h2 o ho).2, hD D hD'⟩
  exact ⟨out, posts, β, h1, h3⟩

/-- **C91 (the limits are unique).** -/
theorem C91_unique (names : Fin d → String) (a b : Fin d → ℝ) (reset : Dens d) (tm : TM ℝ) :
    (∀ (s : Dens d × ℕ) data out k out' k', Filtered a b (Moves names a b reset tm) s data out k → Filtered a b (Moves names a b reset tm) s data out' k' → out = out' ∧ k = k') ∧
    (∀ items posts β posts' β', Smoothed a b (Moves names a b reset tm) items posts β → Smoothed a b (Moves names a b reset tm) items posts' β' → posts = posts' ∧ β = β') :=
  ⟨fun _ _ _ _ _ _ h h' => filtered_unique (moves := Moves names a b reset tm) (fun _ _ _ _ => moves_unique tm) h h', fun _ _ _ _ _ h h' => smoothed_unique (moves := Moves names a b reset tm) (fun _ _ _ _ => moves_unique tm) h h'⟩

/-- The full claim for the evidence: it converges to the exact probability density of the data. -/
def C91_claim : Prop :=
  ∀ (closed : Fin 1 → Bool) (a b : Fin 1 → ℝ) (N : ℕ → Fin 1 → ℕ) (grid : (n : ℕ) → (k : Fin 1) → Fin (N n k) → ℝ) (lattice : ℕ → Fin 1 → ℝ), FinerGrids closed a b N grid lattice →
    ∀ (names : Fin 1 → String) (l : ℕ → ℕ) (shift : (n : ℕ) → Fin 1 → ℝ → (Idx (N n) → ℝ) → (Idx (N n) → ℝ)) (U : UserPrior 1), U.Positive a b → ∀ (tm : TM ℝ) (data : List (Dens 1 × ℝ)), data ≠ [] →
    (∀ D ∈ data, ContinuousOn D.1 (Set.Icc a b) ∧ ∀ y ∈ Set.Icc a b, 0 < D.1 y) → ∀ out k, Filtered a b (Moves names a b (U.reset a b) tm) (U.start a b, 0) data out k →
    ∀ S : (n : ℕ) → FitState ℝ (N n), (∀ n, (S n).prior = U.onGrid (grid n)) →
    ∀ S' : (n : ℕ) → FitState ℝ (N n), (∀ᶠ n in atTop, fit (studyOn names U (grid n) (lattice n) (l n) (shift n)) (grid n) tm (likOn (grid n) data) (data.map Prod.snd) true true (S n) = .ok (S' n)) →
      Tendsto (fun n => (S' n).logEv.exp) atTop (𝓝 (out.map Prod.fst).prod)

/-- the grids `cint(0, 1, n + 2)` -/
noncomputable def _root_.Ex.unitGrid (n : ℕ) (_ : Fin 1) (i : Fin (n + 2)) : ℝ := i / (n + 1)

theorem _root_.Ex.unitGrid_finer : FinerGrids (fun _ => true) (fun _ => 0) (fun _ => 1) (fun n _ => n + 2) Ex.unitGrid fun n _ => 1 / (n + 1) := by
  have hv : ∀ n k, List.ofFn (Ex.unitGrid n k) = cint (0 : ℝ) 1 (n + 2) := by
    intro n k
    refine List.ext_getElem (by simp [cint, linspace]) fun i h1 h2 => ?_
    simp only [List.getElem_ofFn, cint, linspace, List.getElem_map, List.getElem_range, Ex.unitGrid]
    push_cast
    ring
  refine ⟨fun _ => one_pos, fun n _ => by omega, fun _ => tendsto_add_atTop_nat 2, fun n k => by rw [hv]; rfl, fun n k => ?_⟩
  rw [hv]
  have := (C51_lattice (D := Unit) (0 : ℝ) 1 (n + 2) one_pos (by omega) (fun _ _ => none) [] "").1
  rw [this]
  simp
  ring

/-- a study before the fit -/
noncomputable def _root_.Ex.unitStart (n : ℕ) : FitState ℝ (fun _ : Fin 1 => n + 2) := ⟨.none, [], fun _ => [], 0, []⟩

/-- **C91 refuted** (evidence with change-points): flat prior on the unit interval, two uninformative data points, change-point between them.  The exact density of the data is 1, the reported evidence converges to 0. -/
theorem C91_refuted : ¬ C91_claim := by
  intro h
  have hab : ∀ k : Fin 1, (fun _ => (0 : ℝ)) k < (fun _ => (1 : ℝ)) k := fun _ => one_pos
  have h1 : boxMass (fun _ : Fin 1 => (0 : ℝ)) (fun _ => 1) (fun _ => 1) = 1 := by
    rw [boxMass_const _ fun k => (hab k).le]; simp
  have hu : unitMass (fun _ : Fin 1 => (0 : ℝ)) (fun _ => 1) (fun _ => 1) = fun _ => 1 := by
    funext y; simp only [unitMass, h1, div_one]
  obtain ⟨out, hout, hF⟩ : ∃ out, (out.map Prod.fst).prod = 1 ∧ Filtered (fun _ : Fin 1 => (0 : ℝ)) (fun _ => 1)
      (Moves (fun _ => "x") (fun _ => 0) (fun _ => 1) (UserPrior.none.reset (fun _ => 0) fun _ => 1) (.leaf .changePoint ["t_change"] [.scalar 0] none))
      (UserPrior.none.start (fun _ => 0) fun _ => 1, 0) [(fun _ => 1, 0), (fun _ => 1, 1)] out 1 := by
    refine ⟨_, ?_, .data (s' := (fun _ => 1, 1)) _ _ _ _ _ _ ?_ ?_ (.data (s' := (fun _ => 1, 0)) _ _ _ _ _ _ ?_ ?_ (.done _))⟩
    · simp only [UserPrior.start, hu, mul_one, h1, List.map_cons, List.map_nil, List.prod_cons, List.prod_nil]
    · simp only [UserPrior.start, hu, mul_one, h1]; exact one_pos
    · simp only [Moves, LeafMoves, UserPrior.reset, hu]
      exact ⟨0, rfl, by simp⟩
    · simp only [mul_one, h1]; exact one_pos
    · simp only [Moves, LeafMoves, mul_one, hu]
      exact ⟨0, rfl, by simp⟩
  have hreg : UserPrior.none.Regular (fun _ : Fin 1 => (0 : ℝ)) fun _ => 1 := trivial
  obtain ⟨S', e1, e2, -⟩ := C91_filtering_partial Ex.unitGrid_finer one_pos (fun _ => "x") (fun _ => 0) (fun _ _ _ f => f) .none hreg _ _ (by simp) (by simp [continuousOn_const]) _ _ hF Ex.unitStart (fun _ => rfl) true
  have e3 := h _ _ _ _ _ _ Ex.unitGrid_finer (fun _ => "x") (fun _ => 0) (fun _ _ _ f => f) .none trivial _ _ (by simp) (by simp [continuousOn_const]) _ _ hF Ex.unitStart (fun _ => rfl) S' e1
  have hz : Tendsto (fun n : ℕ => ∏ _k : Fin 1, (1 : ℝ) / ((n : ℝ) + 1)) atTop (𝓝 0) := by
    simpa using tendsto_one_div_add_atTop_nhds_zero_nat (𝕜 := ℝ)
  have e4 := e2.mul hz
  simp only [hout, pow_one, mul_zero] at e3 e4
  have e5 : Tendsto (fun n => (S' n).logEv.exp) atTop (𝓝 0) := by
    refine e4.congr fun n => ?_
    have : (∏ _k : Fin 1, (1 : ℝ) / ((n : ℝ) + 1)) ≠ 0 := by
      simp only [Finset.prod_const, Finset.card_univ, Fintype.card_fin, pow_one]
      positivity
    exact div_mul_cancel₀ _ this
  exact one_ne_zero (tendsto_nhds_unique e3 e5)

/-- hypotheses of the theorems on convergence: Gaussian random walk, then break-point, then static; prior density proportional to `2 - x` -/
example : ∃ S' : (n : ℕ) → FitState ℝ (fun _ : Fin 1 => n + 2), ∃ (z : ℝ) (ρs : List (Dens 1)), 0 < z ∧
    (∀ᶠ n in atTop, fit (studyOn (fun _ => "x") (.func fun y => 2 - y 0) (Ex.unitGrid n) (fun _ => 1 / ((n : ℝ) + 1)) 0 fun _ _ f => f) (Ex.unitGrid n)
      (.serial ["t"] [.scalar 1] [] [false] [.leaf (.grw "x") ["sigma"] [.scalar (1 / 5)] none, .leaf .static [] [] none]) (likOn (Ex.unitGrid n) [(fun y => 1 + y 0, 0), (fun y => 3 - y 0, 1), (fun _ => 2, 2)]) [0, 1, 2] false false
      ⟨.func fun x => 2 - gridValue (Ex.unitGrid n) x 0, [], fun _ => [], 0, []⟩ = .ok (S' n)) ∧
    Tendsto (fun n => (S' n).logEv.exp) atTop (𝓝 z) ∧ PostsTo Ex.unitGrid (fun n _ => 1 / ((n : ℝ) + 1)) (fun n => (S' n).posts) ρs ∧ MeansTo (fun _ => 0) (fun _ => 1) (fun n => (S' n).means) ρs := by
  have hU : UserPrior.Positive (fun _ : Fin 1 => (0 : ℝ)) (fun _ => 1) (.func fun y => 2 - y 0) := ⟨by fun_prop, fun y hy => by have := hy.2 0; simp only at this; linarith⟩
  have hUr : UserPrior.Regular (fun _ : Fin 1 => (0 : ℝ)) (fun _ => 1) (.func fun y => 2 - y 0) := ⟨hU.1, (Nice.mass_pos (fun _ => one_pos) hU).ne'⟩
  have hpos : ∀ D ∈ ([(fun y => 1 + y 0, 0), (fun y => 3 - y 0, 1), (fun _ => 2, 2)] : List (Dens 1 × ℝ)), ContinuousOn D.1 (Set.Icc (fun _ => 0) fun _ => 1) ∧ ∀ y ∈ Set.Icc (fun _ : Fin 1 => (0 : ℝ)) fun _ => 1, 0 < D.1 y := by
    intro D hD
    simp only [List.mem_cons, List.not_mem_nil, or_false] at hD
    rcases hD with rfl | rfl | rfl
    · exact ⟨(by fun_prop : Continuous fun y : Fin 1 → ℝ => 1 + y 0).continuousOn, fun y hy => by have := hy.1 0; simp only at this ⊢; linarith⟩
    · exact ⟨(by fun_prop : Continuous fun y : Fin 1 → ℝ => 3 - y 0).continuousOn, fun y hy => by have := hy.2 0; simp only at this ⊢; linarith⟩
    · exact ⟨continuousOn_const, fun y hy => by norm_num⟩
  obtain ⟨k, hk⟩ := C91_exists (fun _ => "x") (fun _ => one_pos) _ hU (studyOn (fun _ => "x") .none (Ex.unitGrid 0) (fun _ => 1) 0 fun _ _ f => f) rfl
    (.serial ["t"] [.scalar 1] [] [false] [.leaf (.grw "x") ["sigma"] [.scalar (1 / 5)] none, .leaf .static [] [] none])
    (by simp [Linear, LinearAll, Env.axis, studyOn, List.finRange]) [0, 1, 2]
  obtain ⟨out, posts, β, hF, hB⟩ := hk _ rfl hpos
  have hk0 : k = 0 := filtered_count (by simp [NoChangePoint, NoChangePointAll]) hF rfl
  subst hk0
  obtain ⟨S', h1, h2, h3, h4⟩ := C91_smoothing_partial Ex.unitGrid_finer one_pos (fun _ => "x") (fun _ => 0) (fun _ _ _ f => f) _ hUr _ _ (by simp) (fun D hD => (hpos D hD).1) _ _ hF _ _ hB
    (fun n => ⟨.func fun x => 2 - gridValue (Ex.unitGrid n) x 0, [], fun _ => [], 0, []⟩) (fun _ => rfl)
  exact ⟨S', _, _, filtered_pos hF, h1, by simpa using h2, h3, h4⟩

/-- hypotheses of `C91_expectation_partial`: change-points, flat prior, and the function `1 + x²` -/
example : ∃ z : ℝ, ∀ ε > 0, ∀ᶠ n in atTop, ∃ S', fit (studyOn (fun _ => "x") .none (Ex.unitGrid n) (fun _ => 1 / ((n : ℝ) + 1)) 0 fun _ _ f => f) (Ex.unitGrid n)
      (.combined [.leaf (.grw "x") ["sigma"] [.scalar (1 / 5)] none, .leaf .changePoint ["t_change"] [.scalar 0] none]) (likOn (Ex.unitGrid n) (List.ofFn fun j : Fin 2 => (fun y => 1 + y 0, ![0, 1] j))) (List.ofFn ![0, 1]) false false
      (Ex.unitStart n) = .ok S' ∧
      ∃ f : Idx (fun _ : Fin 1 => n + 2) → ℝ, S'.posts[(0 : Fin 2).val]? = some (Cell.val f) ∧ |∑ x, f x * (1 + gridValue (Ex.unitGrid n) x 0 ^ 2) - z| ≤ ε := by
  have hp1 : ∀ y ∈ Set.Icc (fun _ : Fin 1 => (0 : ℝ)) fun _ => 1, 0 < 1 + y 0 := fun y hy => by have := hy.1 0; simp only at this; linarith
  have hp2 : ∀ y ∈ Set.Icc (fun _ : Fin 1 => (0 : ℝ)) fun _ => 1, 0 < 1 + y 0 ^ 2 := fun y _ => by positivity
  have hc1 : ContinuousOn (fun y : Fin 1 → ℝ => 1 + y 0) (Set.Icc (fun _ => 0) fun _ => 1) := by fun_prop
  have hl : ∀ n, Linear (studyOn (fun _ => "x") .none (Ex.unitGrid n) (fun _ => 1 / ((n : ℝ) + 1)) 0 fun _ _ f => f)
      (.combined [.leaf (.grw "x") ["sigma"] [.scalar (1 / 5)] none, .leaf .changePoint ["t_change"] [.scalar 0] none]) := fun n => by
    simp [Linear, LinearAll, Env.axis, studyOn, List.finRange]
  obtain ⟨k, hk⟩ := C91_exists (fun _ => "x") (fun _ => one_pos) (a := fun _ => 0) (b := fun _ => 1) .none trivial _ rfl _ (hl 0) (List.ofFn ![0, 1])
  have hpair : ∀ L : Fin 2 → Dens 1, (List.ofFn fun j => (L j, ![(0 : ℝ), 1] j)).map Prod.snd = List.ofFn ![0, 1] := fun L => by rw [List.map_ofFn]; rfl
  obtain ⟨out, _, _, hF, -⟩ := hk (List.ofFn fun j : Fin 2 => (fun y => 1 + y 0, ![0, 1] j)) (hpair _) (by
    intro D hD; obtain ⟨j, rfl⟩ := (List.mem_ofFn' _ _).1 hD; exact ⟨hc1, hp1⟩)
  obtain ⟨out', _, _, hF', -⟩ := hk (List.ofFn fun j : Fin 2 => (Function.update (fun _ y => 1 + y 0) 0 (fun y => (1 + y 0) * (1 + y 0 ^ 2)) j, ![0, 1] j)) (hpair _) (by
    intro D hD
    obtain ⟨j, rfl⟩ := (List.mem_ofFn' _ _).1 hD
    rcases eq_or_ne j 0 with rfl | hj
    · simp only [Function.update_self]; exact ⟨by fun_prop, fun y hy => mul_pos (hp1 y hy) (hp2 y hy)⟩
    · simp only [Function.update_of_ne hj]; exact ⟨hc1, hp1⟩)
  exact ⟨_, fun ε hε => C91_expectation_partial Ex.unitGrid_finer one_pos (fun _ => "x") (fun _ => 0) (fun _ _ _ f => f) .none trivial trivial _ hl (Or.inr rfl) (fun (_ : Fin 2) y => 1 + y 0)
    (fun _ => by fun_prop) (fun _ y hy => (hp1 y hy).le) ![0, 1] (by simp) 0 (fun y => 1 + y 0 ^ 2) (by fun_prop) (fun y hy => (hp2 y hy).le) out out' k hF hF' Ex.unitStart (fun _ => rfl) ε hε⟩

end Props
