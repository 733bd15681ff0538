import Verif.Lemmas.Predictive
import Verif.Props.C01
import Verif.Model.RealExt
import Verif.Props.C56
import Verif.Props.C57
import Verif.Props.Ex
import Mathlib.MeasureTheory.Integral.Pi
import Mathlib.Data.Fintype.Prod

/-! # C61: the evidence is a probability distribution over data sets -/

set_option linter.unusedSectionVars false

open MeasureTheory

namespace Props
open BL Spec
variable {K : Type} [Field K] [LinearOrder K] [IsStrictOrderedRing K] {d : ℕ} {gs : Fin d → ℕ}

/-- **C61.** A study with positive lattice constants, a prior that stands for probabilities `π` with sum one, a transition model of any kind and nesting (without NotEqual; change-points only for cells of
volume one) and an observation model whose likelihoods sum to one over the finite set of possible observations (they may depend on earlier observations): for every
length of the data and all timestamps, the fit succeeds for each data set, and the evidences of all data sets sum to one. -/
theorem C61_partial {X : Type} [Fintype X] [DecidableEq X] (E : Env K gs) (grid : (a : Fin d) → Fin (gs a) → K) (tm : TM K) (S : FitState K gs) (π : Idx gs → K)
    (hne : Nonempty (Idx gs)) (hl : ∀ a, 0 < E.lattice a) (hX : ProperExt E.ext) (hc : Conserving E tm) (hp : PriorMass E.cell S.prior π) (hpr : ProperPrior S.prior) (hπ : ∑ x, π x = 1)
    (lik : List X → X → Idx gs → K) (hlik : Normalised lik) (n : ℕ) (ts : List K) (hts : ts.length = n + 1) (fo eo : Bool) (hmode : eo = true ∨ fo = true) :
    ∃ result : (Fin (n + 1) → X) → FitState K gs,
      (∀ xs, fit E grid tm (likelihoods lik [] (List.ofFn xs)) ts fo eo S = .ok (result xs)) ∧
      (∀ xs, 0 ≤ (result xs).logEv.exp) ∧
      ∑ xs, (result xs).logEv.exp = 1 := by
  have hcell : 0 < E.cell := cell_pos hl
  obtain ⟨pr0, h1, hpr0⟩ := computePrior_proper (E := { E with prior := S.prior }) hcell hp hpr hπ
  obtain ⟨hok, hsum⟩ := fwdPass_data hl hX hc hlik (n + 1) [] pr0.isArray pr0 (fun x => 1 / E.cell * π x) ts hpr0
    (fun x => mul_nonneg (div_nonneg zero_le_one hcell.le) (priorMass_nonneg hcell hp x)) hts
  have hev : ∀ xs : Fin (n + 1) → X, ∃ S', fit E grid tm (likelihoods lik [] (List.ofFn xs)) ts fo eo S = .ok S' ∧
      S'.logEv.exp = evOf (fwdPass E tm pr0.isArray pr0 (some fun x => 1 / E.cell * π x) (likelihoods lik [] (List.ofFn xs)) ts) * E.cell ∧ 0 ≤ S'.logEv.exp := by
    intro xs
    obtain ⟨r, hr⟩ := hok xs
    obtain ⟨S', h2, h3⟩ := fit_evOf (grid := grid) h1 hr hmode
    refine ⟨S', h2, by rw [hr]; exact h3, ?_⟩
    rw [h3]
    refine mul_nonneg ?_ hcell.le
    simp only [evOf]
    split
    · exact le_rfl
    · exact normProd_nonneg (fwdPass_norm_pos _ _ _ _ _ _ hr)
  choose result hres hexp hnn using hev
  refine ⟨result, hres, hnn, ?_⟩
  simp only [hexp]
  rw [← Finset.sum_mul, hsum, if_neg (Nat.succ_ne_zero n), ← Finset.mul_sum, hπ]
  field_simp

/-- **C61, Bernoulli model**: the observations are zero or one and the grid contains probabilities; the prior and the transition model are as above. -/
theorem C61_bernoulli (E : Env ℝ gs) (grid : (a : Fin d) → Fin (gs a) → ℝ) (tm : TM ℝ) (S : FitState ℝ gs) (π : Idx gs → ℝ)
    (hne : Nonempty (Idx gs)) (hl : ∀ a, 0 < E.lattice a) (hX : ProperExt E.ext) (hc : Conserving E tm) (hp : PriorMass E.cell S.prior π) (hpr : ProperPrior S.prior) (hπ : ∑ x, π x = 1)
    (hgrid : ∀ i, 0 ≤ gridPoint grid i 0 ∧ gridPoint grid i 0 ≤ 1) (n : ℕ) (ts : List ℝ) (hts : ts.length = n + 1) (fo eo : Bool) (hmode : eo = true ∨ fo = true) :
    ∃ result : (Fin (n + 1) → Fin 2) → FitState ℝ gs,
      (∀ xs, fit E grid tm (List.ofFn fun i => OM.bernoulli.likelihood grid (.flat [some ((xs i : ℕ) : ℝ)])) ts fo eo S = .ok (result xs)) ∧
      (∀ xs, 0 ≤ (result xs).logEv.exp) ∧
      ∑ xs, (result xs).logEv.exp = 1 := by
  have hlik : Normalised (X := Fin 2) fun _ x => OM.bernoulli.likelihood grid (.flat [some ((x : ℕ) : ℝ)]) := by
    constructor
    · intro _ x θ
      obtain ⟨-, -, h1, h0, -⟩ := C56_bernoulli grid θ (hgrid θ).1 (hgrid θ).2
      match x with
      | 0 => simpa using h0
      | 1 => simpa using h1
    · intro _ θ
      obtain ⟨-, -, -, -, h⟩ := C56_bernoulli grid θ (hgrid θ).1 (hgrid θ).2
      rw [Fin.sum_univ_two, add_comm]
      simpa using h
  obtain ⟨result, h1, h2, h3⟩ := C61_partial E grid tm S π hne hl hX hc hp hpr hπ _ hlik n ts hts fo eo hmode
  have hlist : ∀ (l h : List (Fin 2)), likelihoods (fun (_ : List (Fin 2)) (x : Fin 2) => OM.bernoulli.likelihood grid (.flat [some ((x : ℕ) : ℝ)])) h l =
      l.map fun (x : Fin 2) => OM.bernoulli.likelihood grid (.flat [some ((x : ℕ) : ℝ)]) := by
    intro l
    induction l with
    | nil => intro h; rfl
    | cons x l ih => intro h; simp only [likelihoods, List.map_cons, ih]
  refine ⟨result, fun xs => ?_, h2, h3⟩
  rw [← h1 xs, hlist, List.map_ofFn]
  rfl

/-- **C61, infinitely many possible observations**: as `C61_partial`, for an observation model whose likelihoods sum to one over all possible observations (for example all natural numbers). -/
theorem C61_countable_partial {X : Type} (E : Env ℝ gs) (grid : (a : Fin d) → Fin (gs a) → ℝ) (tm : TM ℝ) (S : FitState ℝ gs) (π : Idx gs → ℝ)
    (hne : Nonempty (Idx gs)) (hl : ∀ a, 0 < E.lattice a) (hX : ProperExt E.ext) (hc : Conserving E tm) (hp : PriorMass E.cell S.prior π) (hpr : ProperPrior S.prior) (hπ : ∑ x, π x = 1)
    (lik : List X → X → Idx gs → ℝ) (h0 : ∀ h x θ, 0 ≤ lik h x θ) (hlik : ∀ h θ, HasSum (fun x => lik h x θ) 1) (n : ℕ) (ts : List ℝ) (hts : ts.length = n + 1) (fo eo : Bool)
    (hmode : eo = true ∨ fo = true) :
    ∃ result : (Fin (n + 1) → X) → FitState ℝ gs,
      (∀ xs, fit E grid tm (likelihoods lik [] (List.ofFn xs)) ts fo eo S = .ok (result xs)) ∧
      (∀ xs, 0 ≤ (result xs).logEv.exp) ∧
      HasSum (fun xs => (result xs).logEv.exp) 1 := by
  have hcell : 0 < E.cell := cell_pos hl
  obtain ⟨pr0, h1, hpr0⟩ := computePrior_proper (E := { E with prior := S.prior }) hcell hp hpr hπ
  obtain ⟨hok, hsum⟩ := fwdPass_hasSum hl hX hc h0 hlik (n + 1) [] pr0.isArray pr0 (fun x => 1 / E.cell * π x) ts hpr0
    (fun x => mul_nonneg (div_nonneg zero_le_one hcell.le) (priorMass_nonneg hcell hp x)) hts
  have hev : ∀ xs : Fin (n + 1) → X, ∃ S', fit E grid tm (likelihoods lik [] (List.ofFn xs)) ts fo eo S = .ok S' ∧
      S'.logEv.exp = evOf (fwdPass E tm pr0.isArray pr0 (some fun x => 1 / E.cell * π x) (likelihoods lik [] (List.ofFn xs)) ts) * E.cell := by
    intro xs
    obtain ⟨r, hr⟩ := hok xs
    obtain ⟨S', h2, h3⟩ := fit_evOf (grid := grid) h1 hr hmode
    exact ⟨S', h2, by rw [hr]; exact h3⟩
  choose result hres hexp using hev
  refine ⟨result, hres, fun xs => ?_, ?_⟩
  · rw [hexp]; exact mul_nonneg evOf_nonneg hcell.le
  · simp only [hexp]
    have := hsum.mul_right E.cell
    rw [if_neg (Nat.succ_ne_zero n), ← Finset.mul_sum, hπ, mul_one, one_div_mul_cancel hcell.ne'] at this
    exact this

/-- **C61, Poisson model**: the observations are natural numbers and the grid contains non-negative rates. -/
theorem C61_poisson (E : Env ℝ gs) (grid : (a : Fin d) → Fin (gs a) → ℝ) (tm : TM ℝ) (S : FitState ℝ gs) (π : Idx gs → ℝ)
    (hne : Nonempty (Idx gs)) (hl : ∀ a, 0 < E.lattice a) (hX : ProperExt E.ext) (hc : Conserving E tm) (hp : PriorMass E.cell S.prior π) (hpr : ProperPrior S.prior) (hπ : ∑ x, π x = 1)
    (hgrid : ∀ i, 0 ≤ gridPoint grid i 0) (n : ℕ) (ts : List ℝ) (hts : ts.length = n + 1) (fo eo : Bool) (hmode : eo = true ∨ fo = true) :
    ∃ result : (Fin (n + 1) → ℕ) → FitState ℝ gs,
      (∀ xs, fit E grid tm (List.ofFn fun i => OM.poisson.likelihood grid (.flat [some (xs i : ℝ)])) ts fo eo S = .ok (result xs)) ∧
      (∀ xs, 0 ≤ (result xs).logEv.exp) ∧
      HasSum (fun xs => (result xs).logEv.exp) 1 := by
  obtain ⟨result, h1, h2, h3⟩ := C61_countable_partial E grid tm S π hne hl hX hc hp hpr hπ (fun _ (x : ℕ) => OM.poisson.likelihood grid (.flat [some (x : ℝ)]))
    (fun _ x θ => (C56_poisson grid θ (hgrid θ)).2.1 x) (fun _ θ => (C56_poisson grid θ (hgrid θ)).2.2) n ts hts fo eo hmode
  have hlist : ∀ (l h : List ℕ), likelihoods (fun (_ : List ℕ) (x : ℕ) => OM.poisson.likelihood grid (.flat [some (x : ℝ)])) h l =
      l.map fun (x : ℕ) => OM.poisson.likelihood grid (.flat [some (x : ℝ)]) := by
    intro l
    induction l with
    | nil => intro h; rfl
    | cons x l ih => intro h; simp only [likelihoods, List.map_cons, ih]
  refine ⟨result, fun xs => ?_, h2, h3⟩
  rw [← h1 xs, hlist, List.map_ofFn]
  rfl

/-- **C61, real-valued observations** (Gaussian, Laplace and WhiteNoise model): for linear transition models without change-points the evidence of the data is a
probability density on the data sets of any given length. -/
theorem C61_real (E : Env ℝ gs) (grid : (a : Fin d) → Fin (gs a) → ℝ) (tm : TM ℝ) (hE : Regular E) (hL : Linear E tm) (hR : ResetFree tm)
    (S : FitState ℝ gs) (π : Idx gs → ℝ) (hp : PriorMass E.cell S.prior π) (hπ : ∑ x, π x = 1)
    (m : OM) (hm : RealValued m) (h1 : m.segmentLength = 1) (hgrid : ∀ i, Admissible m (gridPoint grid i))
    {n : ℕ} (τ : Fin (n + 1) → ℝ) (fo eo : Bool) (hmode : eo = true ∨ fo = true ∨ ∀ i : Fin n, τ i.succ = τ i.castSucc + 1) :
    ∃ result : (Fin (n + 1) → ℝ) → FitState ℝ gs,
      (∀ y, fit E grid tm (List.ofFn fun i => m.likelihood grid (.flat [some (y i)])) (List.ofFn τ) fo eo S = .ok (result y)) ∧
      IsDensity fun y => (result y).logEv.exp := by
  have hd : ∀ θ, IsDensity fun y : ℝ => m.likelihood grid (.flat [some y]) θ := by
    intro θ
    have := (C57 m hm grid θ (hgrid θ) 0).2
    simpa [dataSegment, h1] using this
  have hev := fun y : Fin (n + 1) → ℝ => C01_evidence_is_path_sum E grid tm hE hL hR S π hp (fun i => m.likelihood grid (.flat [some (y i)]))
    (fun i θ => (hd θ).nonneg _) τ fo eo hmode
  choose result hok hexp using hev
  have hst := kernel_stoch hE hL (tm := tm) (pr := S.prior) (R := (1 : ℝ)) (ρ := π) (Or.inl hR)
  have hcell : 0 < E.cell := cell_pos hE.lattice_pos
  have := hE.nonempty
  have hz : ∀ z : Fin (n + 1) → Idx gs, IsDensity fun y : Fin (n + 1) → ℝ => ∏ i, m.likelihood grid (.flat [some (y i)]) (z i) := fun z => prod_isDensity fun i => hd (z i)
  refine ⟨result, hok, fun y => ?_, ?_, ?_⟩
  · rw [hexp]
    exact evidence_nonneg (priorMass_nonneg hcell hp) (fun i => hst.nonneg _) (fun i θ => (hd θ).nonneg _)
  · simp only [hexp, evidence, pathWeight]
    exact integrable_finsetSum _ fun z _ => (hz z).integrable.const_mul _
  · simp only [hexp, evidence, pathWeight]
    rw [integral_finsetSum _ fun z _ => (hz z).integrable.const_mul _]
    simp only [integral_const_mul, (hz _).total, mul_one]
    rw [← hπ, ← evidence_ones π (fun i : Fin n => kernel E π tm (τ i.castSucc)) (fun i => hst.sum _)]
    simp [evidence, pathWeight]

/-- A chain of densities, each of which may depend on the preceding value, is a density. -/
theorem chain_isDensity : ∀ {n : ℕ} (f : Fin n → ℝ → ℝ → ℝ), (∀ i, Measurable fun q : ℝ × ℝ => f i q.1 q.2) → (∀ i a, IsDensity (f i a)) →
    (Measurable fun q : ℝ × (Fin n → ℝ) => ∏ i, f i ((Fin.cons q.1 q.2 : Fin (n + 1) → ℝ) i.castSucc) (q.2 i)) ∧
    ∀ a, IsDensity fun y : Fin n → ℝ => ∏ i, f i ((Fin.cons a y : Fin (n + 1) → ℝ) i.castSucc) (y i)
  | 0, f, _, _ => by
      refine ⟨by simp, fun a => ⟨fun y => by simp, ?_, ?_⟩⟩
      · simp
      · simp [Measure.real, volume_pi, Measure.pi_empty_univ]
  | n + 1, f, hm, hd => by
      obtain ⟨ih1, ih2⟩ := chain_isDensity (fun i : Fin n => f i.succ) (fun i => hm i.succ) fun i => hd i.succ
      have hsplit : ∀ (a : ℝ) (y : Fin (n + 1) → ℝ), ∏ i, f i ((Fin.cons a y : Fin (n + 2) → ℝ) i.castSucc) (y i) =
          f 0 a (y 0) * ∏ i : Fin n, f i.succ ((Fin.cons (y 0) (fun j : Fin n => y j.succ) : Fin (n + 1) → ℝ) i.castSucc) (y i.succ) := by
        intro a y
        rw [Fin.prod_univ_succ]
        congr 1
        refine Finset.prod_congr rfl fun i _ => ?_
        congr 1
        rw [← Fin.succ_castSucc, Fin.cons_succ]
        refine Fin.cases ?_ (fun j => ?_) i.castSucc <;> simp
      have hmeas : Measurable fun q : ℝ × (Fin (n + 1) → ℝ) => ∏ i, f i ((Fin.cons q.1 q.2 : Fin (n + 2) → ℝ) i.castSucc) (q.2 i) := by
        simp only [hsplit]
        refine ((hm 0).comp (measurable_fst.prodMk ((measurable_pi_apply 0).comp measurable_snd))).mul ?_
        exact ih1.comp (((measurable_pi_apply 0).comp measurable_snd).prodMk (measurable_pi_lambda _ fun j : Fin n => (measurable_pi_apply j.succ).comp measurable_snd))
      refine ⟨hmeas, fun a => ?_⟩
      have hnn : ∀ y : Fin (n + 1) → ℝ, 0 ≤ ∏ i, f i ((Fin.cons a y : Fin (n + 2) → ℝ) i.castSucc) (y i) := fun y => Finset.prod_nonneg fun i _ => (hd i _).nonneg _
      let e := MeasurableEquiv.piFinSuccAbove (fun _ : Fin (n + 1) => ℝ) 0
      have he : MeasurePreserving e.symm := (volume_preserving_piFinSuccAbove (fun _ : Fin (n + 1) => ℝ) 0).symm e
      have hes : ∀ q : ℝ × (Fin n → ℝ), ∏ i, f i ((Fin.cons a (e.symm q) : Fin (n + 2) → ℝ) i.castSucc) (e.symm q i) =
          f 0 a q.1 * ∏ i : Fin n, f i.succ ((Fin.cons q.1 q.2 : Fin (n + 1) → ℝ) i.castSucc) (q.2 i) := by
        intro q
        rw [hsplit]
        have h0 : e.symm q 0 = q.1 := by simp [e, MeasurableEquiv.piFinSuccAbove]
        have hs : ∀ j : Fin n, e.symm q j.succ = q.2 j := by intro j; simp [e, MeasurableEquiv.piFinSuccAbove]
        simp only [h0, hs]
      have hint : Integrable (fun q : ℝ × (Fin n → ℝ) => f 0 a q.1 * ∏ i : Fin n, f i.succ ((Fin.cons q.1 q.2 : Fin (n + 1) → ℝ) i.castSucc) (q.2 i)) (volume.prod volume) := by
        refine (integrable_prod_iff ?_).2 ⟨Filter.Eventually.of_forall fun x => (ih2 x).integrable.const_mul (f 0 a x), ?_⟩
        · refine Measurable.aestronglyMeasurable ?_
          exact ((hm 0).comp (measurable_const.prodMk measurable_fst)).mul ih1
        · refine (hd 0 a).integrable.congr (Filter.Eventually.of_forall fun x => ?_)
          simp only [Real.norm_eq_abs]
          have : ∀ y : Fin n → ℝ, |f 0 a x * ∏ i : Fin n, f i.succ ((Fin.cons x y : Fin (n + 1) → ℝ) i.castSucc) (y i)| =
              f 0 a x * ∏ i : Fin n, f i.succ ((Fin.cons x y : Fin (n + 1) → ℝ) i.castSucc) (y i) := fun y => abs_of_nonneg (mul_nonneg ((hd 0 a).nonneg x) ((ih2 x).nonneg y))
          simp only [this, integral_const_mul, (ih2 x).total, mul_one]
      refine ⟨hnn, ?_, ?_⟩
      · rw [← he.integrable_comp_emb e.symm.measurableEmbedding]
        refine hint.congr (Filter.Eventually.of_forall fun q => ?_)
        exact (hes q).symm
      · rw [← he.integral_comp e.symm.measurableEmbedding]
        simp only [hes]
        rw [Measure.volume_eq_prod, integral_prod _ hint]
        simp only [integral_const_mul, (ih2 _).total, mul_one]
        exact (hd 0 a).total

/-- **C61, autoregressive observations** (AR1 and ScaledAR1): given the first observation `y0`, which is not described by the model, the evidence is a probability density on the following observations. -/
theorem C61_autoregressive (E : Env ℝ gs) (grid : (a : Fin d) → Fin (gs a) → ℝ) (tm : TM ℝ) (hE : Regular E) (hL : Linear E tm) (hR : ResetFree tm)
    (S : FitState ℝ gs) (π : Idx gs → ℝ) (hp : PriorMass E.cell S.prior π) (hπ : ∑ x, π x = 1)
    (m : OM) (hm : m = .ar1 ∨ m = .scaledAR1) (hgrid : ∀ i, Admissible m (gridPoint grid i)) (y0 : ℝ)
    {n : ℕ} (τ : Fin (n + 1) → ℝ) (fo eo : Bool) (hmode : eo = true ∨ fo = true ∨ ∀ i : Fin n, τ i.succ = τ i.castSucc + 1) :
    ∃ result : (Fin (n + 1) → ℝ) → FitState ℝ gs,
      (∀ y, fit E grid tm (List.ofFn fun i : Fin (n + 1) => m.likelihood grid (.flat [some ((Fin.cons y0 y : Fin (n + 2) → ℝ) i.castSucc), some (y i)])) (List.ofFn τ) fo eo S = .ok (result y)) ∧
      IsDensity fun y => (result y).logEv.exp := by
  have hmr : RealValued m := by rcases hm with rfl | rfl <;> simp [RealValued]
  have hseg : ∀ a y : ℝ, dataSegment m a y = [a, y] := by rcases hm with rfl | rfl <;> intro a y <;> rfl
  have ht : ∀ θ a y, m.likelihood grid (.flat [some a, some y]) θ = textbook m (gridPoint grid θ) a y := by
    intro θ a y
    have := (C57 m hmr grid θ (hgrid θ) a).1 y
    rw [hseg] at this
    exact this
  have hd : ∀ θ a, IsDensity fun y : ℝ => textbook m (gridPoint grid θ) a y := fun θ a => textbook_isDensity hmr (hgrid θ) a
  have hmeas : ∀ θ, Measurable fun q : ℝ × ℝ => textbook m (gridPoint grid θ) q.1 q.2 := by
    intro θ
    rcases hm with rfl | rfl <;> (simp only [textbook, normalDensity]; fun_prop)
  have hev := fun y : Fin (n + 1) → ℝ => C01_evidence_is_path_sum E grid tm hE hL hR S π hp
    (fun i : Fin (n + 1) => m.likelihood grid (.flat [some ((Fin.cons y0 y : Fin (n + 2) → ℝ) i.castSucc), some (y i)]))
    (fun i θ => by rw [ht]; exact (hd θ _).nonneg _) τ fo eo hmode
  choose result hok hexp using hev
  have hst := kernel_stoch hE hL (tm := tm) (pr := S.prior) (R := (1 : ℝ)) (ρ := π) (Or.inl hR)
  have hcell : 0 < E.cell := cell_pos hE.lattice_pos
  have := hE.nonempty
  have hz : ∀ z : Fin (n + 1) → Idx gs, IsDensity fun y : Fin (n + 1) → ℝ => ∏ i : Fin (n + 1), textbook m (gridPoint grid (z i)) ((Fin.cons y0 y : Fin (n + 2) → ℝ) i.castSucc) (y i) :=
    fun z => (chain_isDensity (fun i => textbook m (gridPoint grid (z i))) (fun i => hmeas (z i)) fun i => hd (z i)).2 y0
  have hfun : ∀ a y, m.likelihood grid (.flat [some a, some y]) = fun θ => textbook m (gridPoint grid θ) a y := fun a y => funext fun θ => ht θ a y
  simp only [hfun] at hexp
  refine ⟨result, hok, fun y => ?_, ?_, ?_⟩
  · rw [hexp]
    exact evidence_nonneg (priorMass_nonneg hcell hp) (fun i => hst.nonneg _) (fun i θ => (hd θ _).nonneg _)
  · simp only [hexp, evidence, pathWeight]
    exact integrable_finsetSum _ fun z _ => (hz z).integrable.const_mul _
  · simp only [hexp, evidence, pathWeight]
    rw [integral_finsetSum _ fun z _ => (hz z).integrable.const_mul _]
    simp only [integral_const_mul, (hz _).total, mul_one]
    rw [← hπ, ← evidence_ones π (fun i : Fin n => kernel E π tm (τ i.castSucc)) (fun i => hst.sum _)]
    simp [evidence, pathWeight]

/-- an observation is repeated with probability 3/4 or 1/4, depending on the parameter; the first one is fair -/
def sticky (h : List (Fin 2)) (x : Fin 2) : Idx Ex.gs2 → ℚ :=
  match h.getLast? with
  | none => Ex.v2 (1 / 2) (1 / 2)
  | some y => if x = y then Ex.v2 (3 / 4) (1 / 4) else Ex.v2 (1 / 4) (3 / 4)

theorem sticky_normalised : Normalised sticky := by
  constructor
  · intro h x
    unfold sticky
    generalize h.getLast? = l
    revert l x
    decide +kernel
  · intro h
    unfold sticky
    simp only [Fin.sum_univ_two]
    generalize h.getLast? = l
    revert l
    decide +kernel

theorem ext_proper : ProperExt (Ex.ext Ex.gs2) where
  gauss := Ex.gaussOK _
  biv_nonneg := by intro a b c k l; simp only [Ex.ext]; split <;> norm_num
  biv_pos := by intro a b c _ _ _; simp [Ex.ext]

/-- regime-switching until time 1, then a walk combined with independent parameter values -/
def switching : TM ℚ := Ex.ser false 1 Ex.regime (.combined [Ex.grw 2, Ex.indep])

theorem switching_conserving (lat : ℚ) : Conserving (Ex.env Ex.gs2 lat) switching := by
  simp [switching, Ex.ser, Ex.regime, Ex.grw, Ex.indep, Conserving, ConservingAll, Ex.axis_x]

/-- The hypotheses are met by a nested, non-linear model, an array prior and an observation model with memory. -/
example : ∃ result : (Fin 3 → Fin 2) → FitState ℚ Ex.gs2,
    (∀ xs, fit (Ex.env Ex.gs2 (1 / 2)) (Ex.grid Ex.gs2) switching (likelihoods sticky [] (List.ofFn xs)) [0, 1, 2] true false (Ex.S0 (.array (some (Ex.v2 1 3)))) = .ok (result xs)) ∧
    (∀ xs, 0 ≤ (result xs).logEv.exp) ∧ ∑ xs, (result xs).logEv.exp = 1 :=
  C61_partial _ _ _ (Ex.S0 (.array (some (Ex.v2 1 3)))) _ ⟨fun _ => ⟨0, by simp [Ex.gs2]⟩⟩ (by intro a; norm_num [Ex.env]) ext_proper (switching_conserving _)
    (.array (Ex.v2 1 3) (by decide +kernel) (by decide +kernel) (Or.inl (by decide +kernel))) ⟨by decide +kernel, by decide +kernel⟩ (by decide +kernel)
    sticky sticky_normalised 2 _ rfl _ _ (Or.inr rfl)

/-- The hypotheses of `C61_real` are met: white noise with standard deviation one or two that follows a random walk (with the weights of scipy), observed at times 0, 1 and 5. -/
example : ∃ result : (Fin 3 → ℝ) → FitState ℝ Ex.gs2,
    (∀ y, fit ⟨fun _ => "std", fun _ => 1, .none, realExt 2 fun _ _ p => p⟩ (fun _ i => i.val + 1) (.leaf (.grw "std") ["sigma"] [.scalar 1] none)
      (List.ofFn fun i => OM.whiteNoise.likelihood (fun _ i => i.val + 1) (.flat [some (y i)])) (List.ofFn ![(0 : ℝ), 1, 5]) true false ⟨.none, [], fun _ => [], 0, []⟩ = .ok (result y)) ∧
    IsDensity fun y => (result y).logEv.exp := by
  have hne : Nonempty (Idx Ex.gs2) := ⟨fun _ => ⟨0, by simp [Ex.gs2]⟩⟩
  refine C61_real _ _ _ ⟨fun _ => one_pos, hne, realExt_gaussOK _ _⟩ ?_ ?_ _ _ .flat ?_ _ (Or.inr (Or.inr (Or.inl rfl))) rfl ?_ _ _ _ (Or.inr (Or.inl rfl))
  · simp [Linear, Env.axis, List.finRange_succ]
  · simp [ResetFree]
  · rw [Finset.sum_const, nsmul_eq_mul]
    exact mul_one_div_cancel (Nat.cast_ne_zero.2 Fintype.card_ne_zero)
  · intro i
    simp only [Admissible, gridPoint, Nat.lt_one_iff, dite_true]
    positivity

/-- The hypotheses of `C61_autoregressive` are met: scaled autoregressive process with correlation and width 1/4 or 1/2, the correlation follows a random walk; full fit at times 0, 1, 2. -/
example (y0 : ℝ) : ∃ result : (Fin 3 → ℝ) → FitState ℝ (fun _ : Fin 2 => 2),
    (∀ y, fit ⟨![ "rho", "std"], fun _ => 1 / 4, .none, realExt 2 fun _ _ p => p⟩ (fun _ k => ((k.val : ℝ) + 1) / 4) (.leaf (.grw "rho") ["sigma"] [.scalar 1] none)
      (List.ofFn fun i : Fin 3 => OM.scaledAR1.likelihood (fun _ k => ((k.val : ℝ) + 1) / 4) (.flat [some ((Fin.cons y0 y : Fin 4 → ℝ) i.castSucc), some (y i)]))
      (List.ofFn ![(0 : ℝ), 1, 2]) false false ⟨.none, [], fun _ => [], 0, []⟩ = .ok (result y)) ∧
    IsDensity fun y => (result y).logEv.exp := by
  have hne : Nonempty (Idx fun _ : Fin 2 => 2) := ⟨fun _ => 0⟩
  refine C61_autoregressive _ _ _ ⟨fun _ => by norm_num, hne, realExt_gaussOK _ _⟩ ?_ ?_ _ _ .flat ?_ _ (Or.inr rfl) ?_ y0 _ _ _ (Or.inr (Or.inr ?_))
  · simp [Linear, Env.axis, List.finRange_succ]
  · simp [ResetFree]
  · rw [Finset.sum_const, nsmul_eq_mul]
    exact mul_one_div_cancel (Nat.cast_ne_zero.2 Fintype.card_ne_zero)
  · intro i
    have h : ∀ k : Fin 2, 0 < ((k.val : ℝ) + 1) / 4 ∧ ((k.val : ℝ) + 1) / 4 < 1 := by
      intro k
      have : (k.val : ℝ) ≤ 1 := by exact_mod_cast (by omega : k.val ≤ 1)
      constructor
      · positivity
      · linarith
    have h0 := h (i 0)
    have h1 := h (i 1)
    exact ⟨h1.1, by change -1 < (((i 0).val : ℝ) + 1) / 4; linarith, h0.2⟩
  · intro i
    fin_cases i
    · norm_num
    · change (2 : ℝ) = 1 + 1
      norm_num

/-- The functions of numpy and scipy meet the hypotheses. -/
theorem realExt_proper {d : ℕ} {gs : Fin d → ℕ} (l : ℕ) (shift : Fin d → ℝ → (Idx gs → ℝ) → (Idx gs → ℝ)) : ProperExt (realExt l shift) where
  gauss := realExt_gaussOK _ _
  biv_nonneg := fun _ _ _ _ _ => bivKernel_nonneg _ _ _ _ _
  biv_pos := fun _ _ _ h1 h2 _ => bivKernel_pos h1 h2 _

/-- The hypotheses of `C61_poisson` are met: a rate of one or two that follows a random walk combined with regime-switching (with the functions of numpy and scipy). -/
example : ∃ result : (Fin 3 → ℕ) → FitState ℝ Ex.gs2,
    (∀ y, fit ⟨fun _ => "rate", fun _ => 1, .none, realExt 2 fun _ _ p => p⟩ (fun _ i => i.val + 1)
      (.combined [.leaf (.grw "rate") ["sigma"] [.scalar 1] none, .leaf .regimeSwitch ["log10pMin"] [.scalar (-3)] none])
      (List.ofFn fun i => OM.poisson.likelihood (fun _ i => i.val + 1) (.flat [some (y i : ℝ)])) [0, 1, 5] true false ⟨.none, [], fun _ => [], 0, []⟩ = .ok (result y)) ∧
    (∀ y, 0 ≤ (result y).logEv.exp) ∧ HasSum (fun y => (result y).logEv.exp) 1 := by
  have hne : Nonempty (Idx Ex.gs2) := ⟨fun _ => ⟨0, by simp [Ex.gs2]⟩⟩
  refine C61_poisson _ _ _ _ _ hne (fun _ => one_pos) (realExt_proper _ _) ?_ .flat ?_ ?_ ?_ 2 _ rfl _ _ (Or.inr rfl)
  · simp [Conserving, ConservingAll, Env.axis, List.finRange_succ]
  · exact trivial
  · rw [Finset.sum_const, nsmul_eq_mul]
    exact mul_one_div_cancel (Nat.cast_ne_zero.2 Fintype.card_ne_zero)
  · intro i
    simp only [gridPoint, Nat.lt_one_iff, dite_true]
    positivity

/-- **C61 fails for change-points** if the cells of the parameter grid do not have volume one: with cells of volume 1/2 and one change-point the evidences of all data
sets of length two sum to 1/2. -/
theorem C61_refuted : ∃ (E : Env ℚ Ex.gs2) (tm : TM ℚ) (ts : List ℚ),
    (∀ a, 0 < E.lattice a) ∧ ProperExt E.ext ∧ PriorMass E.cell .none (fun _ : Idx Ex.gs2 => (1 / 2 : ℚ)) ∧ Normalised sticky ∧
    ∃ result : (Fin 2 → Fin 2) → FitState ℚ Ex.gs2,
      (∀ xs, fit E (Ex.grid Ex.gs2) tm (likelihoods sticky [] (List.ofFn xs)) ts true false (Ex.S0 .none) = .ok (result xs)) ∧
      ∑ xs, (result xs).logEv.exp = 1 / 2 := by
  refine ⟨Ex.env Ex.gs2 (1 / 2), Ex.cp 0, [0, 1], by intro a; norm_num [Ex.env], ext_proper, ?_, sticky_normalised, ?_⟩
  · have h : (fun _ : Idx Ex.gs2 => (1 / 2 : ℚ)) = fun _ => 1 / (Fintype.card (Idx Ex.gs2) : ℚ) := by decide +kernel
    rw [h]; exact .flat
  · have hev : ∀ xs : Fin 2 → Fin 2, ∃ S', fit (Ex.env Ex.gs2 (1 / 2)) (Ex.grid Ex.gs2) (Ex.cp 0) (likelihoods sticky [] (List.ofFn xs)) [0, 1] true false (Ex.S0 .none) = .ok S' := by
      intro xs
      have h : ∀ xs : Fin 2 → Fin 2, (Ex.ev (fit (Ex.env Ex.gs2 (1 / 2)) (Ex.grid Ex.gs2) (Ex.cp 0) (likelihoods sticky [] (List.ofFn xs)) [0, 1] true false (Ex.S0 .none))).any (· ≠ 0) = true := by
        decide +kernel
      obtain ⟨S', h1, -⟩ := Ex.ok_of_ev (h xs)
      exact ⟨S', h1⟩
    choose result hres using hev
    refine ⟨result, hres, ?_⟩
    have hr : ∀ xs, some (result xs).logEv.exp = Ex.ev (fit (Ex.env Ex.gs2 (1 / 2)) (Ex.grid Ex.gs2) (Ex.cp 0) (likelihoods sticky [] (List.ofFn xs)) [0, 1] true false (Ex.S0 .none)) := by
      intro xs; rw [hres]; rfl
    have hv : ∀ xs : Fin 2 → Fin 2, Ex.ev (fit (Ex.env Ex.gs2 (1 / 2)) (Ex.grid Ex.gs2) (Ex.cp 0) (likelihoods sticky [] (List.ofFn xs)) [0, 1] true false (Ex.S0 .none)) = some (1 / 8) := by
      decide +kernel
    have : ∀ xs, (result xs).logEv.exp = 1 / 8 := fun xs => Option.some.inj ((hr xs).trans (hv xs))
    simp only [this]
    decide +kernel

end Props
