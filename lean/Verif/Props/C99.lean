import Verif.Props.C98
import Verif.Props.C02

/-! # C99: comparing models by their evidence -/

set_option linter.unusedSectionVars false

open MeasureTheory
open scoped ENNReal

namespace Spec
open BL

/-- A study with a model: parameter grid, prior (that stands for the probabilities `π`), transition model, and the densities `q x` of an observation for each grid point. -/
structure Candidate (Y : Type) where
  d : ℕ
  gs : Fin d → ℕ
  E : Env ℝ gs
  grid : (a : Fin d) → Fin (gs a) → ℝ
  tm : TM ℝ
  prior : PriorSpec ℝ gs
  π : Idx gs → ℝ
  q : Idx gs → Y → ℝ

variable {Y : Type} [MeasurableSpace Y] {n : ℕ}

/-- the evidence that the fit of the data `y` reports -/
noncomputable def Candidate.evidence (c : Candidate Y) (τ : Fin (n + 1) → ℝ) (fo eo : Bool) (y : Fin (n + 1) → Y) : ℝ :=
  match fit c.E c.grid c.tm (List.ofFn fun i x => c.q x (y i)) (List.ofFn τ) fo eo (FitState.init c.prior) with
  | .ok R => R.logEv.exp
  | .error _ => 0

/-- The distribution of the data according to the model: a parameter path is drawn from prior and transition model, then the data points are drawn independently given the path. -/
noncomputable def Candidate.data (c : Candidate Y) (μ : Measure Y) (τ : Fin (n + 1) → ℝ) : Measure (Fin (n + 1) → Y) :=
  ∑ z : Fin (n + 1) → Idx c.gs, ENNReal.ofReal (c.π (z 0) * ∏ i : Fin n, kernel c.E c.π c.tm (τ i.castSucc) (z i.castSucc) (z i.succ)) •
    Measure.pi fun i => μ.withDensity fun y => ENNReal.ofReal (c.q (z i) y)

/-- The conditions on a model: the prior is proper, the densities have total mass one, the transition model is linear; without change-points in any case in which the evidence is exact (C01), with
change-points if the cells have volume one and no smoothing is involved (C02). -/
structure Candidate.Valid (c : Candidate Y) (μ : Measure Y) (τ : Fin (n + 1) → ℝ) (fo eo : Bool) : Prop where
  regular : Regular c.E
  linear : Linear c.E c.tm
  mass : PriorMass c.E.cell c.prior c.π
  total : ∑ x, c.π x = 1
  measurable : ∀ x, Measurable (c.q x)
  nonneg : ∀ x y, 0 ≤ c.q x y
  integrable : ∀ x, Integrable (c.q x) μ
  density : ∀ x, ∫ y, c.q x y ∂μ = 1
  exact : (ResetFree c.tm ∧ (eo = true ∨ fo = true ∨ ∀ i : Fin n, τ i.succ = τ i.castSucc + 1)) ∨
    ((c.E.cell = 1 ∨ NoChangePoint c.tm) ∧ (c.prior = .none ∨ ∃ v, c.prior = .func v) ∧ (eo = true ∨ fo = true))

end Spec

namespace BL
open Spec
variable {Y : Type} [MeasurableSpace Y] {n : ℕ} {c : Candidate Y} {μ : Measure Y} [SigmaFinite μ] {τ : Fin (n + 1) → ℝ} {fo eo : Bool}

theorem _root_.Spec.Candidate.Valid.resetCond (h : c.Valid μ τ fo eo) : ResetCond c.E c.tm c.prior 1 c.π := by
  have := h.regular.nonempty
  rcases h.exact with h1 | h1
  · exact Or.inl h1.1
  · refine Or.inr ⟨?_, resetOK_prior h.mass h1.2.1⟩
    rcases h1.2.1 with h | ⟨v, h⟩ <;> rw [h] <;> rfl

theorem _root_.Spec.Candidate.Valid.evidence_eq (h : c.Valid μ τ fo eo) (y : Fin (n + 1) → Y) :
    c.evidence τ fo eo y = Spec.evidence c.π (fun i : Fin n => kernel c.E c.π c.tm (τ i.castSucc)) fun i x => c.q x (y i) := by
  rcases h.exact with h1 | h1
  · obtain ⟨R, h2, h3⟩ := Props.C01_evidence_is_path_sum c.E c.grid c.tm h.regular h.linear h1.1 (FitState.init c.prior) c.π h.mass (fun i x => c.q x (y i)) (fun i x => h.nonneg _ _) τ fo eo h1.2
    rw [Candidate.evidence, h2]
    exact h3
  · obtain ⟨R, h2, h3⟩ := Props.C02_partial c.E c.grid c.tm h.regular h.linear h1.1 (FitState.init c.prior) c.π h.mass h1.2.1 (fun i x => c.q x (y i)) (fun i x => h.nonneg _ _) τ fo eo h1.2.2
    rw [Candidate.evidence, h2]
    exact h3

theorem _root_.Spec.Candidate.Valid.weight_nonneg (h : c.Valid μ τ fo eo) (z : Fin (n + 1) → Idx c.gs) : 0 ≤ c.π (z 0) * ∏ i : Fin n, kernel c.E c.π c.tm (τ i.castSucc) (z i.castSucc) (z i.succ) :=
  have := h.regular.nonempty
  mul_nonneg (priorMass_nonneg (cell_pos h.regular.lattice_pos) h.mass _) (Finset.prod_nonneg fun i _ => (kernel_stoch h.regular h.linear h.resetCond).nonneg _ _ _)

theorem _root_.Spec.Candidate.Valid.evidence_nonneg (h : c.Valid μ τ fo eo) (y : Fin (n + 1) → Y) : 0 ≤ c.evidence τ fo eo y := by
  rw [h.evidence_eq]
  exact Finset.sum_nonneg fun z _ => mul_nonneg (h.weight_nonneg z) (Finset.prod_nonneg fun i _ => h.nonneg _ _)

theorem _root_.Spec.Candidate.Valid.evidence_measurable (h : c.Valid μ τ fo eo) : Measurable (c.evidence (n := n) τ fo eo) := by
  have hm := h.measurable
  have : c.evidence (n := n) τ fo eo = fun y => Spec.evidence c.π (fun i : Fin n => kernel c.E c.π c.tm (τ i.castSucc)) fun i x => c.q x (y i) := funext h.evidence_eq
  rw [this]
  unfold Spec.evidence pathWeight
  fun_prop

/-- the evidence is the density of the data -/
theorem _root_.Spec.Candidate.Valid.data_eq (h : c.Valid μ τ fo eo) : c.data μ τ = (Measure.pi fun _ => μ).withDensity fun y => ENNReal.ofReal (c.evidence τ fo eo y) := by
  have hm := h.measurable
  ext B hB
  rw [Candidate.data, withDensity_apply _ hB]
  simp only [Measure.coe_finsetSum, Finset.sum_apply, Measure.coe_smul, Pi.smul_apply, smul_eq_mul, h.evidence_eq, Spec.evidence]
  have e : ∀ y : Fin (n + 1) → Y, ENNReal.ofReal (∑ z : Fin (n + 1) → Idx c.gs, pathWeight c.π (fun i : Fin n => kernel c.E c.π c.tm (τ i.castSucc)) (fun i x => c.q x (y i)) z) =
      ∑ z : Fin (n + 1) → Idx c.gs, ENNReal.ofReal (c.π (z 0) * ∏ i : Fin n, kernel c.E c.π c.tm (τ i.castSucc) (z i.castSucc) (z i.succ)) * ENNReal.ofReal (∏ i, c.q (z i) (y i)) := by
    intro y
    simp only [pathWeight]
    rw [ENNReal.ofReal_sum_of_nonneg fun z _ => mul_nonneg (h.weight_nonneg z) (Finset.prod_nonneg fun i _ => h.nonneg _ _)]
    exact Finset.sum_congr rfl fun z _ => ENNReal.ofReal_mul (h.weight_nonneg z)
  simp only [e]
  rw [lintegral_finsetSum _ fun z _ => by fun_prop]
  refine Finset.sum_congr rfl fun z _ => ?_
  rw [pi_withDensity μ (fun i => c.q (z i)) (fun i => h.nonneg _) fun i => h.integrable _, withDensity_apply _ hB, lintegral_const_mul _ (by fun_prop)]

/-- it is a probability distribution -/
theorem _root_.Spec.Candidate.Valid.data_prob (h : c.Valid μ τ fo eo) : IsProbabilityMeasure (c.data μ τ) := by
  have hlaw : ∀ x, IsProbabilityMeasure (μ.withDensity fun y => ENNReal.ofReal (c.q x y)) := fun x => ⟨by
    rw [withDensity_apply _ MeasurableSet.univ, Measure.restrict_univ, ← ofReal_integral_eq_lintegral_ofReal (h.integrable x) (.of_forall (h.nonneg x)), h.density, ENNReal.ofReal_one]⟩
  have hst := kernel_stoch h.regular h.linear h.resetCond
  refine ⟨?_⟩
  simp only [Candidate.data, Measure.coe_finsetSum, Finset.sum_apply, Measure.coe_smul, Pi.smul_apply, smul_eq_mul, measure_univ, mul_one]
  rw [← ENNReal.ofReal_sum_of_nonneg fun z _ => h.weight_nonneg z]
  have := evidence_ones c.π (fun i : Fin n => kernel c.E c.π c.tm (τ i.castSucc)) fun i => hst.sum _
  simp only [Spec.evidence, pathWeight, Finset.prod_const_one, mul_one] at this
  rw [this, h.total, ENNReal.ofReal_one]

/-- data drawn together with a path have this distribution -/
theorem draws_data (h : c.Valid μ τ fo eo) {Ω : Type} [MeasurableSpace Ω] {P : Measure Ω} {Z : Ω → Fin (n + 1) → Idx c.gs} {X : Ω → Fin (n + 1) → Y}
    (hD : Draws P Z X c.π (fun i : Fin n => kernel c.E c.π c.tm (τ i.castSucc)) fun x => μ.withDensity fun y => ENNReal.ofReal (c.q x y)) : P.map X = c.data μ τ := by
  ext B hB
  rw [Measure.map_apply hD.data hB, Candidate.data]
  simp only [Measure.coe_finsetSum, Finset.sum_apply, Measure.coe_smul, Pi.smul_apply, smul_eq_mul, ← hD.law _ B hB]
  have e : X ⁻¹' B = ⋃ z ∈ (Finset.univ : Finset (Fin (n + 1) → Idx c.gs)), {ω | Z ω = z ∧ X ω ∈ B} := by
    ext ω
    simp
  rw [e, measure_biUnion_finset]
  · intro z _ z' _ hz
    exact Set.disjoint_left.2 fun ω h1 h2 => hz (h1.1.symm.trans h2.1)
  · intro z _
    exact (hD.unknown z).inter (hD.data hB)

end BL

namespace Props
open BL Spec
variable {Y : Type} [MeasurableSpace Y] {n : ℕ}

/-- **C99 (misleading evidence is rare).** If the data are drawn according to one model, then the probability that the evidence of another model is at least `B` times as large (a Bayes factor of at
least `B` in favour of the wrong model) is at most `1/B`; whatever the other model is. -/
theorem C99_misleading (μ : Measure Y) [SigmaFinite μ] (τ : Fin (n + 1) → ℝ) (fo eo : Bool) (c c' : Candidate Y) (h : c.Valid μ τ fo eo) (h' : c'.Valid μ τ fo eo) (B : ℝ) (hB : 0 < B) :
    c.data μ τ {y | B * c.evidence τ fo eo y ≤ c'.evidence τ fo eo y} ≤ ENNReal.ofReal (1 / B) := by
  have hm := h.evidence_measurable
  have hm' := h'.evidence_measurable
  have hS : MeasurableSet {y | B * c.evidence τ fo eo y ≤ c'.evidence τ fo eo y} := measurableSet_le (hm.const_mul _) hm'
  have hp := h'.data_prob
  rw [h.data_eq, withDensity_apply _ hS]
  calc ∫⁻ y in {y | B * c.evidence τ fo eo y ≤ c'.evidence τ fo eo y}, ENNReal.ofReal (c.evidence τ fo eo y) ∂(Measure.pi fun _ => μ)
      ≤ ∫⁻ y in {y | B * c.evidence τ fo eo y ≤ c'.evidence τ fo eo y}, ENNReal.ofReal (1 / B) * ENNReal.ofReal (c'.evidence τ fo eo y) ∂(Measure.pi fun _ => μ) := by
        refine setLIntegral_mono (hm'.ennreal_ofReal.const_mul _) fun y hy => ?_
        rw [← ENNReal.ofReal_mul (by positivity)]
        refine ENNReal.ofReal_le_ofReal ?_
        rw [one_div_mul_eq_div, le_div_iff₀ hB, mul_comm]
        exact hy
    _ ≤ ∫⁻ y, ENNReal.ofReal (1 / B) * ENNReal.ofReal (c'.evidence τ fo eo y) ∂(Measure.pi fun _ => μ) := setLIntegral_le_lintegral _ _
    _ = ENNReal.ofReal (1 / B) := by
        rw [lintegral_const_mul _ hm'.ennreal_ofReal]
        have := hp.measure_univ
        rw [h'.data_eq, withDensity_apply _ MeasurableSet.univ, Measure.restrict_univ] at this
        rw [this, mul_one]

/-- **C99.** One of finitely many models is drawn with probabilities `ρ`, then data according to this model.  The probability of a model that is proportional to its probability `ρ` times
the reported evidence is calibrated (it is the conditional probability given the data); and no rule to guess the model from the data is right more often than a rule that selects a model for which this product (for equal `ρ`: the evidence) is largest. -/
theorem C99 {Ω κ : Type} [Fintype κ] [DecidableEq κ] [MeasurableSpace Ω] (μ : Measure Y) [SigmaFinite μ] (τ : Fin (n + 1) → ℝ) (fo eo : Bool) (c : κ → Candidate Y) (h : ∀ m, (c m).Valid μ τ fo eo)
    (ρ : κ → ℝ) (hρ : ∀ m, 0 ≤ ρ m) (P : Measure Ω) [IsProbabilityMeasure P] (M : Ω → κ) (X : Ω → Fin (n + 1) → Y) (hM : ∀ m, MeasurableSet {ω | M ω = m}) (hX : Measurable X)
    (hD : ∀ m B, MeasurableSet B → P {ω | M ω = m ∧ X ω ∈ B} = ENNReal.ofReal (ρ m) * (c m).data μ τ B) :
    (Calibrated P M X fun ω A => (∑ m ∈ A, ρ m * (c m).evidence τ fo eo (X ω)) / ∑ m, ρ m * (c m).evidence τ fo eo (X ω)) ∧
    ∀ select guess : (Fin (n + 1) → Y) → κ, (∀ m, MeasurableSet {y | select y = m}) → (∀ m, MeasurableSet {y | guess y = m}) →
      (∀ y m, ρ m * (c m).evidence τ fo eo y ≤ ρ (select y) * (c (select y)).evidence τ fo eo y) → P {ω | M ω = guess (X ω)} ≤ P {ω | M ω = select (X ω)} := by
  have hm := fun m => (h m).evidence_measurable
  have hJ : Joint P M X (Measure.pi fun _ => μ) fun m y => ρ m * (c m).evidence τ fo eo y := by
    refine ⟨hM, hX, fun m B hB => ?_⟩
    rw [hD m B hB, (h m).data_eq (fo := fo) (eo := eo), withDensity_apply _ hB, ← lintegral_const_mul _ (hm m).ennreal_ofReal]
    exact lintegral_congr fun y => (ENNReal.ofReal_mul (hρ m)).symm
  have hw : ∀ m, Measurable fun y => ρ m * (c m).evidence τ fo eo y := fun m => (hm m).const_mul _
  have hw0 : ∀ m y, 0 ≤ ρ m * (c m).evidence τ fo eo y := fun m y => mul_nonneg (hρ m) ((h m).evidence_nonneg y)
  refine ⟨calibrated_of_given hJ hw hw0 id _ (.of_forall fun ω A => ?_), fun select guess hs hg hbest => ?_⟩
  · simp [given]
  · have hsel := joint_cover hJ hw hw0 (fun y m => m = select y) fun m => by simpa only [eq_comm] using hs m
    have hgue := joint_cover hJ hw hw0 (fun y m => m = guess y) fun m => by simpa only [eq_comm] using hg m
    rw [hsel, hgue]
    refine lintegral_mono fun ω => ENNReal.ofReal_le_ofReal ?_
    simp only [given, mul_ite, mul_one, mul_zero, Finset.sum_ite_eq', Finset.mem_univ, if_true]
    exact div_le_div_of_nonneg_right (hbest _ _) (Finset.sum_nonneg fun m _ => hw0 m _)

/-- drawing a model, then the data -/
theorem exists_mixture {κ 𝒴 : Type} [Fintype κ] [DecidableEq κ] [MeasurableSpace 𝒴] (ρ : κ → ℝ) (hρ : ∀ m, 0 ≤ ρ m) (h1 : ∑ m, ρ m = 1) (D : κ → Measure 𝒴) [∀ m, IsProbabilityMeasure (D m)] :
    ∃ (Ω : Type) (_ : MeasurableSpace Ω) (P : Measure Ω) (M : Ω → κ) (X : Ω → 𝒴), IsProbabilityMeasure P ∧ (∀ m, MeasurableSet {ω | M ω = m}) ∧ Measurable X ∧
      ∀ m B, MeasurableSet B → P {ω | M ω = m ∧ X ω ∈ B} = ENNReal.ofReal (ρ m) * D m B := by
  letI : MeasurableSpace κ := ⊤
  refine ⟨κ × 𝒴, inferInstance, ∑ m, ENNReal.ofReal (ρ m) • (Measure.dirac m).prod (D m), Prod.fst, Prod.snd, ⟨?_⟩, fun m => measurable_fst (MeasurableSpace.measurableSet_top (s := {m})), measurable_snd, ?_⟩
  · simp only [Measure.coe_finsetSum, Finset.sum_apply, Measure.coe_smul, Pi.smul_apply, measure_univ, smul_eq_mul, mul_one]
    rw [← ENNReal.ofReal_sum_of_nonneg fun z _ => hρ z, h1, ENNReal.ofReal_one]
  · intro m B hB
    have e : {ω : κ × 𝒴 | ω.1 = m ∧ ω.2 ∈ B} = {m} ×ˢ B := by
      ext ω
      simp
    simp only [e, Measure.coe_finsetSum, Finset.sum_apply, Measure.coe_smul, Pi.smul_apply, smul_eq_mul, Measure.prod_prod]
    rw [Finset.sum_eq_single m]
    · rw [Measure.dirac_apply' _ MeasurableSpace.measurableSet_top]; simp
    · intro m' _ hm
      rw [Measure.dirac_apply' _ MeasurableSpace.measurableSet_top, Set.indicator_of_notMem (by simpa using hm)]; simp
    · simp

/-- white noise with standard deviation 1, 2 or 3 that is constant or follows a random walk with a change-point -/
noncomputable def _root_.Ex.noise (tm : TM ℝ) : Candidate ℝ where
  d := 1
  gs := Ex.gs3
  E := Ex.realEnv
  grid := fun _ (i : Fin 3) => (i.val : ℝ) + 1
  tm := tm
  prior := .none
  π := fun _ => 1 / (Fintype.card (Idx Ex.gs3) : ℝ)
  q := fun x y => normalDensity 0 ((x 0 : Fin 3).val + 1) y

theorem _root_.Ex.noise_valid (tm : TM ℝ) (hL : Linear Ex.realEnv tm) : (Ex.noise tm).Valid volume ![0, 1, 2] true false := by
  have := Ex.realEnv_regular.nonempty
  have hd : ∀ x : Idx Ex.gs3, IsDensity (normalDensity 0 ((x 0 : Fin 3).val + 1)) := fun x => normal_isDensity (by positivity) _
  refine ⟨Ex.realEnv_regular, hL, .flat, ?_, fun x => (normal_continuous _ _).measurable, fun x => (hd x).nonneg, fun x => (hd x).integrable, fun x => (hd x).total, Or.inr ⟨Or.inl ?_, Or.inl rfl, Or.inr rfl⟩⟩
  · change ∑ _ : Idx Ex.gs3, 1 / (Fintype.card (Idx Ex.gs3) : ℝ) = 1
    rw [Finset.sum_const, Finset.card_univ, nsmul_eq_mul, mul_one_div_cancel (Nat.cast_ne_zero.2 Fintype.card_ne_zero)]
  · simp [Ex.noise, Ex.realEnv, Env.cell]

/-- The hypotheses are met, with a rule that selects the model with the larger evidence. -/
example : ∃ (Ω : Type) (_ : MeasurableSpace Ω) (P : Measure Ω) (M : Ω → Fin 2) (X : Ω → Fin 3 → ℝ) (select : (Fin 3 → ℝ) → Fin 2), ∀ guess : (Fin 3 → ℝ) → Fin 2, (∀ m, MeasurableSet {y | guess y = m}) →
    P {ω | M ω = guess (X ω)} ≤ P {ω | M ω = select (X ω)} := by
  have h : ∀ m : Fin 2, (Ex.noise (![.leaf .static [] [] none, Ex.realWalk] m)).Valid volume ![0, 1, 2] true false := by
    intro m
    match m with
    | 0 => exact Ex.noise_valid _ (by simp [Linear])
    | 1 => exact Ex.noise_valid _ Ex.realWalk_linear
  have hprob := fun m => (h m).data_prob
  obtain ⟨Ω, hΩ, P, M, X, hP, hM, hX, hD⟩ := exists_mixture (fun _ : Fin 2 => (1 / 2 : ℝ)) (fun _ => by positivity) (by simp) fun m => (Ex.noise (![.leaf .static [] [] none, Ex.realWalk] m)).data volume ![0, 1, 2]
  have hm := fun m => (h m).evidence_measurable
  classical
  obtain ⟨select, hsel⟩ : ∃ select : (Fin 3 → ℝ) → Fin 2, select = fun y => if (Ex.noise (![.leaf .static [] [] none, Ex.realWalk] 0)).evidence ![0, 1, 2] true false y ≤ (Ex.noise (![.leaf .static [] [] none, Ex.realWalk] 1)).evidence ![0, 1, 2] true false y then 1 else 0 := ⟨_, rfl⟩
  refine ⟨Ω, hΩ, P, M, X, select, fun guess hg => ?_⟩
  refine (C99 volume ![0, 1, 2] true false (fun m : Fin 2 => Ex.noise (![.leaf .static [] [] none, Ex.realWalk] m)) h (fun _ => 1 / 2) (fun _ => by positivity) P M X hM hX hD).2 select guess (fun m => ?_) hg fun y m => ?_
  · have : Measurable select := by
      rw [hsel]
      exact Measurable.ite (measurableSet_le (hm 0) (hm 1)) measurable_const measurable_const
    exact this (measurableSet_singleton m)
  · refine mul_le_mul_of_nonneg_left ?_ (by positivity)
    match m with
    | 0 =>
        simp only [hsel]
        split
        · next hc => exact hc
        · exact le_rfl
    | 1 =>
        simp only [hsel]
        split
        · exact le_rfl
        · next hc => exact (not_le.1 hc).le

end Props
