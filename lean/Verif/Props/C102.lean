import Verif.Props.C99
import Mathlib.Probability.ProductMeasure

/-! # C102: stopping after having looked at the results -/

set_option linter.unusedSectionVars false

open MeasureTheory
open scoped ENNReal

namespace Spec

/-- A rule that decides after each data point whether to stop, knowing the data points so far only: `stop y` is the time step of the last data point that is analysed. -/
structure Stopping {Y : Type} [MeasurableSpace Y] {n : ℕ} (stop : (Fin (n + 1) → Y) → Fin (n + 1)) : Prop where
  measurable : ∀ i, MeasurableSet {y | stop y = i}
  past : ∀ y y', upTo (stop y) y = upTo (stop y) y' → stop y' = stop y

/-- The data that are analysed (their number depends on the data). -/
def seen {Y : Type} {n : ℕ} (stop : (Fin (n + 1) → Y) → Fin (n + 1)) (y : Fin (n + 1) → Y) : Σ i : Fin (n + 1), (Fin (i.val + 1) → Y) := ⟨stop y, upTo (stop y) y⟩

end Spec

namespace BL
open Spec

/-- measurable sets of a disjoint union -/
theorem measurableSet_sigma_iff {I : Type} {𝒴 : I → Type} [∀ i, MeasurableSpace (𝒴 i)] (B : Set (Σ i, 𝒴 i)) : MeasurableSet B ↔ ∀ i, MeasurableSet (Sigma.mk i ⁻¹' B) := by
  rw [MeasurableSpace.measurableSet_iInf]
  rfl

theorem measurable_sigma_iff {I β : Type} {𝒴 : I → Type} [∀ i, MeasurableSpace (𝒴 i)] [MeasurableSpace β] (f : (Σ i, 𝒴 i) → β) : Measurable f ↔ ∀ i, Measurable fun y => f ⟨i, y⟩ :=
  ⟨fun h _ _ hB => (measurableSet_sigma_iff _).1 (h hB) _, fun h _ hB => (measurableSet_sigma_iff _).2 fun i => h i hB⟩

theorem measurable_sigma_mk {I : Type} {𝒴 : I → Type} [∀ i, MeasurableSpace (𝒴 i)] (i : I) : Measurable (Sigma.mk i : 𝒴 i → Σ i, 𝒴 i) :=
  fun _ hB => (measurableSet_sigma_iff _).1 hB i

/-- unknown quantity and data at a time that is determined by the data -/
theorem joint_stopped {Ω ζ I : Type} [Fintype I] [DecidableEq I] [MeasurableSpace Ω] {𝒴 : I → Type} [∀ i, MeasurableSpace (𝒴 i)] {P : Measure Ω} {U : I → Ω → ζ} {X : (i : I) → Ω → 𝒴 i} {ν : (i : I) → Measure (𝒴 i)}
    {w : (i : I) → ζ → 𝒴 i → ℝ} (h : ∀ i, Joint P (U i) (X i) (ν i) (w i)) (hw : ∀ i z, Measurable (w i z)) (stop : Ω → I) (S : (i : I) → Set (𝒴 i)) (hS : ∀ i, MeasurableSet (S i))
    (hstop : ∀ ω i, stop ω = i ↔ X i ω ∈ S i) :
    Joint P (fun ω => U (stop ω) ω) (fun ω => (⟨stop ω, X (stop ω) ω⟩ : Σ i, 𝒴 i)) (Measure.sum fun i => ((ν i).restrict (S i)).map (Sigma.mk i)) fun z y => w y.1 z y.2 := by
  have hsm : ∀ i, MeasurableSet {ω | stop ω = i} := fun i => by
    simp only [hstop]
    exact (h i).data (hS i)
  refine ⟨fun z => ?_, fun B hB => ?_, fun z B hB => ?_⟩
  · have e : {ω | U (stop ω) ω = z} = ⋃ i, {ω | U i ω = z} ∩ {ω | stop ω = i} := by
      ext ω
      simp
    rw [e]
    exact MeasurableSet.iUnion fun i => ((h i).unknown z).inter (hsm i)
  · have e : (fun ω => (⟨stop ω, X (stop ω) ω⟩ : Σ i, 𝒴 i)) ⁻¹' B = ⋃ i, X i ⁻¹' (Sigma.mk i ⁻¹' B) ∩ {ω | stop ω = i} := by
      ext ω
      simp
    rw [e]
    exact MeasurableSet.iUnion fun i => ((h i).data ((measurableSet_sigma_iff _).1 hB i)).inter (hsm i)
  · have e : {ω | U (stop ω) ω = z ∧ (⟨stop ω, X (stop ω) ω⟩ : Σ i, 𝒴 i) ∈ B} = ⋃ i ∈ (Finset.univ : Finset I), {ω | U i ω = z ∧ X i ω ∈ Sigma.mk i ⁻¹' B ∩ S i} := by
      ext ω
      simp only [Set.mem_ofPred_eq, Finset.mem_univ, Set.iUnion_true, Set.mem_iUnion, Set.mem_inter_iff, Set.mem_preimage, ← hstop]
      constructor
      · intro hω
        exact ⟨stop ω, hω.1, hω.2, rfl⟩
      · rintro ⟨i, h1, h2, rfl⟩
        exact ⟨h1, h2⟩
    have hBi := fun i => ((measurableSet_sigma_iff _).1 hB i).inter (hS i)
    rw [e, measure_biUnion_finset]
    · rw [Measure.restrict_sum _ hB, lintegral_sum_measure, tsum_fintype]
      refine Finset.sum_congr rfl fun i _ => ?_
      rw [(h i).law z _ (hBi i), setLIntegral_map hB _ (measurable_sigma_mk i), Measure.restrict_restrict ((measurableSet_sigma_iff _).1 hB i)]
      exact ((measurable_sigma_iff _).2 fun i => hw i z).ennreal_ofReal
    · intro i _ j _ hij
      refine Set.disjoint_left.2 fun ω h1 h2 => hij ?_
      rw [← (hstop ω i).2 h1.2.2, ← (hstop ω j).2 h2.2.2]
    · intro i _
      exact ((h i).unknown z).inter ((h i).data (hBi i))

/-- part of the unknown quantity -/
theorem joint_map {Ω ζ κ 𝒴 : Type} [MeasurableSpace Ω] [MeasurableSpace 𝒴] [Fintype ζ] [DecidableEq κ] {P : Measure Ω} {Z : Ω → ζ} {X : Ω → 𝒴} {ν : Measure 𝒴} {w : ζ → 𝒴 → ℝ} (h : Joint P Z X ν w)
    (hw : ∀ z, Measurable (w z)) (hw0 : ∀ z y, 0 ≤ w z y) (pt : ζ → κ) : Joint P (fun ω => pt (Z ω)) X ν fun x y => ∑ z with pt z = x, w z y := by
  refine ⟨fun x => ?_, h.data, fun x B hB => ?_⟩
  · have e : {ω | pt (Z ω) = x} = ⋃ z ∈ Finset.univ.filter fun z => pt z = x, {ω | Z ω = z} := by
      ext ω
      simp
    rw [e]
    exact Finset.measurableSet_biUnion _ fun z _ => h.unknown z
  · have e : {ω | pt (Z ω) = x ∧ X ω ∈ B} = ⋃ z ∈ Finset.univ.filter fun z => pt z = x, {ω | Z ω = z ∧ X ω ∈ B} := by
      ext ω
      simp
    rw [e, measure_biUnion_finset]
    · simp only [h.law _ B hB, ENNReal.ofReal_sum_of_nonneg fun z _ => hw0 z _]
      rw [lintegral_finsetSum _ fun z _ => (hw z).ennreal_ofReal]
    · intro z _ z' _ hz
      exact Set.disjoint_left.2 fun ω h1 h2 => hz (h1.1.symm.trans h2.1)
    · intro z _
      exact (h.unknown z).inter (h.data hB)

variable {Y : Type} [MeasurableSpace Y] {n : ℕ}

theorem upTo_measurable (i : Fin (n + 1)) : Measurable (upTo i : (Fin (n + 1) → Y) → _) :=
  measurable_pi_lambda _ fun _ => measurable_pi_apply _

/-- the data for which one stops at time step `i`, as a condition on the data up to this time step -/
theorem _root_.Spec.Stopping.sets {stop : (Fin (n + 1) → Y) → Fin (n + 1)} (h : Stopping stop) : ∃ S : (i : Fin (n + 1)) → Set (Fin (i.val + 1) → Y), (∀ i, MeasurableSet (S i)) ∧ ∀ y i, stop y = i ↔ upTo i y ∈ S i := by
  let ext := fun (i : Fin (n + 1)) (p : Fin (i.val + 1) → Y) (j : Fin (n + 1)) => p ⟨min j i, by omega⟩
  have hext : ∀ i p, upTo i (ext i p) = p := fun i p => by
    funext j
    simp only [upTo, ext]
    congr 1
    ext
    simp
    omega
  refine ⟨fun i => {p | stop (ext i p) = i}, fun i => ?_, fun y i => ⟨fun hy => ?_, fun hy => ?_⟩⟩
  · have : Measurable (ext i) := measurable_pi_lambda _ fun _ => measurable_pi_apply _
    exact this (h.measurable i)
  · subst hy
    exact h.past y _ (hext _ _).symm
  · change stop (ext i (upTo i y)) = i at hy
    have := h.past (ext i (upTo i y)) y (by rw [hy, hext])
    rw [this, hy]

variable {c : Candidate Y} {μ : Measure Y} [SigmaFinite μ] {τ : Fin (n + 1) → ℝ} {fo eo : Bool}

theorem _root_.Spec.Candidate.Valid.upTo (h : c.Valid μ τ fo eo) (i : Fin (n + 1)) : c.Valid μ (Spec.upTo i τ) fo eo :=
  ⟨h.regular, h.linear, h.mass, h.total, h.measurable, h.nonneg, h.integrable, h.density,
    h.exact.imp (fun h => ⟨h.1, h.2.imp id fun h => h.imp id fun h j => h (Fin.castLE (Nat.le_of_lt_succ i.isLt) j)⟩) id⟩

/-- the distribution of the first data points -/
theorem _root_.Spec.Candidate.Valid.data_upTo (h : c.Valid μ τ fo eo) (i : Fin (n + 1)) : (c.data μ τ).map (Spec.upTo i) = c.data μ (Spec.upTo i τ) := by
  have := h.regular.nonempty
  have hlaw : ∀ x, IsProbabilityMeasure (μ.withDensity fun y => ENNReal.ofReal (c.q x y)) := fun x => ⟨by
    rw [withDensity_apply _ MeasurableSet.univ, Measure.restrict_univ, ← ofReal_integral_eq_lintegral_ofReal (h.integrable x) (.of_forall (h.nonneg x)), h.density, ENNReal.ofReal_one]⟩
  have hst := kernel_stoch h.regular h.linear h.resetCond
  have hπ := priorMass_nonneg (cell_pos h.regular.lattice_pos) h.mass
  have h1 := evidence_ones c.π (fun i : Fin n => kernel c.E c.π c.tm (τ i.castSucc)) fun i => hst.sum _
  simp only [Spec.evidence, pathWeight, Finset.prod_const_one, mul_one] at h1
  rw [h.total] at h1
  obtain ⟨Ω, _, P, Z, X, hP, hD⟩ := exists_draws c.π (fun i : Fin n => kernel c.E c.π c.tm (τ i.castSucc)) (fun x => μ.withDensity fun y => ENNReal.ofReal (c.q x y)) hπ (fun i => hst.nonneg _) h1
  rw [← draws_data h hD, Measure.map_map (upTo_measurable i) hD.data]
  exact draws_data (h.upTo i) (draws_upTo hπ (fun i => hst.nonneg _) (fun i => hst.sum _) hD i)

end BL

namespace Props
open BL Spec
variable {Y : Type} [MeasurableSpace Y] {n : ℕ}

/-- **C102 (watching the evidence).** Data are drawn according to one model and are fitted again after each data point, with this model and with another one.  The probability that the evidence of the other model ever becomes at
least `B` times as large is at most `1/B`, for any number of data points. -/
theorem C102_watch (μ : Measure Y) [SigmaFinite μ] (τ : Fin (n + 1) → ℝ) (fo eo : Bool) (c c' : Candidate Y) (h : c.Valid μ τ fo eo) (h' : c'.Valid μ τ fo eo) (B : ℝ) (hB : 0 < B) :
    c.data μ τ {y | ∃ i, B * c.evidence (upTo i τ) fo eo (upTo i y) ≤ c'.evidence (upTo i τ) fo eo (upTo i y)} ≤ ENNReal.ofReal (1 / B) := by
  have hm := fun i => (h.upTo i).evidence_measurable
  have hm' := fun i => (h'.upTo i).evidence_measurable
  have hp := h'.data_prob
  -- reached at time step `i`
  obtain ⟨A, hA⟩ : ∃ A : (i : Fin (n + 1)) → Set (Fin (i.val + 1) → Y), A = fun i => {y | B * c.evidence (upTo i τ) fo eo y ≤ c'.evidence (upTo i τ) fo eo y} := ⟨_, rfl⟩
  have hAm : ∀ i, MeasurableSet (A i) := fun i => by
    rw [hA]
    exact measurableSet_le ((hm i).const_mul _) (hm' i)
  -- reached at time step `i` for the first time
  obtain ⟨F, hF⟩ : ∃ F : (i : Fin (n + 1)) → Set (Fin (i.val + 1) → Y), F = fun i => {y | y ∈ A i ∧ ∀ j : Fin (n + 1), ∀ hj : j < i, (fun k : Fin (j.val + 1) => y (Fin.castLE (by omega) k)) ∉ A j} := ⟨_, rfl⟩
  have hFm : ∀ i, MeasurableSet (F i) := fun i => by
    rw [hF]
    beta_reduce
    have e : {y : Fin (i.val + 1) → Y | y ∈ A i ∧ ∀ j : Fin (n + 1), ∀ hj : j < i, (fun k : Fin (j.val + 1) => y (Fin.castLE (by omega) k)) ∉ A j} =
        A i ∩ ⋂ j : Fin (n + 1), ⋂ hj : j < i, {y | (fun k : Fin (j.val + 1) => y (Fin.castLE (by omega) k)) ∉ A j} := by
      ext y
      simp
    rw [e]
    refine (hAm i).inter ?_
    refine MeasurableSet.iInter fun j => MeasurableSet.iInter fun hj => ?_
    have : Measurable fun (y : Fin (i.val + 1) → Y) (k : Fin (j.val + 1)) => y (Fin.castLE (by omega) k) := measurable_pi_lambda _ fun _ => measurable_pi_apply _
    exact (this (hAm j)).compl
  have hone : ∀ i, c.data μ (upTo i τ) (F i) ≤ ENNReal.ofReal (1 / B) * c'.data μ (upTo i τ) (F i) := fun i => by
    rw [(h.upTo i).data_eq, (h'.upTo i).data_eq, withDensity_apply _ (hFm i), withDensity_apply _ (hFm i), ← lintegral_const_mul _ (hm' i).ennreal_ofReal]
    refine setLIntegral_mono ((hm' i).ennreal_ofReal.const_mul _) fun y hy => ?_
    rw [← ENNReal.ofReal_mul (by positivity)]
    refine ENNReal.ofReal_le_ofReal ?_
    rw [one_div_mul_eq_div, le_div_iff₀ hB, mul_comm]
    have : y ∈ A i := by
      rw [hF] at hy
      exact hy.1
    rw [hA] at this
    exact this
  have hfirst : {y | ∃ i, B * c.evidence (upTo i τ) fo eo (upTo i y) ≤ c'.evidence (upTo i τ) fo eo (upTo i y)} ⊆ ⋃ i ∈ (Finset.univ : Finset (Fin (n + 1))), upTo i ⁻¹' F i := by
    rintro y ⟨i, hi⟩
    have hi' : upTo i y ∈ A i := by rw [hA]; exact hi
    obtain ⟨j, hj, hmin⟩ := WellFounded.has_min (wellFounded_lt (α := Fin (n + 1))) {i | upTo i y ∈ A i} ⟨i, hi'⟩
    simp only [Finset.mem_univ, Set.iUnion_true, Set.mem_iUnion, Set.mem_preimage]
    refine ⟨j, ?_⟩
    rw [hF]
    exact ⟨hj, fun k hk hkA => hmin k hkA hk⟩
  have hdisj : Set.PairwiseDisjoint (↑(Finset.univ : Finset (Fin (n + 1)))) fun i => (upTo i ⁻¹' F i : Set (Fin (n + 1) → Y)) := by
    have hlt : ∀ i j : Fin (n + 1), i < j → Disjoint (upTo i ⁻¹' F i : Set (Fin (n + 1) → Y)) (upTo j ⁻¹' F j) := fun i j hij => by
      refine Set.disjoint_left.2 fun y h1 h2 => ?_
      simp only [hF, Set.mem_preimage, Set.mem_ofPred_eq] at h1 h2
      exact h2.2 i hij h1.1
    intro i _ j _ hij
    rcases lt_or_gt_of_ne hij with h | h
    · exact hlt i j h
    · exact (hlt j i h).symm
  calc c.data μ τ {y | ∃ i, B * c.evidence (upTo i τ) fo eo (upTo i y) ≤ c'.evidence (upTo i τ) fo eo (upTo i y)}
      ≤ c.data μ τ (⋃ i ∈ (Finset.univ : Finset (Fin (n + 1))), upTo i ⁻¹' F i) := measure_mono hfirst
    _ = ∑ i, c.data μ τ (upTo i ⁻¹' F i) := measure_biUnion_finset hdisj fun i _ => upTo_measurable i (hFm i)
    _ = ∑ i, c.data μ (upTo i τ) (F i) := Finset.sum_congr rfl fun i _ => by rw [← h.data_upTo i, Measure.map_apply (upTo_measurable i) (hFm i)]
    _ ≤ ∑ i, ENNReal.ofReal (1 / B) * c'.data μ (upTo i τ) (F i) := Finset.sum_le_sum fun i _ => hone i
    _ = ENNReal.ofReal (1 / B) * ∑ i, c'.data μ τ (upTo i ⁻¹' F i) := by
        rw [Finset.mul_sum]
        exact Finset.sum_congr rfl fun i _ => by rw [← h'.data_upTo i, Measure.map_apply (upTo_measurable i) (hFm i)]
    _ = ENNReal.ofReal (1 / B) * c'.data μ τ (⋃ i ∈ (Finset.univ : Finset (Fin (n + 1))), upTo i ⁻¹' F i) := by rw [measure_biUnion_finset hdisj fun i _ => upTo_measurable i (hFm i)]
    _ ≤ ENNReal.ofReal (1 / B) * 1 := mul_le_mul_right prob_le_one _
    _ = ENNReal.ofReal (1 / B) := mul_one _

/-- **C102 (watching the evidence without end).** The same for an infinite sequence of data points, each finite part of which is distributed according to the first model. -/
theorem C102_forever {Ω : Type} [MeasurableSpace Ω] (μ : Measure Y) [SigmaFinite μ] (τ : ℕ → ℝ) (fo eo : Bool) (c c' : Candidate Y) (h : ∀ n, c.Valid μ (fun i : Fin (n + 1) => τ i) fo eo)
    (h' : ∀ n, c'.Valid μ (fun i : Fin (n + 1) => τ i) fo eo) (P : Measure Ω) (X : Ω → ℕ → Y) (hX : Measurable X) (hD : ∀ n, P.map (fun ω (i : Fin (n + 1)) => X ω i) = c.data μ fun i => τ i) (B : ℝ) (hB : 0 < B) :
    P {ω | ∃ n : ℕ, B * c.evidence (n := n) (fun i => τ i) fo eo (fun i => X ω i) ≤ c'.evidence (n := n) (fun i => τ i) fo eo fun i => X ω i} ≤ ENNReal.ofReal (1 / B) := by
  obtain ⟨D, hDef⟩ : ∃ D : ℕ → Set Ω, D = fun n => {ω | ∃ m ≤ n, B * c.evidence (n := m) (fun i => τ i) fo eo (fun i => X ω i) ≤ c'.evidence (n := m) (fun i => τ i) fo eo fun i => X ω i} := ⟨_, rfl⟩
  have e : {ω | ∃ n : ℕ, B * c.evidence (n := n) (fun i => τ i) fo eo (fun i => X ω i) ≤ c'.evidence (n := n) (fun i => τ i) fo eo fun i => X ω i} = ⋃ n, D n := by
    ext ω
    simp only [hDef, Set.mem_iUnion, Set.mem_ofPred_eq]
    exact ⟨fun ⟨n, hn⟩ => ⟨n, n, le_rfl, hn⟩, fun ⟨_, m, _, hm⟩ => ⟨m, hm⟩⟩
  have hmono : Monotone D := fun m n hmn ω hω => by
    rw [hDef] at hω ⊢
    obtain ⟨k, hk, hk'⟩ := hω
    exact ⟨k, hk.trans hmn, hk'⟩
  rw [e, hmono.measure_iUnion]
  refine iSup_le fun n => ?_
  have hpm : Measurable fun ω (i : Fin (n + 1)) => X ω i := measurable_pi_lambda _ fun i => (measurable_pi_apply (i : ℕ)).comp hX
  have e2 : D n = (fun ω (i : Fin (n + 1)) => X ω i) ⁻¹' {y | ∃ i, B * c.evidence (upTo i fun i : Fin (n + 1) => τ i) fo eo (upTo i y) ≤ c'.evidence (upTo i fun i : Fin (n + 1) => τ i) fo eo (upTo i y)} := by
    ext ω
    rw [hDef]
    constructor
    · rintro ⟨m, hm, hk⟩
      exact ⟨⟨m, by omega⟩, hk⟩
    · rintro ⟨i, hi⟩
      exact ⟨i, by omega, hi⟩
  have hm : MeasurableSet {y : Fin (n + 1) → Y | ∃ i, B * c.evidence (upTo i fun i : Fin (n + 1) => τ i) fo eo (upTo i y) ≤ c'.evidence (upTo i fun i : Fin (n + 1) => τ i) fo eo (upTo i y)} := by
    have : {y : Fin (n + 1) → Y | ∃ i, B * c.evidence (upTo i fun i : Fin (n + 1) => τ i) fo eo (upTo i y) ≤ c'.evidence (upTo i fun i : Fin (n + 1) => τ i) fo eo (upTo i y)} =
        ⋃ i, upTo i ⁻¹' {y | B * c.evidence (upTo i fun i : Fin (n + 1) => τ i) fo eo y ≤ c'.evidence (upTo i fun i : Fin (n + 1) => τ i) fo eo y} := by
      ext y
      simp
    rw [this]
    exact MeasurableSet.iUnion fun i => upTo_measurable i (measurableSet_le (((h n).upTo i).evidence_measurable.const_mul _) ((h' n).upTo i).evidence_measurable)
  rw [e2, ← Measure.map_apply hpm hm, hD]
  exact C102_watch μ _ fo eo c c' (h n) (h' n) B hB

/-- **C102 (comparing models).** One of finitely many models is drawn with probabilities `ρ`, then data according to this model; data points are analysed until a rule that looks at the data tells to stop.  The probabilities of
the models computed from the evidences of the analysed data are calibrated nevertheless. -/
theorem C102_models {Ω κ : Type} [Fintype κ] [DecidableEq κ] [MeasurableSpace Ω] (μ : Measure Y) [SigmaFinite μ] (τ : Fin (n + 1) → ℝ) (fo eo : Bool) (c : κ → Candidate Y) (h : ∀ m, (c m).Valid μ τ fo eo)
    (ρ : κ → ℝ) (hρ : ∀ m, 0 ≤ ρ m) (P : Measure Ω) [IsProbabilityMeasure P] (M : Ω → κ) (X : Ω → Fin (n + 1) → Y) (hM : ∀ m, MeasurableSet {ω | M ω = m}) (hX : Measurable X)
    (hD : ∀ m B, MeasurableSet B → P {ω | M ω = m ∧ X ω ∈ B} = ENNReal.ofReal (ρ m) * (c m).data μ τ B) (stop : (Fin (n + 1) → Y) → Fin (n + 1)) (hstop : Stopping stop) :
    Calibrated P M (fun ω => seen stop (X ω)) fun ω A =>
      (∑ m ∈ A, ρ m * (c m).evidence (upTo (stop (X ω)) τ) fo eo (upTo (stop (X ω)) (X ω))) / ∑ m, ρ m * (c m).evidence (upTo (stop (X ω)) τ) fo eo (upTo (stop (X ω)) (X ω)) := by
  obtain ⟨S, hS, hiff⟩ := hstop.sets
  have hm := fun i m => ((h m).upTo i).evidence_measurable
  have hJ : ∀ i, Joint P M (fun ω => upTo i (X ω)) (Measure.pi fun _ => μ) fun m y => ρ m * (c m).evidence (upTo i τ) fo eo y := by
    refine fun i => ⟨hM, (upTo_measurable i).comp hX, fun m B hB => ?_⟩
    rw [show {ω | M ω = m ∧ upTo i (X ω) ∈ B} = {ω | M ω = m ∧ X ω ∈ upTo i ⁻¹' B} from rfl, hD m _ (upTo_measurable i hB), ← Measure.map_apply (upTo_measurable i) hB, (h m).data_upTo i,
      ((h m).upTo i).data_eq, withDensity_apply _ hB, ← lintegral_const_mul _ (hm i m).ennreal_ofReal]
    exact lintegral_congr fun y => (ENNReal.ofReal_mul (hρ m)).symm
  have hw : ∀ i m, Measurable fun y => ρ m * (c m).evidence (upTo i τ) fo eo y := fun i m => (hm i m).const_mul _
  have hJs := joint_stopped hJ hw (fun ω => stop (X ω)) S hS fun ω i => hiff (X ω) i
  refine calibrated_of_given hJs (fun m => (measurable_sigma_iff _).2 fun i => hw i m) (fun m y => mul_nonneg (hρ m) (((h m).upTo y.1).evidence_nonneg _)) id _ (.of_forall fun ω A => ?_)
  simp [given]

/-- report of the path model, sorted by the value at one time -/
theorem report_value {ι : Type} [Fintype ι] [DecidableEq ι] {n : ℕ} (W : (Fin (n + 1) → ι) → ℝ) (k : Fin (n + 1)) (g : ι → ℝ) :
    (∑ x, (∑ z with z k = x, W z) * g x) / (∑ x, ∑ z with z k = x, W z) = (∑ z, W z * g (z k)) / ∑ z, W z := by
  congr 1
  · rw [← Finset.sum_fiberwise_of_maps_to (t := Finset.univ) (g := fun z : Fin (n + 1) → ι => z k) fun _ _ => Finset.mem_univ _]
    refine Finset.sum_congr rfl fun x _ => ?_
    rw [Finset.sum_mul]
    refine Finset.sum_congr rfl fun z hz => ?_
    rw [(Finset.mem_filter.1 hz).2]
  · exact Finset.sum_fiberwise_of_maps_to (t := Finset.univ) (g := fun z : Fin (n + 1) → ι => z k) (fun _ _ => Finset.mem_univ _) _

/-- the report of a forward-only fit at the last time step, and of a full fit at any time step -/
theorem report_mode {d : ℕ} {gs : Fin d → ℕ} {E : Env ℝ gs} {grid : (a : Fin d) → Fin (gs a) → ℝ} {tm : TM ℝ} (hE : Regular E) (hL : Linear E tm) {S : FitState ℝ gs} {π : Idx gs → ℝ} (hp : PriorMass E.cell S.prior π)
    (hRc : ResetCond E tm S.prior 1 π) {m : ℕ} (τ : Fin (m + 1) → ℝ) (L : Fin (m + 1) → Idx gs → ℝ) (hL0 : ∀ i x, 0 ≤ L i x) (fo : Bool) (k : Fin (m + 1))
    (hmode : (fo = true ∧ k = Fin.last m) ∨ (fo = false ∧ (ResetFree tm ∨ S.prior = .none) ∧ ∀ i : Fin m, τ i.succ = τ i.castSucc + 1))
    (hpos : 0 < ∑ z, pathWeight π (fun i : Fin m => kernel E π tm (τ i.castSucc)) L z) :
    Report (fit E grid tm (List.ofFn L) (List.ofFn τ) fo false S) k grid π (fun i : Fin m => kernel E π tm (τ i.castSucc)) L k := by
  have := hE.nonempty
  rcases hmode with ⟨rfl, rfl⟩ | ⟨rfl, hR, hU⟩
  · obtain ⟨R, h1, h2, h3, -⟩ := linear_filtering (S := S) (grid := grid) hE hL hp hRc hL0 hpos.ne'
    exact report_given h1 (by rw [h2, List.getElem?_ofFn, dif_pos (Fin.last m).isLt]; rfl) fun a => by rw [h3, List.getElem?_ofFn, dif_pos (Fin.last m).isLt]; rfl
  · have hu : ResetFree tm ∨ ∀ x, π x = 1 / (Fintype.card (Idx gs) : ℝ) := by
      rcases hR with h | h
      · exact Or.inl h
      · rw [h] at hp
        cases hp
        exact Or.inr fun x => rfl
    obtain ⟨R, h1, h2, h3, -⟩ := linear_posterior (S := S) (grid := grid) hE hL hp hRc hL0 (matched_of_unit hU) _ hu hpos.ne'
    exact report_given h1 (by rw [h2, List.getElem?_ofFn, dif_pos k.isLt]) fun a => by rw [h3, List.getElem?_ofFn, dif_pos k.isLt]

/-- **C102 (parameter values).** Nature draws parameter path and data as in C98; data points are analysed until a rule that looks at the data tells to stop.  The reported posterior probabilities of the analysed data are calibrated,
and the reported mean values are the conditional expectations, nevertheless:
* forward-only fit (any time stamps), at the time step of the last analysed data point;
* full fit (time stamps with unit distance; change-points only with a flat prior), at any time step `k`. -/
theorem C102_posterior {d : ℕ} {gs : Fin d → ℕ} {Ω : Type} [MeasurableSpace Ω] (E : Env ℝ gs) (grid : (a : Fin d) → Fin (gs a) → ℝ) (tm : TM ℝ) (hE : Regular E) (hL : Linear E tm) (S : FitState ℝ gs) (π : Idx gs → ℝ)
    (hp : PriorMass E.cell S.prior π) (τ : Fin (n + 1) → ℝ) (μ : Measure Y) [SigmaFinite μ] (q : Idx gs → Y → ℝ) (hq : ∀ x, Measurable (q x)) (hq0 : ∀ x y, 0 ≤ q x y) (hqi : ∀ x, Integrable (q x) μ) (hq1 : ∀ x, ∫ y, q x y ∂μ = 1)
    (P : Measure Ω) [IsProbabilityMeasure P] (Z : Ω → Fin (n + 1) → Idx gs) (X : Ω → Fin (n + 1) → Y)
    (hD : Draws P Z X π (fun i : Fin n => kernel E π tm (τ i.castSucc)) fun x => μ.withDensity fun y => ENNReal.ofReal (q x y)) (stop : (Fin (n + 1) → Y) → Fin (n + 1)) (hstop : Stopping stop) (fo : Bool)
    (k : (i : Fin (n + 1)) → Fin (i.val + 1))
    (hmode : (fo = true ∧ (ResetFree tm ∨ S.prior = .none ∨ ∃ v, S.prior = .func v) ∧ ∀ i, k i = Fin.last _) ∨ (fo = false ∧ (ResetFree tm ∨ S.prior = .none) ∧ ∀ i : Fin n, τ i.succ = τ i.castSucc + 1)) :
    (Calibrated P (fun ω => upTo (stop (X ω)) (Z ω) (k (stop (X ω)))) (fun ω => seen stop (X ω)) fun ω =>
      probIn (fit E grid tm (List.ofFn fun i x => q x (upTo (stop (X ω)) (X ω) i)) (List.ofFn (upTo (stop (X ω)) τ)) fo false S) (k (stop (X ω)))) ∧
    ∀ a, P[fun ω => grid a (upTo (stop (X ω)) (Z ω) (k (stop (X ω))) a) | MeasurableSpace.comap (fun ω => seen stop (X ω)) inferInstance] =ᵐ[P] fun ω =>
      meanAt (fit E grid tm (List.ofFn fun i x => q x (upTo (stop (X ω)) (X ω) i)) (List.ofFn (upTo (stop (X ω)) τ)) fo false S) (k (stop (X ω))) a := by
  classical
  have := hE.nonempty
  have hπ := priorMass_nonneg (cell_pos hE.lattice_pos) hp
  obtain ⟨A, hA, hiff⟩ := hstop.sets
  have hRc : ResetCond E tm S.prior 1 π := by
    have : ResetFree tm ∨ S.prior = .none ∨ ∃ v, S.prior = .func v := by
      rcases hmode with h | h
      · exact h.2.1
      · exact h.2.1.imp id Or.inl
    rcases this with h | h
    · exact Or.inl h
    · refine Or.inr ⟨?_, resetOK_prior hp h⟩
      rcases h with h | ⟨v, h⟩ <;> rw [h] <;> rfl
  have hst := kernel_stoch hE hL (tm := tm) (pr := S.prior) hRc
  have hlaw : ∀ x, IsProbabilityMeasure (μ.withDensity fun y => ENNReal.ofReal (q x y)) := fun x => ⟨by
    rw [withDensity_apply _ MeasurableSet.univ, Measure.restrict_univ, ← ofReal_integral_eq_lintegral_ofReal (hqi x) (.of_forall (hq0 x)), hq1, ENNReal.ofReal_one]⟩
  have hJ := fun i => joint_of_draws μ q hq hq0 hqi hπ (fun i => hst.nonneg _) (draws_upTo hπ (fun i => hst.nonneg _) (fun i => hst.sum _) hD i)
  have hw0 : ∀ {n : ℕ} (τ : Fin (n + 1) → ℝ) (z : Fin (n + 1) → Idx gs) (y : Fin (n + 1) → Y), 0 ≤ pathWeight π (fun i : Fin n => kernel E π tm (τ i.castSucc)) (fun i x => q x (y i)) z := fun τ z y =>
    mul_nonneg (mul_nonneg (hπ _) (Finset.prod_nonneg fun i _ => hst.nonneg _ _ _)) (Finset.prod_nonneg fun i _ => hq0 _ _)
  have hw : ∀ {n : ℕ} (τ : Fin (n + 1) → ℝ) (z : Fin (n + 1) → Idx gs), Measurable fun y : Fin (n + 1) → Y => pathWeight π (fun i : Fin n => kernel E π tm (τ i.castSucc)) (fun i x => q x (y i)) z := fun τ z => by
    unfold pathWeight
    fun_prop
  have hJk := fun i => joint_map (hJ i) (hw (upTo i τ)) (hw0 (upTo i τ)) fun z => z (k i)
  have hwk : ∀ i x, Measurable fun y : Fin (i.val + 1) → Y => ∑ z : Fin (i.val + 1) → Idx gs with z (k i) = x, pathWeight π (fun j : Fin i.val => kernel E π tm (upTo i τ j.castSucc)) (fun j x => q x (y j)) z :=
    fun i x => Finset.measurable_sum _ fun z _ => hw (upTo i τ) z
  have hJs := joint_stopped hJk hwk (fun ω => stop (X ω)) A hA fun ω i => hiff (X ω) i
  have hws : ∀ x, Measurable fun y : Σ i : Fin (n + 1), (Fin (i.val + 1) → Y) => ∑ z : Fin (y.1.val + 1) → Idx gs with z (k y.1) = x, pathWeight π (fun j : Fin y.1.val => kernel E π tm (upTo y.1 τ j.castSucc)) (fun j x => q x (y.2 j)) z :=
    fun x => (measurable_sigma_iff _).2 fun i => hwk i x
  have hws0 : ∀ x (y : Σ i : Fin (n + 1), (Fin (i.val + 1) → Y)), 0 ≤ ∑ z : Fin (y.1.val + 1) → Idx gs with z (k y.1) = x, pathWeight π (fun j : Fin y.1.val => kernel E π tm (upTo y.1 τ j.castSucc)) (fun j x => q x (y.2 j)) z :=
    fun x y => Finset.sum_nonneg fun z _ => hw0 (upTo y.1 τ) z y.2
  have key : ∀ᵐ ω ∂P, ∀ i : Fin (n + 1), Report (fit E grid tm (List.ofFn fun j x => q x (upTo i (X ω) j)) (List.ofFn (upTo i τ)) fo false S) (k i) grid π (fun j : Fin i.val => kernel E π tm (upTo i τ j.castSucc))
      (fun j x => q x (upTo i (X ω) j)) (k i) := by
    rw [ae_all_iff]
    intro i
    filter_upwards [joint_ae_pos (hJ i) (hw (upTo i τ)) (hw0 (upTo i τ))] with ω hω
    refine report_mode hE hL hp hRc (upTo i τ) _ (fun j x => hq0 _ _) fo (k i) ?_ hω
    exact hmode.imp (fun h => ⟨h.1, h.2.2 i⟩) fun h => ⟨h.1, h.2.1, fun j => h.2.2 (Fin.castLE (Nat.le_of_lt_succ i.isLt) j)⟩
  refine ⟨calibrated_of_given hJs hws hws0 id _ ?_, fun a => (joint_condExp hJs hws hws0 fun x => grid a (x a)).trans ?_⟩
  · filter_upwards [key] with ω hω A
    rw [(hω _).1 A, given, ← report_value _ (k (stop (X ω))) fun x => if x ∈ A then (1 : ℝ) else 0]
    rfl
  · filter_upwards [key] with ω hω
    rw [(hω _).2 a, given]
    exact report_value _ (k (stop (X ω))) fun x : Idx gs => grid a (x a)

theorem _root_.Ex.noise_valid_all (tm : TM ℝ) (hL : Linear Ex.realEnv tm) {n : ℕ} (τ : Fin (n + 1) → ℝ) : (Ex.noise tm).Valid volume τ true false := by
  have h := Ex.noise_valid tm hL
  exact ⟨h.regular, h.linear, h.mass, h.total, h.measurable, h.nonneg, h.integrable, h.density, Or.inr ⟨Or.inl (by simp [Ex.noise, Ex.realEnv, Env.cell]), Or.inl rfl, Or.inr rfl⟩⟩

/-- an infinite sequence of data points according to a model with constant parameters -/
theorem exists_sequence {c : Candidate Y} {μ : Measure Y} [SigmaFinite μ] {fo eo : Bool} {τ : ℕ → ℝ} (hs : ∃ nm vs hp, c.tm = .leaf .static nm vs hp) (h : ∀ n, c.Valid μ (fun i : Fin (n + 1) => τ i) fo eo) :
    ∃ (Ω : Type) (_ : MeasurableSpace Ω) (P : Measure Ω) (X : Ω → ℕ → Y), Measurable X ∧ ∀ n, P.map (fun ω (i : Fin (n + 1)) => X ω i) = c.data μ fun i => τ i := by
  have hlaw : ∀ x, IsProbabilityMeasure (μ.withDensity fun y => ENNReal.ofReal (c.q x y)) := fun x => ⟨by
    rw [withDensity_apply _ MeasurableSet.univ, Measure.restrict_univ, ← ofReal_integral_eq_lintegral_ofReal ((h 0).integrable x) (.of_forall ((h 0).nonneg x)), (h 0).density, ENNReal.ofReal_one]⟩
  obtain ⟨nm, vs, hp, htm⟩ := hs
  refine ⟨ℕ → Y, inferInstance, ∑ x, ENNReal.ofReal (c.π x) • Measure.infinitePi fun _ : ℕ => μ.withDensity fun y => ENNReal.ofReal (c.q x y), id, measurable_id, fun n => ?_⟩
  have hm : Measurable fun (y : ℕ → Y) (i : Fin (n + 1)) => y i := measurable_pi_lambda _ fun i => measurable_pi_apply _
  have hpre : ∀ x, (Measure.infinitePi fun _ : ℕ => μ.withDensity fun y => ENNReal.ofReal (c.q x y)).map (fun (y : ℕ → Y) (i : Fin (n + 1)) => y i) = Measure.pi fun _ => μ.withDensity fun y => ENNReal.ofReal (c.q x y) := by
    intro x
    refine (Measure.pi_eq fun s hs => ?_).symm
    rw [Measure.map_apply hm (MeasurableSet.univ_pi hs)]
    classical
    have e : (fun (y : ℕ → Y) (i : Fin (n + 1)) => y i) ⁻¹' Set.univ.pi s = Set.pi (Finset.range (n + 1)) fun j => if hj : j < n + 1 then s ⟨j, hj⟩ else Set.univ := by
      ext y
      simp only [Set.mem_preimage, Set.mem_pi, Set.mem_univ, true_imp_iff, Finset.coe_range, Set.mem_Iio]
      constructor
      · intro hy j hj
        rw [dif_pos hj]
        exact hy ⟨j, hj⟩
      · intro hy i
        have := hy i i.isLt
        rwa [dif_pos i.isLt] at this
    rw [e, Measure.infinitePi_pi _ fun j hj => by rw [dif_pos (by simpa using hj)]; exact hs _, Finset.prod_range]
    refine Finset.prod_congr rfl fun i _ => ?_
    rw [dif_pos i.isLt]
  ext B hB
  simp only [id]
  rw [Candidate.data, Measure.map_apply hm hB]
  simp only [Measure.coe_finsetSum, Finset.sum_apply, Measure.coe_smul, Pi.smul_apply, smul_eq_mul]
  classical
  refine Finset.sum_of_injOn (fun x _ => x) (fun x _ x' _ hx => congrFun hx 0) (fun x _ => by simp) (fun z _ hz => ?_) fun x _ => ?_
  · have : ∃ i : Fin n, z i.castSucc ≠ z i.succ := by
      by_contra hc
      push Not at hc
      refine hz ⟨z 0, by simp, funext fun i => ?_⟩
      refine Fin.induction rfl (fun i hi => ?_) i
      rw [hi, hc]
    obtain ⟨i, hi⟩ := this
    rw [Finset.prod_eq_zero (Finset.mem_univ i), mul_zero, ENNReal.ofReal_zero, zero_mul]
    rw [htm]
    simp [kernel, stay, hi]
  · rw [← hpre, Measure.map_apply hm hB, htm]
    simp [kernel, stay]

/-- The hypotheses of `C102_watch` and `C102_forever` are met. -/
example : ∃ (Ω : Type) (_ : MeasurableSpace Ω) (P : Measure Ω) (X : Ω → ℕ → ℝ), P {ω | ∃ n : ℕ, 20 * (Ex.noise (.leaf .static [] [] none)).evidence (n := n) (fun i => (i : ℕ)) true false (fun i => X ω i) ≤
    (Ex.noise Ex.realWalk).evidence (n := n) (fun i => (i : ℕ)) true false fun i => X ω i} ≤ ENNReal.ofReal (1 / 20) := by
  have h := fun n : ℕ => Ex.noise_valid_all (.leaf .static [] [] none) (by simp [Linear]) fun i : Fin (n + 1) => ((i : ℕ) : ℝ)
  obtain ⟨Ω, hΩ, P, X, hX, hD⟩ := exists_sequence (τ := fun i : ℕ => (i : ℝ)) ⟨_, _, _, rfl⟩ h
  exact ⟨Ω, hΩ, P, X, C102_forever volume (fun i => (i : ℝ)) true false _ _ h (fun n => Ex.noise_valid_all _ Ex.realWalk_linear _) P X hX hD 20 (by norm_num)⟩

/-- a stopping rule: stop after the first data point larger than one -/
theorem _root_.Ex.stopLarge : Stopping fun y : Fin 3 → ℝ => if 1 < y 0 then (0 : Fin 3) else if 1 < y 1 then 1 else 2 := by
  refine ⟨fun i => ?_, fun y y' h => ?_⟩
  · have : Measurable fun y : Fin 3 → ℝ => if 1 < y 0 then (0 : Fin 3) else if 1 < y 1 then 1 else 2 :=
      Measurable.ite (measurableSet_lt measurable_const (measurable_pi_apply 0)) measurable_const
        (Measurable.ite (measurableSet_lt measurable_const (measurable_pi_apply 1)) measurable_const measurable_const)
    exact this (measurableSet_singleton i)
  · have key : ∀ j : Fin 3, j ≤ (if 1 < y 0 then (0 : Fin 3) else if 1 < y 1 then 1 else 2) → y j = y' j := fun j hj => congrFun h ⟨j, Nat.lt_succ_of_le hj⟩
    have h0 := key 0 (Fin.zero_le _)
    simp only [← h0]
    by_cases h1 : 1 < y 0
    · simp [h1]
    · have h3 := key 1 (by rw [if_neg h1]; split <;> decide)
      simp only [← h3]

/-- The hypotheses of `C102_posterior` are met (with the rule `Ex.stopLarge`). -/
example : ∃ (Ω : Type) (_ : MeasurableSpace Ω) (P : Measure Ω) (Z : Ω → Fin 3 → Idx Ex.gs3) (X : Ω → Fin 3 → ℝ), IsProbabilityMeasure P ∧
    Draws P Z X (Ex.noise Ex.realWalk).π (fun i : Fin 2 => kernel Ex.realEnv (Ex.noise Ex.realWalk).π Ex.realWalk ((![0, 3, 4] : Fin 3 → ℝ) i.castSucc)) fun x => volume.withDensity fun y => ENNReal.ofReal ((Ex.noise Ex.realWalk).q x y) := by
  have h := Ex.noise_valid_all Ex.realWalk Ex.realWalk_linear ![0, 3, 4]
  have hlaw : ∀ x : Idx Ex.gs3, IsProbabilityMeasure (volume.withDensity fun y => ENNReal.ofReal ((Ex.noise Ex.realWalk).q x y)) := fun x => ⟨by
    rw [withDensity_apply _ MeasurableSet.univ, Measure.restrict_univ, ← ofReal_integral_eq_lintegral_ofReal (h.integrable x) (.of_forall (h.nonneg x))]
    exact (congrArg ENNReal.ofReal (h.density x)).trans ENNReal.ofReal_one⟩
  exact draws_exist Ex.realEnv Ex.realWalk Ex.realEnv_regular Ex.realWalk_linear (FitState.init .none) _ h.mass h.total (Or.inr (Or.inl rfl)) ![0, 3, 4] _

end Props
