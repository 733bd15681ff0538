import Verif.Lemmas.Calibration
import Verif.Props.C03
import Verif.Props.C04
import Verif.Props.C61
import Verif.Props.C95
import Verif.Props.C96

/-! # C98: reported probabilities are calibrated, mean values are the best estimates -/

set_option linter.unusedSectionVars false

open MeasureTheory
open scoped ENNReal

namespace Spec
open BL
variable {d : ℕ} {gs : Fin d → ℕ}

/-- The posterior probability that a fit reports for the set `A` of grid points at time step `k`. -/
def probIn (r : Except PyErr (FitState ℝ gs)) (k : ℕ) (A : Finset (Idx gs)) : ℝ :=
  match r with
  | .ok R => match R.posts[k]? with
    | some (.val p) => ∑ x ∈ A, p x
    | _ => 0
  | .error _ => 0

/-- The mean value that a fit reports for parameter `a` at time step `k`. -/
def meanAt (r : Except PyErr (FitState ℝ gs)) (k : ℕ) (a : Fin d) : ℝ :=
  match r with
  | .ok R => ((R.means a)[k]?).getD 0
  | .error _ => 0

/-- `Calibrated P U X p`: the reported probabilities `p A` tell what can be said about the unknown quantity `U` after having seen the data `X`.
* `conditional`: the reported probabilities are the conditional probabilities given the data;
* `frequency`: among all cases in which the reported probability of a set is between `l` and `u`, the unknown quantity is in this set in a fraction between `l` and `u`;
* `covered`: sets that are chosen after looking at the data and have a reported probability of at least `l` contain the unknown quantity with probability at least `l`. -/
structure Calibrated {Ω 𝒴 κ : Type} [MeasurableSpace Ω] [MeasurableSpace 𝒴] (P : Measure Ω) (U : Ω → κ) (X : Ω → 𝒴) (p : Ω → Finset κ → ℝ) : Prop where
  conditional : ∀ A : Finset κ, P[{ω | U ω ∈ A}.indicator fun _ => (1 : ℝ) | MeasurableSpace.comap X inferInstance] =ᵐ[P] fun ω => p ω A
  frequency : ∀ (A : Finset κ) (l u : ℝ), ENNReal.ofReal l * P {ω | l ≤ p ω A ∧ p ω A ≤ u} ≤ P {ω | U ω ∈ A ∧ l ≤ p ω A ∧ p ω A ≤ u} ∧
    P {ω | U ω ∈ A ∧ l ≤ p ω A ∧ p ω A ≤ u} ≤ ENNReal.ofReal u * P {ω | l ≤ p ω A ∧ p ω A ≤ u}
  covered : ∀ (A : 𝒴 → Finset κ) (l : ℝ), (∀ x, MeasurableSet {y | x ∈ A y}) → (∀ᵐ ω ∂P, l ≤ p ω (A (X ω))) → ENNReal.ofReal l ≤ P {ω | U ω ∈ A (X ω)}

/-- `Honest P Z X grid k r`: the reported results `r` tell what can be said about the unknown grid point `Z` at time step `k` after having seen the data `X`.
* `calibrated`: the reported probabilities of sets of grid points are calibrated;
* `expected`: the reported mean values are the conditional expectations given the data;
* `best`: no other estimate of a parameter value from the data has a smaller mean squared error than the reported mean value. -/
structure Honest {Ω 𝒴 : Type} [MeasurableSpace Ω] [MeasurableSpace 𝒴] (P : Measure Ω) (Z : Ω → Idx gs) (X : Ω → 𝒴) (grid : (a : Fin d) → Fin (gs a) → ℝ) (k : ℕ) (r : Ω → Except PyErr (FitState ℝ gs)) : Prop where
  calibrated : Calibrated P Z X fun ω => probIn (r ω) k
  expected : ∀ a, P[fun ω => grid a (Z ω a) | MeasurableSpace.comap X inferInstance] =ᵐ[P] fun ω => meanAt (r ω) k a
  best : ∀ a (δ : 𝒴 → ℝ), Measurable δ → ∫⁻ ω, ENNReal.ofReal ((grid a (Z ω a) - meanAt (r ω) k a) ^ 2) ∂P ≤ ∫⁻ ω, ENNReal.ofReal ((grid a (Z ω a) - δ (X ω)) ^ 2) ∂P

end Spec

namespace BL
open Spec
variable {d : ℕ} {gs : Fin d → ℕ}

/-- what calibrated probabilities are made of -/
theorem calibrated_of_given {Ω ζ 𝒴 κ : Type} [MeasurableSpace Ω] [MeasurableSpace 𝒴] [Fintype ζ] [DecidableEq κ] {P : Measure Ω} [IsProbabilityMeasure P] {Z : Ω → ζ} {X : Ω → 𝒴} {ν : Measure 𝒴} {w : ζ → 𝒴 → ℝ}
    (h : Joint P Z X ν w) (hw : ∀ z, Measurable (w z)) (hw0 : ∀ z y, 0 ≤ w z y) (pt : ζ → κ) (p : Ω → Finset κ → ℝ)
    (hp : ∀ᵐ ω ∂P, ∀ A, p ω A = given w (fun z => if pt z ∈ A then 1 else 0) (X ω)) : Calibrated P (fun ω => pt (Z ω)) X p := by
  refine ⟨fun A => ?_, fun A l u => ?_, fun A l hA hl => ?_⟩
  · have := joint_condExp h hw hw0 fun z => if pt z ∈ A then (1 : ℝ) else 0
    have e : ({ω | pt (Z ω) ∈ A}.indicator fun _ => (1 : ℝ)) = fun ω => if pt (Z ω) ∈ A then (1 : ℝ) else 0 := by
      funext ω
      simp [Set.indicator]
    rw [e]
    refine this.trans ?_
    filter_upwards [hp] with ω hω
    exact (hω A).symm
  · let g := fun y => given w (fun z => if pt z ∈ A then (1 : ℝ) else 0) y
    have hgm : Measurable g := given_measurable hw _
    have hB : MeasurableSet {y | l ≤ g y ∧ g y ≤ u} := (measurableSet_le measurable_const hgm).inter (measurableSet_le hgm measurable_const)
    have e1 : P {ω | l ≤ p ω A ∧ p ω A ≤ u} = P {ω | l ≤ g (X ω) ∧ g (X ω) ≤ u} := by
      refine measure_congr ?_
      filter_upwards [hp] with ω hω
      exact propext (by change (l ≤ p ω A ∧ p ω A ≤ u) ↔ (l ≤ g (X ω) ∧ g (X ω) ≤ u); rw [hω A])
    have e2 : P {ω | pt (Z ω) ∈ A ∧ l ≤ p ω A ∧ p ω A ≤ u} = P {ω | pt (Z ω) ∈ A ∧ l ≤ g (X ω) ∧ g (X ω) ≤ u} := by
      refine measure_congr ?_
      filter_upwards [hp] with ω hω
      exact propext (by change (pt (Z ω) ∈ A ∧ l ≤ p ω A ∧ p ω A ≤ u) ↔ (pt (Z ω) ∈ A ∧ l ≤ g (X ω) ∧ g (X ω) ≤ u); rw [hω A])
    have e3 : P {ω | pt (Z ω) ∈ A ∧ l ≤ g (X ω) ∧ g (X ω) ≤ u} = ∫⁻ ω in X ⁻¹' {y | l ≤ g y ∧ g y ≤ u}, ENNReal.ofReal (g (X ω)) ∂P := by
      rw [← joint_setLIntegral h hw hw0 (fun z => if pt z ∈ A then 1 else 0) (fun z => by split <;> simp) _ hB, ← lintegral_indicator (h.data hB)]
      have hset : MeasurableSet {ω | pt (Z ω) ∈ A ∧ l ≤ g (X ω) ∧ g (X ω) ≤ u} := by
        have : {ω | pt (Z ω) ∈ A ∧ l ≤ g (X ω) ∧ g (X ω) ≤ u} = (fun ω => if pt (Z ω) ∈ A then (1 : ℝ) else 0) ⁻¹' {1} ∩ X ⁻¹' {y | l ≤ g y ∧ g y ≤ u} := by
          ext ω
          simp
        rw [this]
        exact (joint_unknown_comp h (fun z => if pt z ∈ A then (1 : ℝ) else 0) (measurableSet_singleton 1)).inter (h.data hB)
      rw [← lintegral_indicator_one hset]
      refine lintegral_congr fun ω => ?_
      by_cases h1 : pt (Z ω) ∈ A <;> by_cases h2 : l ≤ g (X ω) ∧ g (X ω) ≤ u <;> simp [Set.indicator, h1, h2]
    rw [e1, e2, e3]
    constructor
    · rw [← setLIntegral_const]
      exact setLIntegral_mono (hgm.comp h.data).ennreal_ofReal fun ω hω => ENNReal.ofReal_le_ofReal hω.1
    · rw [← setLIntegral_const]
      exact setLIntegral_mono measurable_const fun ω hω => ENNReal.ofReal_le_ofReal hω.2
  · rw [joint_cover h hw hw0 (fun y z => pt z ∈ A y) fun z => hA (pt z)]
    have : ENNReal.ofReal l = ∫⁻ _, ENNReal.ofReal l ∂P := by simp
    rw [this]
    refine lintegral_mono_ae ?_
    filter_upwards [hp, hl] with ω h1 h2
    rw [h1] at h2
    exact ENNReal.ofReal_le_ofReal h2
/-- what an honest report is made of -/
theorem honest_of_given {Ω ζ 𝒴 : Type} [MeasurableSpace Ω] [MeasurableSpace 𝒴] [Fintype ζ] {P : Measure Ω} [IsProbabilityMeasure P] {Z : Ω → ζ} {X : Ω → 𝒴} {ν : Measure 𝒴} {w : ζ → 𝒴 → ℝ}
    (h : Joint P Z X ν w) (hw : ∀ z, Measurable (w z)) (hw0 : ∀ z y, 0 ≤ w z y) (pt : ζ → Idx gs) (grid : (a : Fin d) → Fin (gs a) → ℝ) (k : ℕ) (r : Ω → Except PyErr (FitState ℝ gs))
    (hp : ∀ᵐ ω ∂P, ∀ A, probIn (r ω) k A = given w (fun z => if pt z ∈ A then 1 else 0) (X ω)) (hmean : ∀ᵐ ω ∂P, ∀ a, meanAt (r ω) k a = given w (fun z => grid a (pt z a)) (X ω)) :
    Honest P (fun ω => pt (Z ω)) X grid k r := by
  refine ⟨calibrated_of_given h hw hw0 pt _ hp, fun a => ?_, fun a δ hδ => ?_⟩
  · refine (joint_condExp h hw hw0 fun z => grid a (pt z a)).trans ?_
    filter_upwards [hmean] with ω hω
    exact (hω a).symm
  · refine le_trans (le_of_eq (lintegral_congr_ae ?_)) (joint_best h hw hw0 (fun z => grid a (pt z a)) δ hδ)
    filter_upwards [hmean] with ω hω
    rw [hω a]

/-- probability that the path is in `A` at time `k`, and its mean value -/
theorem posterior_given {ι : Type} [Fintype ι] [DecidableEq ι] {n : ℕ} (π : ι → ℝ) (T : Fin n → ι → ι → ℝ) (L : Fin (n + 1) → ι → ℝ) (k : Fin (n + 1)) (f : ι → ℝ) :
    ∑ x, posterior π T L k x * f x = (∑ z, pathWeight π T L z * f (z k)) / ∑ z, pathWeight π T L z := by
  simp only [posterior, Spec.marginal, evidence, div_mul_eq_mul_div]
  rw [← Finset.sum_div, paths_by_value]

/-- the report at time step `k` is the one of the path model at time `i` -/
def Report {n : ℕ} (r : Except PyErr (FitState ℝ gs)) (k : ℕ) (grid : (a : Fin d) → Fin (gs a) → ℝ) (π : Idx gs → ℝ) (T : Fin n → Idx gs → Idx gs → ℝ) (L : Fin (n + 1) → Idx gs → ℝ) (i : Fin (n + 1)) : Prop :=
  (∀ A, probIn r k A = (∑ z, pathWeight π T L z * if z i ∈ A then 1 else 0) / ∑ z, pathWeight π T L z) ∧
    ∀ a, meanAt r k a = (∑ z, pathWeight π T L z * grid a (z i a)) / ∑ z, pathWeight π T L z

/-- reports of a fit that stores the posterior distribution of a path model -/
theorem report_given {n : ℕ} {π : Idx gs → ℝ} {T : Fin n → Idx gs → Idx gs → ℝ} {L : Fin (n + 1) → Idx gs → ℝ} {i : Fin (n + 1)} {R : FitState ℝ gs} {k : ℕ} {grid : (a : Fin d) → Fin (gs a) → ℝ}
    {r : Except PyErr (FitState ℝ gs)} (hr : r = .ok R) (h1 : R.posts[k]? = some (.val (posterior π T L i))) (h2 : ∀ a, (R.means a)[k]? = some (mean grid a (posterior π T L i))) : Report r k grid π T L i := by
  subst hr
  refine ⟨fun A => ?_, fun a => ?_⟩
  · rw [← posterior_given π T L i fun x => if x ∈ A then 1 else 0]
    simp [probIn, h1]
  · rw [← posterior_given π T L i fun x => grid a (x a)]
    simp only [meanAt, h2, Option.getD_some]
    rfl

end BL

namespace Props
open BL Spec
variable {d : ℕ} {gs : Fin d → ℕ} {Ω Y : Type} [MeasurableSpace Ω] [MeasurableSpace Y]

/-- **C98 (general).** Parameter path and data have a joint distribution whose density is the weight of the path (prior × transition probabilities × likelihoods, which may depend on the data in any way): the
full fit of the data reports, at every time step, what can be said about the parameter values after having seen all data. -/
theorem C98_full (E : Env ℝ gs) (grid : (a : Fin d) → Fin (gs a) → ℝ) (tm : TM ℝ) (hE : Regular E) (hL : Linear E tm) (S : FitState ℝ gs) (π : Idx gs → ℝ) (hp : PriorMass E.cell S.prior π)
    (hR : ResetFree tm ∨ S.prior = .none) {n : ℕ} (τ : Fin (n + 1) → ℝ) (hU : ∀ i : Fin n, τ i.succ = τ i.castSucc + 1) (ν : Measure Y) (L : Y → Fin (n + 1) → Idx gs → ℝ)
    (hLm : ∀ i x, Measurable fun y => L y i x) (hL0 : ∀ y i x, 0 ≤ L y i x) (P : Measure Ω) [IsProbabilityMeasure P] (Z : Ω → Fin (n + 1) → Idx gs) (X : Ω → Y)
    (hJ : Joint P Z X ν fun z y => pathWeight π (fun i : Fin n => kernel E π tm (τ i.castSucc)) (L y) z) (k : Fin (n + 1)) :
    Honest P (fun ω => Z ω k) X grid k fun ω => fit E grid tm (List.ofFn (L (X ω))) (List.ofFn τ) false false S := by
  have := hE.nonempty
  have hR' : ResetCond E tm S.prior 1 π := by
    rcases hR with h | h
    · exact Or.inl h
    · exact Or.inr ⟨by rw [h]; rfl, resetOK_prior hp (Or.inl h)⟩
  have hu : ResetFree tm ∨ ∀ x, π x = 1 / (Fintype.card (Idx gs) : ℝ) := by
    rcases hR with h | h
    · exact Or.inl h
    · rw [h] at hp
      cases hp
      exact Or.inr fun x => rfl
  have hst := kernel_stoch hE hL (tm := tm) (pr := S.prior) hR'
  have hw0 : ∀ (z : Fin (n + 1) → Idx gs) y, 0 ≤ pathWeight π (fun i : Fin n => kernel E π tm (τ i.castSucc)) (L y) z := fun z y =>
    mul_nonneg (mul_nonneg (priorMass_nonneg (cell_pos hE.lattice_pos) hp _) (Finset.prod_nonneg fun i _ => hst.nonneg _ _ _)) (Finset.prod_nonneg fun i _ => hL0 y i _)
  have hw : ∀ z : Fin (n + 1) → Idx gs, Measurable fun y => pathWeight π (fun i : Fin n => kernel E π tm (τ i.castSucc)) (L y) z := fun z => by
    unfold pathWeight
    fun_prop
  have key : ∀ᵐ ω ∂P, Report (fit E grid tm (List.ofFn (L (X ω))) (List.ofFn τ) false false S) k grid π (fun i : Fin n => kernel E π tm (τ i.castSucc)) (L (X ω)) k := by
    filter_upwards [joint_ae_pos hJ hw hw0] with ω hω
    obtain ⟨R, h1, h2, h3, -⟩ := linear_posterior (S := S) (grid := grid) hE hL hp hR' (hL0 (X ω)) (matched_of_unit hU) _ hu hω.ne'
    exact report_given (i := k) (k := k) (grid := grid) h1 (by rw [h2, List.getElem?_ofFn, dif_pos k.isLt]) fun a => by rw [h3, List.getElem?_ofFn, dif_pos k.isLt]
  exact honest_of_given hJ hw hw0 (fun z => z k) grid k _ (key.mono fun ω h => h.1) (key.mono fun ω h => h.2)

/-- **C98.** If nature draws the parameter path from the prior and the transition model, and the data points independently from the distributions that the observation model assigns to the parameter values, then
* a full fit (time stamps with unit distance; change-points only with a flat prior) reports, at every time step, what can be said about the parameter values after having seen all data;
* a forward-only fit (any time stamps) reports, at every time step, what can be said after having seen the data up to this time step.
The distribution of the data points is given by densities `q x` with respect to any measure (probability mass functions: counting measure). -/
theorem C98 (E : Env ℝ gs) (grid : (a : Fin d) → Fin (gs a) → ℝ) (tm : TM ℝ) (hE : Regular E) (hL : Linear E tm) (S : FitState ℝ gs) (π : Idx gs → ℝ) (hp : PriorMass E.cell S.prior π)
    {n : ℕ} (τ : Fin (n + 1) → ℝ) (μ : Measure Y) [SigmaFinite μ] (q : Idx gs → Y → ℝ) (hq : ∀ x, Measurable (q x)) (hq0 : ∀ x y, 0 ≤ q x y) (hqi : ∀ x, Integrable (q x) μ) (hq1 : ∀ x, ∫ y, q x y ∂μ = 1)
    (P : Measure Ω) [IsProbabilityMeasure P] (Z : Ω → Fin (n + 1) → Idx gs) (X : Ω → Fin (n + 1) → Y)
    (hD : Draws P Z X π (fun i : Fin n => kernel E π tm (τ i.castSucc)) fun x => μ.withDensity fun y => ENNReal.ofReal (q x y)) (k : Fin (n + 1)) :
    ((ResetFree tm ∨ S.prior = .none) → (∀ i : Fin n, τ i.succ = τ i.castSucc + 1) →
      Honest P (fun ω => Z ω k) X grid k fun ω => fit E grid tm (List.ofFn fun i x => q x (X ω i)) (List.ofFn τ) false false S) ∧
    ((ResetFree tm ∨ S.prior = .none ∨ ∃ v, S.prior = .func v) →
      Honest P (fun ω => Z ω k) (fun ω => upTo k (X ω)) grid k fun ω => fit E grid tm (List.ofFn fun i x => q x (X ω i)) (List.ofFn τ) true false S) := by
  have := hE.nonempty
  have hπ := priorMass_nonneg (cell_pos hE.lattice_pos) hp
  have hRc : (ResetFree tm ∨ S.prior = .none ∨ ∃ v, S.prior = .func v) → ResetCond E tm S.prior 1 π := by
    rintro (h | h)
    · exact Or.inl h
    · refine Or.inr ⟨?_, resetOK_prior hp h⟩
      rcases h with h | ⟨v, h⟩ <;> rw [h] <;> rfl
  refine ⟨fun hR hU => ?_, fun hR => ?_⟩
  · have hst := kernel_stoch hE hL (tm := tm) (pr := S.prior) (hRc (hR.imp id Or.inl))
    exact C98_full E grid tm hE hL S π hp hR τ hU _ (fun (y : Fin (n + 1) → Y) i x => q x (y i)) (fun i x => (hq x).comp (measurable_pi_apply i)) (fun y i x => hq0 _ _) P Z X
      (joint_of_draws μ q hq hq0 hqi hπ (fun i => hst.nonneg _) hD) k
  · have hst := kernel_stoch hE hL (tm := tm) (pr := S.prior) (hRc hR)
    have hJ := joint_of_draws μ q hq hq0 hqi hπ (fun i => hst.nonneg _) hD
    have hlaw : ∀ x, IsProbabilityMeasure (μ.withDensity fun y => ENNReal.ofReal (q x y)) := fun x => ⟨by
      rw [withDensity_apply _ MeasurableSet.univ, Measure.restrict_univ, ← ofReal_integral_eq_lintegral_ofReal (hqi x) (.of_forall (hq0 x)), hq1, ENNReal.ofReal_one]⟩
    have hJk := joint_of_draws μ q hq hq0 hqi hπ (fun i => hst.nonneg _) (draws_upTo hπ (fun i => hst.nonneg _) (fun i => hst.sum _) hD k)
    have hw0 : ∀ {n : ℕ} (τ : Fin (n + 1) → ℝ) (z : Fin (n + 1) → Idx gs) (y : Fin (n + 1) → Y), 0 ≤ pathWeight π (fun i : Fin n => kernel E π tm (τ i.castSucc)) (fun i x => q x (y i)) z := fun τ z y =>
      mul_nonneg (mul_nonneg (hπ _) (Finset.prod_nonneg fun i _ => hst.nonneg _ _ _)) (Finset.prod_nonneg fun i _ => hq0 _ _)
    have hw : ∀ {n : ℕ} (τ : Fin (n + 1) → ℝ) (z : Fin (n + 1) → Idx gs), Measurable fun y : Fin (n + 1) → Y => pathWeight π (fun i : Fin n => kernel E π tm (τ i.castSucc)) (fun i x => q x (y i)) z := fun τ z => by
      unfold pathWeight
      fun_prop
    have key : ∀ᵐ ω ∂P, Report (fit E grid tm (List.ofFn fun i x => q x (X ω i)) (List.ofFn τ) true false S) k grid π (fun j : Fin k.val => kernel E π tm (upTo k τ j.castSucc))
        (fun i x => q x (upTo k (X ω) i)) (Fin.last k.val) := by
      filter_upwards [joint_ae_pos hJ (hw τ) (hw0 τ)] with ω hω
      obtain ⟨R, h1, h2, h3, -⟩ := linear_filtering (S := S) (grid := grid) hE hL hp (hRc hR) (L := fun i x => q x (X ω i)) (fun i x => hq0 _ _) hω.ne'
      exact report_given h1 (by rw [h2, List.getElem?_ofFn, dif_pos k.isLt]; rfl) fun a => by rw [h3, List.getElem?_ofFn, dif_pos k.isLt]; rfl
    exact honest_of_given hJk (hw (upTo k τ)) (hw0 (upTo k τ)) (fun z => z (Fin.last k.val)) grid k _ (key.mono fun ω h => h.1) (key.mono fun ω h => h.2)

/-- The hypotheses can be met for every such study. -/
theorem draws_exist (E : Env ℝ gs) (tm : TM ℝ) (hE : Regular E) (hL : Linear E tm) (S : FitState ℝ gs) (π : Idx gs → ℝ) (hp : PriorMass E.cell S.prior π) (hπ : ∑ x, π x = 1)
    (hR : ResetFree tm ∨ S.prior = .none ∨ ∃ v, S.prior = .func v) {n : ℕ} (τ : Fin (n + 1) → ℝ) (law : Idx gs → Measure Y) [∀ x, IsProbabilityMeasure (law x)] :
    ∃ (Ω : Type) (_ : MeasurableSpace Ω) (P : Measure Ω) (Z : Ω → Fin (n + 1) → Idx gs) (X : Ω → Fin (n + 1) → Y),
      IsProbabilityMeasure P ∧ Draws P Z X π (fun i : Fin n => kernel E π tm (τ i.castSucc)) law := by
  have := hE.nonempty
  have hRc : ResetCond E tm S.prior 1 π := by
    rcases hR with h | h
    · exact Or.inl h
    · refine Or.inr ⟨?_, resetOK_prior hp h⟩
      rcases h with h | ⟨v, h⟩ <;> rw [h] <;> rfl
  have hst := kernel_stoch hE hL (tm := tm) (pr := S.prior) hRc
  refine exists_draws π _ law (priorMass_nonneg (cell_pos hE.lattice_pos) hp) (fun i => hst.nonneg _) ?_
  have := evidence_ones π (fun i : Fin n => kernel E π tm (τ i.castSucc)) fun i => hst.sum _
  simp only [evidence, pathWeight, Finset.prod_const_one, mul_one] at this
  rw [this, hπ]

/-- **C98 (Gaussian, Laplace, WhiteNoise).** With the built-in observation models for real-valued data. -/
theorem C98_real (E : Env ℝ gs) (grid : (a : Fin d) → Fin (gs a) → ℝ) (tm : TM ℝ) (hE : Regular E) (hL : Linear E tm) (S : FitState ℝ gs) (π : Idx gs → ℝ) (hp : PriorMass E.cell S.prior π)
    {n : ℕ} (τ : Fin (n + 1) → ℝ) (m : OM) (hm : m = .gaussian ∨ m = .laplace ∨ m = .whiteNoise) (hadm : ∀ x, Admissible m (gridPoint grid x))
    (P : Measure Ω) [IsProbabilityMeasure P] (Z : Ω → Fin (n + 1) → Idx gs) (X : Ω → Fin (n + 1) → ℝ)
    (hD : Draws P Z X π (fun i : Fin n => kernel E π tm (τ i.castSucc)) fun x => volume.withDensity fun y => ENNReal.ofReal (textbook m (gridPoint grid x) 0 y)) (k : Fin (n + 1)) :
    ((ResetFree tm ∨ S.prior = .none) → (∀ i : Fin n, τ i.succ = τ i.castSucc + 1) →
      Honest P (fun ω => Z ω k) X grid k fun ω => fit E grid tm (List.ofFn fun i => m.likelihood grid (.flat [some (X ω i)])) (List.ofFn τ) false false S) ∧
    ((ResetFree tm ∨ S.prior = .none ∨ ∃ v, S.prior = .func v) →
      Honest P (fun ω => Z ω k) (fun ω => upTo k (X ω)) grid k fun ω => fit E grid tm (List.ofFn fun i => m.likelihood grid (.flat [some (X ω i)])) (List.ofFn τ) true false S) := by
  have hm' : RealValued m := by rcases hm with rfl | rfl | rfl <;> simp [RealValued]
  have hseg : ∀ y : ℝ, (dataSegment m 0 y).map some = [some y] := by
    intro y; rcases hm with rfl | rfl | rfl <;> simp [dataSegment, OM.segmentLength]
  have hlik : ∀ y x, m.likelihood grid (.flat [some y]) x = textbook m (gridPoint grid x) 0 y := fun y x => by
    rw [← (C57 m hm' grid x (hadm x) 0).1 y, hseg]
  have hden : ∀ x, IsDensity fun y => textbook m (gridPoint grid x) 0 y := fun x => by
    have := (C57 m hm' grid x (hadm x) 0).2
    simpa only [hseg, hlik] using this
  have hcont : ∀ x, Continuous fun y => textbook m (gridPoint grid x) 0 y := by
    intro x
    rcases hm with rfl | rfl | rfl
    · exact normal_continuous _ _
    · exact laplace_continuous _ _
    · exact normal_continuous _ _
  have hfit : ∀ ω, (List.ofFn fun i : Fin (n + 1) => m.likelihood grid (.flat [some (X ω i)])) = List.ofFn fun (i : Fin (n + 1)) x => textbook m (gridPoint grid x) 0 (X ω i) := by
    intro ω
    congr 1
    funext i x
    exact hlik _ _
  simp only [hfit]
  exact C98 E grid tm hE hL S π hp τ volume (fun x y => textbook m (gridPoint grid x) 0 y) (fun x => (hcont x).measurable) (fun x => (hden x).nonneg) (fun x => (hden x).integrable) (fun x => (hden x).total) P Z X hD k

/-- **C98 for discrete observations** (Bernoulli, Poisson, …): `q x` are probabilities. -/
theorem C98_discrete [Countable Y] [MeasurableSingletonClass Y] (E : Env ℝ gs) (grid : (a : Fin d) → Fin (gs a) → ℝ) (tm : TM ℝ) (hE : Regular E) (hL : Linear E tm) (S : FitState ℝ gs) (π : Idx gs → ℝ)
    (hp : PriorMass E.cell S.prior π) {n : ℕ} (τ : Fin (n + 1) → ℝ) (q : Idx gs → Y → ℝ) (hq0 : ∀ x y, 0 ≤ q x y) (hq1 : ∀ x, HasSum (q x) 1) (law : Idx gs → Measure Y)
    (hlaw : ∀ x y, law x {y} = ENNReal.ofReal (q x y)) (P : Measure Ω) [IsProbabilityMeasure P] (Z : Ω → Fin (n + 1) → Idx gs) (X : Ω → Fin (n + 1) → Y)
    (hD : Draws P Z X π (fun i : Fin n => kernel E π tm (τ i.castSucc)) law) (k : Fin (n + 1)) :
    ((ResetFree tm ∨ S.prior = .none) → (∀ i : Fin n, τ i.succ = τ i.castSucc + 1) →
      Honest P (fun ω => Z ω k) X grid k fun ω => fit E grid tm (List.ofFn fun i x => q x (X ω i)) (List.ofFn τ) false false S) ∧
    ((ResetFree tm ∨ S.prior = .none ∨ ∃ v, S.prior = .func v) →
      Honest P (fun ω => Z ω k) (fun ω => upTo k (X ω)) grid k fun ω => fit E grid tm (List.ofFn fun i x => q x (X ω i)) (List.ofFn τ) true false S) := by
  have e : law = fun x => Measure.count.withDensity fun y => ENNReal.ofReal (q x y) := by
    funext x
    refine Measure.ext_of_singleton fun y => ?_
    rw [hlaw, withDensity_apply _ (measurableSet_singleton y)]
    simp only [Measure.restrict_singleton, Measure.count_singleton, one_smul, lintegral_dirac]
  subst e
  have hint : ∀ x, Integrable (q x) Measure.count := fun x => integrable_count_iff.2 (by simpa [abs_of_nonneg (hq0 x _)] using (hq1 x).summable)
  refine C98 E grid tm hE hL S π hp τ Measure.count q (fun x => measurable_of_countable _) hq0 hint (fun x => ?_) P Z X hD k
  rw [integral_countable (hint x)]
  simpa using (hq1 x).tsum_eq

theorem _root_.Ex.realEnv_regular : Regular Ex.realEnv := ⟨fun _ => one_pos, ⟨fun _ => ⟨0, by simp [Ex.gs3]⟩⟩, realExt_gaussOK _ _⟩

/-- a random walk that is interrupted by a change-point -/
def _root_.Ex.realWalk : TM ℝ := .combined [.leaf (.grw "x") ["sigma"] [.scalar 2] none, .leaf .changePoint ["t_change"] [.scalar 1] none]

theorem _root_.Ex.realWalk_linear : Linear Ex.realEnv Ex.realWalk := by
  have : Ex.realEnv.axis "x" = .ok 0 := by simp [Env.axis, Ex.realEnv, List.finRange_succ]
  simp [Ex.realWalk, Linear, LinearAll, this]

/-- The hypotheses are met: white noise with standard deviation 1, 2 or 3 that follows a random walk with a change-point. -/
example : ∃ (Ω : Type) (_ : MeasurableSpace Ω) (P : Measure Ω) (_ : IsProbabilityMeasure P) (Z : Ω → Fin 3 → Idx Ex.gs3) (X : Ω → Fin 3 → ℝ), ∀ k : Fin 3,
    let r := fun fo ω => fit Ex.realEnv (fun _ (i : Fin 3) => (i.val : ℝ) + 1) Ex.realWalk (List.ofFn fun i => OM.whiteNoise.likelihood (gs := Ex.gs3) (fun _ (i : Fin 3) => (i.val : ℝ) + 1) (.flat [some (X ω i)]))
      (List.ofFn ![0, 1, 2]) fo false (FitState.init .none)
    Honest P (fun ω => Z ω k) X (fun _ (i : Fin 3) => (i.val : ℝ) + 1) k (r false) ∧ Honest P (fun ω => Z ω k) (fun ω => upTo k (X ω)) (fun _ (i : Fin 3) => (i.val : ℝ) + 1) k (r true) := by
  have hadm : ∀ x : Idx Ex.gs3, Admissible .whiteNoise (gridPoint (gs := Ex.gs3) (fun _ (i : Fin 3) => (i.val : ℝ) + 1) x) := by
    intro x
    simp only [Admissible, gridPoint]
    rw [dif_pos (by norm_num)]
    positivity
  have hden : ∀ x : Idx Ex.gs3, IsDensity fun y => textbook .whiteNoise (gridPoint (gs := Ex.gs3) (fun _ (i : Fin 3) => (i.val : ℝ) + 1) x) 0 y := fun x => by
    have := C57 .whiteNoise (by simp [RealValued]) (gs := Ex.gs3) (fun _ (i : Fin 3) => (i.val : ℝ) + 1) x (hadm x) 0
    simpa only [this.1] using this.2
  have hlaw : ∀ x : Idx Ex.gs3, IsProbabilityMeasure (volume.withDensity fun y => ENNReal.ofReal (textbook .whiteNoise (gridPoint (gs := Ex.gs3) (fun _ (i : Fin 3) => (i.val : ℝ) + 1) x) 0 y)) := fun x => ⟨by
    rw [withDensity_apply _ MeasurableSet.univ, Measure.restrict_univ, ← ofReal_integral_eq_lintegral_ofReal (hden x).integrable (.of_forall (hden x).nonneg), (hden x).total, ENNReal.ofReal_one]⟩
  have := Ex.realEnv_regular.nonempty
  obtain ⟨Ω, hΩ, P, Z, X, hP, hD⟩ := draws_exist Ex.realEnv Ex.realWalk Ex.realEnv_regular Ex.realWalk_linear (FitState.init .none) _ .flat (by rw [Finset.sum_const, Finset.card_univ, nsmul_eq_mul, mul_one_div_cancel (Nat.cast_ne_zero.2 Fintype.card_ne_zero)]) (Or.inr (Or.inl rfl)) (n := 2) ![0, 1, 2]
    (fun x => volume.withDensity fun y => ENNReal.ofReal (textbook .whiteNoise (gridPoint (gs := Ex.gs3) (fun _ (i : Fin 3) => (i.val : ℝ) + 1) x) 0 y))
  refine ⟨Ω, hΩ, P, hP, Z, X, fun k => ?_⟩
  have h := C98_real Ex.realEnv (fun _ (i : Fin 3) => (i.val : ℝ) + 1) Ex.realWalk Ex.realEnv_regular Ex.realWalk_linear (FitState.init .none) _ .flat ![0, 1, 2] .whiteNoise (Or.inr (Or.inr rfl)) hadm P Z X hD k
  refine ⟨h.1 (Or.inr rfl) fun i => ?_, h.2 (Or.inr (Or.inl rfl))⟩
  fin_cases i
  · norm_num
  · change (2 : ℝ) = 1 + 1
    norm_num

end Props
