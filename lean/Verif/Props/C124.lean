import Verif.Props.C102
import Verif.Props.C123

/-! # C124: the results of an online study stay calibrated when the study is stopped because of its results -/

set_option linter.unusedSectionVars false

open MeasureTheory
open scoped ENNReal

namespace Spec

/-- The first time step with a given property, or the last time step if there is none. -/
noncomputable def firstReached {n : ℕ} (p : Fin (n + 1) → Prop) : Fin (n + 1) :=
  open Classical in if h : ∃ i, p i then Fin.find p h else Fin.last n

end Spec

namespace BL
open Spec

theorem firstReached_holds {n : ℕ} {p : Fin (n + 1) → Prop} (h : ∃ i, p i) : p (firstReached p) := by
  classical
  rw [firstReached, dif_pos h]
  exact Fin.find_spec h

theorem firstReached_congr {n : ℕ} {p q : Fin (n + 1) → Prop} (h : ∀ j ≤ firstReached p, p j ↔ q j) : firstReached q = firstReached p := by
  classical
  by_cases hp : ∃ i, p i
  · have e : firstReached p = Fin.find p hp := by rw [firstReached, dif_pos hp]
    obtain ⟨h1, h2⟩ := (Fin.find_eq_iff hp).1 e.symm
    have hq : ∃ i, q i := ⟨_, (h _ le_rfl).1 h1⟩
    rw [show firstReached q = Fin.find q hq by rw [firstReached, dif_pos hq]]
    exact (Fin.find_eq_iff hq).2 ⟨(h _ le_rfl).1 h1, fun j hj hc => h2 j hj ((h j hj.le).2 hc)⟩
  · have e : firstReached p = Fin.last n := by rw [firstReached, dif_neg hp]
    have hq : ¬ ∃ i, q i := fun ⟨i, hi⟩ => hp ⟨i, (h i (by rw [e]; exact Fin.le_last i)).2 hi⟩
    rw [e, firstReached, dif_neg hq]

theorem upTo_congr {Y : Type} {n : ℕ} {i : Fin (n + 1)} {y y' : Fin (n + 1) → Y} (h : upTo i y = upTo i y') {j : Fin (n + 1)} (hj : j ≤ i) : upTo j y = upTo j y' := by
  funext k
  have hk := k.isLt
  exact congrFun h ⟨k, by have : (j : ℕ) ≤ i := hj; omega⟩

/-- watching reports of the data so far until a condition on the report holds -/
theorem stopping_first {Y : Type} [MeasurableSpace Y] {n : ℕ} (C : (i : Fin (n + 1)) → (Fin (i.val + 1) → Y) → Prop) (hC : ∀ i, MeasurableSet {y | C i y}) : Stopping fun y : Fin (n + 1) → Y => firstReached fun i => C i (upTo i y) := by
  refine ⟨fun i => ?_, fun y y' h => firstReached_congr fun j hj => ?_⟩
  · have h1 : Measurable fun (y : Fin (n + 1) → Y) (i : Fin (n + 1)) => C i (upTo i y) := measurable_pi_lambda _ fun i => measurableSet_setOf.1 (upTo_measurable i (hC i))
    have h2 : Measurable (firstReached (n := n)) := Measurable.of_discrete
    exact (h2.comp h1) (measurableSet_singleton i)
  · rw [upTo_congr h hj]

variable {Ω ι κ Y : Type} [MeasurableSpace Ω] [MeasurableSpace Y] [Fintype ι] [DecidableEq ι] [Fintype κ] {P : Measure Ω}

/-- forgetting all time steps after `i` -/
theorem hyperDraws_upTo {law : ι → Measure Y} [∀ x, IsProbabilityMeasure (law x)] {ρ : κ → ℝ} (hρ : ∀ j, 0 ≤ ρ j) {π : ι → ℝ} (hπ : ∀ x, 0 ≤ π x) {n : ℕ} {J : Ω → κ} {Z : Ω → Fin (n + 1) → ι} {X : Ω → Fin (n + 1) → Y}
    {T : κ → Fin n → ι → ι → ℝ} (hT : ∀ j i x y, 0 ≤ T j i x y) (hT1 : ∀ j i x, ∑ y, T j i x y = 1) (h : HyperDraws P J Z X ρ π T law) (i : Fin (n + 1)) :
    HyperDraws P J (fun ω => upTo i (Z ω)) (fun ω => upTo i (X ω)) ρ π (fun u (j : Fin i.val) => T u (Fin.castLE (Nat.le_of_lt_succ i.isLt) j)) law := by
  have hJ : ∀ j, MeasurableSet {ω | J ω = j} := fun j => by
    have : {ω | J ω = j} = ⋃ z, {ω | J ω = j ∧ Z ω = z} := by ext ω; simp
    rw [this]
    exact MeasurableSet.iUnion fun z => h.unknown j z
  have hZ : ∀ z, MeasurableSet {ω | Z ω = z} := fun z => by
    have : {ω | Z ω = z} = ⋃ j, {ω | J ω = j ∧ Z ω = z} := by ext ω; simp
    rw [this]
    exact MeasurableSet.iUnion fun j => h.unknown j z
  have hD : ∀ j, Draws (P.restrict {ω | J ω = j}) Z X (fun x => ρ j * π x) (T j) law := fun j => by
    refine ⟨hZ, h.data, fun z B hB => ?_⟩
    rw [Measure.restrict_apply' (hJ j), mul_assoc, ENNReal.ofReal_mul (hρ j), mul_assoc, ← h.law j z B hB]
    congr 1
    ext ω
    simp only [Set.mem_inter_iff, Set.mem_ofPred_eq]
    tauto
  have hU := fun j => draws_upTo (fun x => mul_nonneg (hρ j) (hπ x)) (hT j) (hT1 j) (hD j) i
  refine ⟨fun j z => (hJ j).inter ((hU j).unknown z), (upTo_measurable i).comp h.data, fun j z B hB => ?_⟩
  have := (hU j).law z B hB
  rw [Measure.restrict_apply' (hJ j), mul_assoc, ENNReal.ofReal_mul (hρ j), mul_assoc] at this
  rw [← this]
  congr 1
  ext ω
  simp only [Set.mem_inter_iff, Set.mem_ofPred_eq]
  tauto

theorem sum_fiber {ζ κ : Type} [Fintype ζ] [Fintype κ] [DecidableEq κ] (pt : ζ → κ) (W : ζ → ℝ) (g : κ → ℝ) : ∑ x, (∑ z with pt z = x, W z) * g x = ∑ z, W z * g (pt z) := by
  rw [← Finset.sum_fiberwise_of_maps_to (t := Finset.univ) (g := pt) fun _ _ => Finset.mem_univ _]
  refine Finset.sum_congr rfl fun x _ => ?_
  rw [Finset.sum_mul]
  exact Finset.sum_congr rfl fun z hz => by rw [(Finset.mem_filter.1 hz).2]

theorem sum_fiber_one {ζ κ : Type} [Fintype ζ] [Fintype κ] [DecidableEq κ] (pt : ζ → κ) (W : ζ → ℝ) : ∑ x, ∑ z with pt z = x, W z = ∑ z, W z :=
  Finset.sum_fiberwise_of_maps_to (t := Finset.univ) (g := pt) (fun _ _ => Finset.mem_univ _) _

end BL

namespace Props
open BL Spec

variable {d : ℕ} {gs : Fin d → ℕ} {D : Type}

/-- **C124 (what is proved).** Consider an online study as in C123 (transition model, hyper-parameter values, parameter path and data points are drawn from the model).  Data points are passed to the study one by one, until a rule that looks at the data so
far (hence also at everything that the study has reported so far) tells to stop.  The report of the study at this moment is calibrated nevertheless: for the transition models, for the transition models together with their hyper-parameter values, and for the
current parameter values; the mean values reported are the conditional expectations of the current parameter values, and no other estimate from the data seen has a smaller mean squared error. -/
theorem C124_partial {Ω : Type} [MeasurableSpace Ω] [MeasurableSpace D] (c : OConf ℝ D gs) (h1 : c.seg = 1) (hE : Regular c.E) (hX : ProperExt c.E.ext) (ms : List (String × TM ℝ)) (hne : ms ≠ [])
    (hg : LiveModels c.E ms) (hnd : (ms.flatMap fun q => (entries q.2).map (·.1)).Nodup) (hwm : ∀ q ∈ ms, WalkModel c.E q.2 ∧ Timeless q.2) (store : Bool) (prior : PriorSpec ℝ gs) (hpr : FullPrior prior)
    (hn : prior.isArray = false) (π : Idx gs → ℝ) (hp : PriorMass c.E.cell prior π) (p : Option (List ℝ)) (S : OState ℝ D gs) (hs : setup store prior ms p = .ok S)
    (G : Fin ms.length → HyperGrid ℝ) (ρ : Fin ms.length → List ℝ) (hG : ∀ i : Fin ms.length, createHyperGrid ms[i].2 [] = .ok (G i)) (hρ : ∀ i, (G i).priors = some (ρ i)) (κ : ℝ) (hκ : ∀ i, (G i).hgc.prod = κ)
    (μ : Measure D) [SigmaFinite μ] (q : Idx gs → D → ℝ) (hpdf : ∀ y x, c.pdf [y] x = q x y) (hq : ∀ x, Measurable (q x)) (hq0 : ∀ x y, 0 < q x y) (hqi : ∀ x, Integrable (q x) μ) (hq1 : ∀ x, ∫ y, q x y ∂μ = 1)
    {n : ℕ} (τ : Fin (n + 1) → ℝ) (P : Measure Ω) [IsProbabilityMeasure P] (U : Ω → Hypothesis G) (Z : Ω → Fin (n + 1) → Idx gs) (X : Ω → Fin (n + 1) → D)
    (hD : HyperDraws P U Z X (hypothesisPrior G ρ) π (fun u i => kernel c.E π (hypothesisModel ms G u) (τ i.castSucc)) fun x => μ.withDensity fun y => ENNReal.ofReal (q x y))
    (stop : (Fin (n + 1) → D) → Fin (n + 1)) (hstop : Stopping stop) :
    (Calibrated P (fun ω => (U ω).1) (fun ω => seen stop (X ω)) fun ω => modelProbIn (runSteps c S (List.ofFn (upTo (stop (X ω)) (X ω))))) ∧
    (Calibrated P U (fun ω => seen stop (X ω)) fun ω => hypothesisProbIn G (runSteps c S (List.ofFn (upTo (stop (X ω)) (X ω))))) ∧
    (Calibrated P (fun ω => Z ω (stop (X ω))) (fun ω => seen stop (X ω)) fun ω => currentProbIn (runSteps c S (List.ofFn (upTo (stop (X ω)) (X ω))))) ∧
    ∀ name a, paramIndex c.E.names name = some a →
      P[fun ω => c.grid a (Z ω (stop (X ω)) a) | MeasurableSpace.comap (fun ω => seen stop (X ω)) inferInstance] =ᵐ[P] (fun ω => currentMeanOf c name (runSteps c S (List.ofFn (upTo (stop (X ω)) (X ω))))) ∧
      ∀ δ : (Σ i : Fin (n + 1), (Fin (i.val + 1) → D)) → ℝ, Measurable δ → ∫⁻ ω, ENNReal.ofReal ((c.grid a (Z ω (stop (X ω)) a) - currentMeanOf c name (runSteps c S (List.ofFn (upTo (stop (X ω)) (X ω))))) ^ 2) ∂P ≤
        ∫⁻ ω, ENNReal.ofReal ((c.grid a (Z ω (stop (X ω)) a) - δ (seen stop (X ω))) ^ 2) ∂P := by
  classical
  have := hE.nonempty
  have hcell : 0 < c.E.cell := cell_pos hE.lattice_pos
  have hπ : ∀ x, 0 ≤ π x := priorMass_nonneg hcell hp
  have hprior0 : ∀ u : Hypothesis G, 0 ≤ hypothesisPrior G ρ u := hypothesisPrior_nonneg hg hG hρ
  obtain ⟨A, hA, hiff⟩ := hstop.sets
  have hst : ∀ u : Hypothesis G, Stoch (kernel c.E π (hypothesisModel ms G u)) := fun u => by
    obtain ⟨u1, u2⟩ := live_linear hg hnd (List.getElem_mem u.1.2) (hwm _ (List.getElem_mem u.1.2)).1 (hG u.1) (List.getElem_mem u.2.2)
    exact kernel_stoch (pr := .none) (R := 0) hE u1 (.inl u2)
  have hlaw : ∀ x, IsProbabilityMeasure (μ.withDensity fun y => ENNReal.ofReal (q x y)) := fun x => ⟨by
    rw [withDensity_apply _ MeasurableSet.univ, Measure.restrict_univ, ← ofReal_integral_eq_lintegral_ofReal (hqi x) (.of_forall fun y => (hq0 x y).le), hq1, ENNReal.ofReal_one]⟩
  have hJ := fun i => joint_of_hyperDraws μ q hq (fun x y => (hq0 x y).le) hqi hprior0 hπ (fun u i => (hst u).nonneg _) (hyperDraws_upTo hprior0 hπ (fun u i => (hst u).nonneg _) (fun u i => (hst u).sum _) hD i)
  obtain ⟨W, hW⟩ : ∃ W : (i : Fin (n + 1)) → Hypothesis G × (Fin (i.val + 1) → Idx gs) → (Fin (i.val + 1) → D) → ℝ, ∀ i uz y, W i uz y =
      hypothesisPrior G ρ uz.1 * pathWeight π (fun j : Fin i.val => kernel c.E π (hypothesisModel ms G uz.1) (upTo i τ j.castSucc)) (fun j x => q x (y j)) uz.2 := ⟨_, fun _ _ _ => rfl⟩
  have hJ : ∀ i : Fin (n + 1), Joint P (fun ω => (U ω, upTo i (Z ω))) (fun ω => upTo i (X ω)) (Measure.pi fun _ => μ) (W i) := fun i => by
    have := hJ i
    rw [show W i = _ from funext fun uz => funext fun y => hW i uz y]
    exact this
  have hWm : ∀ i uz, Measurable (W i uz) := fun i uz => by
    rw [show W i uz = _ from funext fun y => hW i uz y]
    unfold pathWeight
    fun_prop
  have hW0 : ∀ i uz y, 0 ≤ W i uz y := fun i uz y => by
    rw [hW]
    exact mul_nonneg (hprior0 _) (mul_nonneg (mul_nonneg (hπ _) (Finset.prod_nonneg fun j _ => (hst _).nonneg _ _ _)) (Finset.prod_nonneg fun j _ => (hq0 _ _).le))
  have hJk := fun i : Fin (n + 1) => joint_map (hJ i) (hWm i) (hW0 i) fun uz => (uz.1, uz.2 (Fin.last i.val))
  have hwk : ∀ (i : Fin (n + 1)) (ux : Hypothesis G × Idx gs), Measurable fun y => ∑ uz with (uz.1, uz.2 (Fin.last i.val)) = ux, W i uz y := fun i ux => Finset.measurable_sum _ fun uz _ => hWm i uz
  have hJs := joint_stopped hJk hwk (fun ω => stop (X ω)) A hA fun ω i => hiff (X ω) i
  have hws : ∀ ux : Hypothesis G × Idx gs, Measurable fun y : Σ i : Fin (n + 1), (Fin (i.val + 1) → D) => ∑ uz with (uz.1, uz.2 (Fin.last y.1.val)) = ux, W y.1 uz y.2 := fun ux => (measurable_sigma_iff _).2 fun i => hwk i ux
  have hws0 : ∀ (ux : Hypothesis G × Idx gs) (y : Σ i : Fin (n + 1), (Fin (i.val + 1) → D)), 0 ≤ ∑ uz with (uz.1, uz.2 (Fin.last y.1.val)) = ux, W y.1 uz y.2 := fun ux y => Finset.sum_nonneg fun uz _ => hW0 _ _ _
  have hgiven := fun (i : Fin (n + 1)) (y : Fin (i.val + 1) → D) => online_given c h1.ge hE hX ms hne hg hnd hwm store prior hpr hn π hp p S hs G ρ hG hρ κ hκ (upTo i τ) (List.ofFn y) (fun j x => q x (y j)) (segLiks_one c h1 hpdf y)
    (fun j x => hq0 _ _) (fun uz => W i uz y) fun uz => hW i uz y
  have hfib : ∀ (g : Hypothesis G × Idx gs → ℝ) (ω : Ω), given (fun (ux : Hypothesis G × Idx gs) (y : Σ i : Fin (n + 1), (Fin (i.val + 1) → D)) => ∑ uz with (uz.1, uz.2 (Fin.last y.1.val)) = ux, W y.1 uz y.2) g (seen stop (X ω)) =
      (∑ uz, W (stop (X ω)) uz (upTo (stop (X ω)) (X ω)) * g (uz.1, uz.2 (Fin.last _))) / ∑ uz, W (stop (X ω)) uz (upTo (stop (X ω)) (X ω)) := fun g ω => by
    rw [given, sum_fiber, sum_fiber_one]
    rfl
  refine ⟨calibrated_of_given hJs hws hws0 (fun ux => ux.1.1) _ (.of_forall fun ω B => ?_), calibrated_of_given hJs hws hws0 (fun ux => ux.1) _ (.of_forall fun ω B => ?_),
    calibrated_of_given hJs hws hws0 (fun ux => ux.2) _ (.of_forall fun ω B => ?_), fun name a ha => ⟨?_, fun δ hδ => ?_⟩⟩
  · exact ((hgiven _ _).1 B).trans (hfib (fun ux => if ux.1.1 ∈ B then 1 else 0) ω).symm
  · exact ((hgiven _ _).2.1 B).trans (hfib (fun ux => if ux.1 ∈ B then 1 else 0) ω).symm
  · exact ((hgiven _ _).2.2.1 B).trans (hfib (fun ux => if ux.2 ∈ B then 1 else 0) ω).symm
  · exact (joint_condExp hJs hws hws0 fun ux => c.grid a (ux.2 a)).trans (.of_forall fun ω => ((hfib (fun ux => c.grid a (ux.2 a)) ω).trans ((hgiven _ _).2.2.2 name a ha).symm))
  · refine le_trans (le_of_eq (lintegral_congr fun ω => ?_)) (joint_best hJs hws hws0 (fun ux => c.grid a (ux.2 a)) δ hδ)
    rw [(hgiven _ _).2.2.2 name a ha]
    exact congrArg (fun v => ENNReal.ofReal ((c.grid a (Z ω (stop (X ω)) a) - v) ^ 2)) (hfib (fun ux => c.grid a (ux.2 a)) ω).symm

/-- weighted averages of indicators -/
theorem ratio_le_one {ζ : Type} [Fintype ζ] {w : ζ → ℝ} (hw : ∀ z, 0 ≤ w z) (C : ζ → Prop) [DecidablePred C] : (∑ z, w z * if C z then 1 else 0) / ∑ z, w z ≤ 1 :=
  div_le_one_of_le₀ (Finset.sum_le_sum fun z _ => by split <;> simp [hw z]) (Finset.sum_nonneg fun z _ => hw z)

/-- the reports of an online study depend on the data in a measurable way, and are at most one -/
theorem online_measurable [MeasurableSpace D] (c : OConf ℝ D gs) (h1 : c.seg = 1) (hE : Regular c.E) (hX : ProperExt c.E.ext) (ms : List (String × TM ℝ)) (hne : ms ≠ [])
    (hg : LiveModels c.E ms) (hnd : (ms.flatMap fun q => (entries q.2).map (·.1)).Nodup) (hwm : ∀ q ∈ ms, WalkModel c.E q.2 ∧ Timeless q.2) (store : Bool) (prior : PriorSpec ℝ gs) (hpr : FullPrior prior)
    (hn : prior.isArray = false) (π : Idx gs → ℝ) (hp : PriorMass c.E.cell prior π) (p : Option (List ℝ)) (S : OState ℝ D gs) (hs : setup store prior ms p = .ok S)
    (G : Fin ms.length → HyperGrid ℝ) (ρ : Fin ms.length → List ℝ) (hG : ∀ i : Fin ms.length, createHyperGrid ms[i].2 [] = .ok (G i)) (hρ : ∀ i, (G i).priors = some (ρ i)) (κ : ℝ) (hκ : ∀ i, (G i).hgc.prod = κ)
    (q : Idx gs → D → ℝ) (hpdf : ∀ y x, c.pdf [y] x = q x y) (hq : ∀ x, Measurable (q x)) (hq0 : ∀ x y, 0 < q x y) (m : ℕ) :
    (∀ A, (Measurable fun y : Fin (m + 1) → D => modelProbIn (M := ms.length) (runSteps c S (List.ofFn y)) A) ∧ ∀ y : Fin (m + 1) → D, modelProbIn (M := ms.length) (runSteps c S (List.ofFn y)) A ≤ 1) ∧
    ∀ A, (Measurable fun y : Fin (m + 1) → D => currentProbIn (runSteps c S (List.ofFn y)) A) ∧ ∀ y : Fin (m + 1) → D, currentProbIn (runSteps c S (List.ofFn y)) A ≤ 1 := by
  have := hE.nonempty
  have hπ : ∀ x, 0 ≤ π x := priorMass_nonneg (cell_pos hE.lattice_pos) hp
  have hprior0 : ∀ u : Hypothesis G, 0 ≤ hypothesisPrior G ρ u := hypothesisPrior_nonneg hg hG hρ
  let W : Hypothesis G × (Fin (m + 1) → Idx gs) → (Fin (m + 1) → D) → ℝ := fun uz y => hypothesisPrior G ρ uz.1 * pathWeight π (fun j : Fin m => kernel c.E π (hypothesisModel ms G uz.1) 0) (fun j x => q x (y j)) uz.2
  have hWm : ∀ uz, Measurable (W uz) := fun uz => by
    unfold W pathWeight
    fun_prop
  have hW0 : ∀ uz y, 0 ≤ W uz y := fun uz y =>
    mul_nonneg (hprior0 _) (mul_nonneg (mul_nonneg (hπ _) (Finset.prod_nonneg fun j _ => kernel_nonneg (ρ := π) hE.gauss _ (.inr hπ) _ _ _)) (Finset.prod_nonneg fun j _ => (hq0 _ _).le))
  have hgiven := fun y : Fin (m + 1) → D => online_given c h1.ge hE hX ms hne hg hnd hwm store prior hpr hn π hp p S hs G ρ hG hρ κ hκ (fun _ => 0) (List.ofFn y) (fun j x => q x (y j)) (segLiks_one c h1 hpdf y)
    (fun j x => hq0 _ _) (fun uz => W uz y) fun uz => rfl
  refine ⟨fun A => ⟨?_, fun y => ?_⟩, fun A => ⟨?_, fun y => ?_⟩⟩
  · rw [show (fun y : Fin (m + 1) → D => modelProbIn (M := ms.length) (runSteps c S (List.ofFn y)) A) = _ from funext fun y => (hgiven y).1 A]
    fun_prop
  · rw [(hgiven y).1 A]
    exact ratio_le_one (fun uz => hW0 uz y) _
  · rw [show (fun y : Fin (m + 1) → D => currentProbIn (runSteps c S (List.ofFn y)) A) = _ from funext fun y => (hgiven y).2.2.1 A]
    fun_prop
  · rw [(hgiven y).2.2.1 A]
    exact ratio_le_one (fun uz => hW0 uz y) _

/-- **C124 (watching; what is proved).** Somebody watches an online study as in `C124_partial`.
* Among all runs in which the probability reported for a set of transition models is at least `l` after any of the data points, the transition model belongs to this set in a fraction of at least `l`.
* The same for sets of parameter values: when the reported probability that the current parameter values belong to a set reaches `l` for the first time, they do belong to it in a fraction of at least `l` of these runs. -/
theorem C124_watch_partial {Ω : Type} [MeasurableSpace Ω] [MeasurableSpace D] (c : OConf ℝ D gs) (h1 : c.seg = 1) (hE : Regular c.E) (hX : ProperExt c.E.ext) (ms : List (String × TM ℝ)) (hne : ms ≠ [])
    (hg : LiveModels c.E ms) (hnd : (ms.flatMap fun q => (entries q.2).map (·.1)).Nodup) (hwm : ∀ q ∈ ms, WalkModel c.E q.2 ∧ Timeless q.2) (store : Bool) (prior : PriorSpec ℝ gs) (hpr : FullPrior prior)
    (hn : prior.isArray = false) (π : Idx gs → ℝ) (hp : PriorMass c.E.cell prior π) (p : Option (List ℝ)) (S : OState ℝ D gs) (hs : setup store prior ms p = .ok S)
    (G : Fin ms.length → HyperGrid ℝ) (ρ : Fin ms.length → List ℝ) (hG : ∀ i : Fin ms.length, createHyperGrid ms[i].2 [] = .ok (G i)) (hρ : ∀ i, (G i).priors = some (ρ i)) (κ : ℝ) (hκ : ∀ i, (G i).hgc.prod = κ)
    (μ : Measure D) [SigmaFinite μ] (q : Idx gs → D → ℝ) (hpdf : ∀ y x, c.pdf [y] x = q x y) (hq : ∀ x, Measurable (q x)) (hq0 : ∀ x y, 0 < q x y) (hqi : ∀ x, Integrable (q x) μ) (hq1 : ∀ x, ∫ y, q x y ∂μ = 1)
    {n : ℕ} (τ : Fin (n + 1) → ℝ) (P : Measure Ω) [IsProbabilityMeasure P] (U : Ω → Hypothesis G) (Z : Ω → Fin (n + 1) → Idx gs) (X : Ω → Fin (n + 1) → D)
    (hD : HyperDraws P U Z X (hypothesisPrior G ρ) π (fun u i => kernel c.E π (hypothesisModel ms G u) (τ i.castSucc)) fun x => μ.withDensity fun y => ENNReal.ofReal (q x y)) (l : ℝ) :
    (∀ A : Finset (Fin ms.length), ENNReal.ofReal l * P {ω | ∃ i, l ≤ modelProbIn (runSteps c S (List.ofFn (upTo i (X ω)))) A} ≤ P {ω | (U ω).1 ∈ A ∧ ∃ i, l ≤ modelProbIn (runSteps c S (List.ofFn (upTo i (X ω)))) A}) ∧
    ∀ B : Finset (Idx gs), ENNReal.ofReal l * P {ω | ∃ i, l ≤ currentProbIn (runSteps c S (List.ofFn (upTo i (X ω)))) B} ≤
      P {ω | Z ω (firstReached fun i => l ≤ currentProbIn (runSteps c S (List.ofFn (upTo i (X ω)))) B) ∈ B ∧ ∃ i, l ≤ currentProbIn (runSteps c S (List.ofFn (upTo i (X ω)))) B} := by
  have hm := fun m => online_measurable c h1 hE hX ms hne hg hnd hwm store prior hpr hn π hp p S hs G ρ hG hρ κ hκ q hpdf hq hq0 m
  have hC := fun stop hstop => C124_partial c h1 hE hX ms hne hg hnd hwm store prior hpr hn π hp p S hs G ρ hG hρ κ hκ μ q hpdf hq hq0 hqi hq1 τ P U Z X hD stop hstop
  refine ⟨fun A => ?_, fun B => ?_⟩
  · have e : ∀ ω, (∃ i, l ≤ modelProbIn (runSteps c S (List.ofFn (upTo i (X ω)))) A) ↔
        l ≤ modelProbIn (runSteps c S (List.ofFn (upTo (firstReached fun i => l ≤ modelProbIn (runSteps c S (List.ofFn (upTo i (X ω)))) A) (X ω)))) A := fun ω => ⟨fun h => firstReached_holds h, fun h => ⟨_, h⟩⟩
    have h := ((hC _ (stopping_first (fun i y => l ≤ modelProbIn (runSteps c S (List.ofFn y)) A) fun i => measurableSet_le measurable_const ((hm i.val).1 A).1)).1.frequency A l 1).1
    simp only [((hm _).1 A).2, and_true, ← e] at h
    exact h
  · have e : ∀ ω, (∃ i, l ≤ currentProbIn (runSteps c S (List.ofFn (upTo i (X ω)))) B) ↔
        l ≤ currentProbIn (runSteps c S (List.ofFn (upTo (firstReached fun i => l ≤ currentProbIn (runSteps c S (List.ofFn (upTo i (X ω)))) B) (X ω)))) B := fun ω => ⟨fun h => firstReached_holds h, fun h => ⟨_, h⟩⟩
    have h := ((hC _ (stopping_first (fun i y => l ≤ currentProbIn (runSteps c S (List.ofFn y)) B) fun i => measurableSet_le measurable_const ((hm i.val).2 B).1)).2.2.1.frequency B l 1).1
    simp only [((hm _).2 B).2, and_true, ← e] at h
    exact h

/-- Concrete case: in the setting of `Ex.onlineDraws`, the study is watched until the random walk has a probability of at least 0.9, for at most three data points. -/
example : ∃ (Ω : Type) (_ : MeasurableSpace Ω) (P : Measure Ω) (U : Ω → Hypothesis Ex.onlineGrids) (X : Ω → Fin 3 → ℝ) (S : OState ℝ ℝ Ex.gs3), IsProbabilityMeasure P ∧ setup true .none Ex.onlineModels (some [1, 2]) = .ok S ∧
    ENNReal.ofReal 0.9 * P {ω | ∃ i, 0.9 ≤ modelProbIn (M := 2) (runSteps Ex.onlineConf S (List.ofFn (upTo i (X ω)))) {1}} ≤ P {ω | (U ω).1 = 1 ∧ ∃ i, 0.9 ≤ modelProbIn (M := 2) (runSteps Ex.onlineConf S (List.ofFn (upTo i (X ω)))) {1}} := by
  have hX : ProperExt Ex.onlineConf.E.ext := realExt_proper _ _
  have hreg := Ex.realEnv_regular
  obtain ⟨S, hs⟩ := Ex.onlineSetup
  obtain ⟨Ω, hΩ, P, U, Z, X, hP, hD⟩ := Ex.onlineDraws
  have hd : ∀ x : Idx Ex.gs3, IsDensity (normalDensity 0 ((x 0 : Fin 3).val + 1)) := fun x => normal_isDensity (by positivity) _
  have h := (C124_watch_partial Ex.onlineConf rfl hreg hX Ex.onlineModels (by simp [Ex.onlineModels]) Ex.onlineModels_live (by simp [Ex.onlineModels, entries, mkStatic]) Ex.onlineModels_walks true .none trivial rfl _ .flat (some [1, 2]) S hs
    Ex.onlineGrids Ex.onlinePriors Ex.onlineGrids_eq Ex.onlineGrids_priors 1 Ex.onlineGrids_cell volume (fun x y => normalDensity 0 ((x 0 : Fin 3).val + 1) y) (fun y x => rfl) (fun x => by unfold normalDensity; fun_prop)
    (fun x y => by rw [normalDensity]; positivity) (fun x => (hd x).integrable) (fun x => (hd x).total) ![0, 1, 2] P U Z X hD 0.9).1 {(1 : Fin 2)}
  refine ⟨Ω, hΩ, P, U, X, S, hP, hs, ?_⟩
  exact h.trans (measure_mono fun ω hω => ⟨Finset.mem_singleton.1 hω.1, hω.2⟩)

end Props
