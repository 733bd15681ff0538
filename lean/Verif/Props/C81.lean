import Verif.Props.C01
import Verif.Props.C03
import Verif.Props.C04
import Verif.Lemmas.Evidence
import Mathlib.Algebra.Order.BigOperators.Ring.Finset
import Mathlib.Algebra.BigOperators.Field

/-! # C81: small changes of the likelihoods -/

set_option linter.unusedSectionVars false

namespace BL
open Spec
variable {ι K : Type} [Fintype ι] [DecidableEq ι] [Field K] [LinearOrder K] [IsStrictOrderedRing K] {n : ℕ} {π : ι → K} {T : Fin n → ι → ι → K} {L L' : Fin (n + 1) → ι → K} {r s : Fin (n + 1) → K}

theorem pathWeight_nonneg' (hπ : ∀ x, 0 ≤ π x) (hT : ∀ i x y, 0 ≤ T i x y) (hL : ∀ i x, 0 ≤ L i x) (z : Fin (n + 1) → ι) : 0 ≤ pathWeight π T L z :=
  mul_nonneg (mul_nonneg (hπ _) (Finset.prod_nonneg fun i _ => hT i _ _)) (Finset.prod_nonneg fun i _ => hL i _)

theorem pathWeight_bounds (hπ : ∀ x, 0 ≤ π x) (hT : ∀ i x y, 0 ≤ T i x y) (hL : ∀ i x, 0 ≤ L i x) (hr : ∀ i, 0 ≤ r i)
    (h : ∀ i x, r i * L i x ≤ L' i x ∧ L' i x ≤ s i * L i x) (z : Fin (n + 1) → ι) :
    (∏ i, r i) * pathWeight π T L z ≤ pathWeight π T L' z ∧ pathWeight π T L' z ≤ (∏ i, s i) * pathWeight π T L z := by
  have h0 : 0 ≤ π (z 0) * ∏ i : Fin n, T i (z i.castSucc) (z i.succ) := mul_nonneg (hπ _) (Finset.prod_nonneg fun i _ => hT i _ _)
  have hL' : ∀ i x, 0 ≤ L' i x := fun i x => (mul_nonneg (hr i) (hL i x)).trans (h i x).1
  have e : ∀ c : Fin (n + 1) → K, (∏ i, c i) * pathWeight π T L z = (π (z 0) * ∏ i : Fin n, T i (z i.castSucc) (z i.succ)) * ∏ i, c i * L i (z i) := fun c => by
    rw [pathWeight, Finset.prod_mul_distrib]; ring
  rw [e, e, pathWeight]
  exact ⟨mul_le_mul_of_nonneg_left (Finset.prod_le_prod (fun i _ => mul_nonneg (hr i) (hL i _)) fun i _ => (h i _).1) h0,
    mul_le_mul_of_nonneg_left (Finset.prod_le_prod (fun i _ => hL' i _) fun i _ => (h i _).2) h0⟩

theorem evidence_bounds (hπ : ∀ x, 0 ≤ π x) (hT : ∀ i x y, 0 ≤ T i x y) (hL : ∀ i x, 0 ≤ L i x) (hr : ∀ i, 0 ≤ r i)
    (h : ∀ i x, r i * L i x ≤ L' i x ∧ L' i x ≤ s i * L i x) :
    (∏ i, r i) * evidence π T L ≤ evidence π T L' ∧ evidence π T L' ≤ (∏ i, s i) * evidence π T L := by
  rw [evidence, evidence, Finset.mul_sum, Finset.mul_sum]
  exact ⟨Finset.sum_le_sum fun z _ => (pathWeight_bounds hπ hT hL hr h z).1, Finset.sum_le_sum fun z _ => (pathWeight_bounds hπ hT hL hr h z).2⟩

theorem marginal_bounds (hπ : ∀ x, 0 ≤ π x) (hT : ∀ i x y, 0 ≤ T i x y) (hL : ∀ i x, 0 ≤ L i x) (hr : ∀ i, 0 ≤ r i)
    (h : ∀ i x, r i * L i x ≤ L' i x ∧ L' i x ≤ s i * L i x) (i : Fin (n + 1)) (x : ι) :
    (∏ i, r i) * Spec.marginal π T L i x ≤ Spec.marginal π T L' i x ∧ Spec.marginal π T L' i x ≤ (∏ i, s i) * Spec.marginal π T L i x := by
  rw [Spec.marginal, Spec.marginal, Finset.mul_sum, Finset.mul_sum]
  exact ⟨Finset.sum_le_sum fun z _ => (pathWeight_bounds hπ hT hL hr h z).1, Finset.sum_le_sum fun z _ => (pathWeight_bounds hπ hT hL hr h z).2⟩

/-- the probability of a parameter value changes at most by the factor `∏ s / ∏ r` -/
theorem posterior_bound (hπ : ∀ x, 0 ≤ π x) (hT : ∀ i x y, 0 ≤ T i x y) (hL : ∀ i x, 0 ≤ L i x) (hr : ∀ i, 0 < r i)
    (h : ∀ i x, r i * L i x ≤ L' i x ∧ L' i x ≤ s i * L i x) (hpos : 0 < evidence π T L) (i : Fin (n + 1)) (x : ι) :
    (∏ i, r i / s i) * posterior π T L i x ≤ posterior π T L' i x ∧ posterior π T L' i x ≤ (∏ i, s i / r i) * posterior π T L i x := by
  have he := evidence_bounds hπ hT hL (fun i => (hr i).le) h
  have hm := marginal_bounds hπ hT hL (fun i => (hr i).le) h i x
  have hR : 0 < ∏ i, r i := Finset.prod_pos fun i _ => hr i
  have hpos' : 0 < evidence π T L' := (mul_pos hR hpos).trans_le he.1
  have hS : 0 < ∏ i, s i := by
    by_contra hn
    exact absurd hpos' (not_lt.2 (he.2.trans (mul_nonpos_of_nonpos_of_nonneg (not_lt.1 hn) hpos.le)))
  have hm0 : 0 ≤ Spec.marginal π T L i x := Finset.sum_nonneg fun z _ => pathWeight_nonneg' hπ hT hL z
  rw [posterior, posterior, Finset.prod_div_distrib, Finset.prod_div_distrib, div_mul_div_comm, div_mul_div_comm]
  exact ⟨div_le_div₀ ((mul_nonneg hR.le hm0).trans hm.1) hm.1 hpos' he.2, div_le_div₀ (mul_nonneg hS.le hm0) hm.2 (mul_pos hR hpos) he.1⟩

end BL

namespace Props
open BL Spec
variable {K : Type} [Field K] [LinearOrder K] [IsStrictOrderedRing K] {d : ℕ} {gs : Fin d → ℕ}

theorem resetCond_of {E : Env K gs} {tm : TM K} {S : FitState K gs} {π : Idx gs → K} (hE : Regular E) (hp : PriorMass E.cell S.prior π)
    (hR : ResetFree tm ∨ S.prior = .none ∨ ∃ v, S.prior = .func v) : ResetCond E tm S.prior 1 π := by
  haveI := hE.nonempty
  rcases hR with h | h
  · exact Or.inl h
  · refine Or.inr ⟨?_, resetOK_prior hp h⟩
    rcases h with h | ⟨v, h⟩ <;> rw [h] <;> rfl

/-- **C81 (evidence).** Models assembled from Static, GaussianRandomWalk, ChangePoint, Independent, Combined and Serial, all time stamps (full fits: unit-spaced, and with resets a flat prior).
If the likelihoods of two data sets differ at every time step at most by the factors `r i` and `s i`, for all parameter values, then both fits succeed and the evidences differ at most by the
product of these factors.  In particular (`r = 1`) the evidence grows if the likelihoods grow. -/
theorem C81_evidence (E : Env K gs) (grid : (a : Fin d) → Fin (gs a) → K) (tm : TM K) (hE : Regular E) (hL : Linear E tm)
    (S : FitState K gs) (π : Idx gs → K) (hp : PriorMass E.cell S.prior π) (hR : ResetFree tm ∨ S.prior = .none ∨ ∃ v, S.prior = .func v)
    {n : ℕ} (L L' : Fin (n + 1) → Idx gs → K) (hL0 : ∀ i x, 0 ≤ L i x)
    (r s : Fin (n + 1) → K) (hr : ∀ i, 0 ≤ r i) (h : ∀ i x, r i * L i x ≤ L' i x ∧ L' i x ≤ s i * L i x) (τ : Fin (n + 1) → K) (fo eo : Bool)
    (hmode : eo = true ∨ fo = true ∨ (∀ i : Fin n, τ i.succ = τ i.castSucc + 1) ∧ (ResetFree tm ∨ S.prior = .none)) :
    ∃ A B, fit E grid tm (List.ofFn L) (List.ofFn τ) fo eo S = .ok A ∧ fit E grid tm (List.ofFn L') (List.ofFn τ) fo eo S = .ok B ∧
      (∏ i, r i) * A.logEv.exp ≤ B.logEv.exp ∧ B.logEv.exp ≤ (∏ i, s i) * A.logEv.exp := by
  haveI := hE.nonempty
  have hR' := resetCond_of hE hp hR
  have hK := kernel_stoch hE hL hR'
  have hmode' : eo = true ∨ fo = true ∨ ((∀ i : Fin n, kernel E π tm (τ i.succ - 1) = kernel E π tm (τ i.castSucc)) ∧ ∃ u, ResetFree tm ∨ ∀ x, π x = u) := by
    refine hmode.imp id (Or.imp id fun h => ⟨matched_of_unit h.1, 1 / (Fintype.card (Idx gs) : K), h.2.imp id fun h0 x => ?_⟩)
    rw [h0] at hp
    cases hp
    rfl
  obtain ⟨A, h1, h2⟩ := linear_evidence (grid := grid) hE hL hp hR' hL0 hmode'
  obtain ⟨B, h3, h4⟩ := linear_evidence (grid := grid) hE hL hp hR' (L := L') (fun i x => (mul_nonneg (hr i) (hL0 i x)).trans (h i x).1) hmode'
  refine ⟨A, B, h1, h3, ?_⟩
  have hm : 0 ≤ ∏ i : Fin n, massOut E 1 tm (τ i.castSucc) 1 := by
    refine Finset.prod_nonneg fun i _ => ?_
    exact (massOut_pos hE.lattice_pos tm (Or.inr one_pos) _ 1 one_pos).le
  have hb := evidence_bounds (priorMass_nonneg (cell_pos hE.lattice_pos) hp) (fun i : Fin n => hK.nonneg (τ i.castSucc)) hL0 hr h
  rw [h2, h4, ← mul_assoc, ← mul_assoc]
  exact ⟨mul_le_mul_of_nonneg_right hb.1 hm, mul_le_mul_of_nonneg_right hb.2 hm⟩

/-- **C81 (full fits).** Under the same hypotheses, for data of non-zero probability, the smoothed probability of every parameter value at every time step changes at most by the product of the
factors `s i / r i`. -/
theorem C81_smoothing (E : Env K gs) (grid : (a : Fin d) → Fin (gs a) → K) (tm : TM K) (hE : Regular E) (hL : Linear E tm)
    (S : FitState K gs) (π : Idx gs → K) (hp : PriorMass E.cell S.prior π) (hR : ResetFree tm ∨ S.prior = .none)
    {n : ℕ} (L L' : Fin (n + 1) → Idx gs → K) (hL0 : ∀ i x, 0 ≤ L i x)
    (r s : Fin (n + 1) → K) (hr : ∀ i, 0 < r i) (h : ∀ i x, r i * L i x ≤ L' i x ∧ L' i x ≤ s i * L i x) (τ : Fin (n + 1) → K)
    (hU : ∀ i : Fin n, τ i.succ = τ i.castSucc + 1) (hpos : evidence π (fun i : Fin n => kernel E π tm (τ i.castSucc)) L ≠ 0) :
    ∃ (A B : FitState K gs) (p q : Fin (n + 1) → Idx gs → K),
      fit E grid tm (List.ofFn L) (List.ofFn τ) false false S = .ok A ∧ A.posts = List.ofFn (fun i => .val (p i)) ∧
      fit E grid tm (List.ofFn L') (List.ofFn τ) false false S = .ok B ∧ B.posts = List.ofFn (fun i => .val (q i)) ∧
      ∀ i x, (∏ j, r j / s j) * p i x ≤ q i x ∧ q i x ≤ (∏ j, s j / r j) * p i x := by
  haveI := hE.nonempty
  have hK := kernel_stoch hE hL (resetCond_of hE hp (hR.imp id Or.inl))
  have hT : ∀ (i : Fin n) x y, 0 ≤ kernel E π tm (τ i.castSucc) x y := fun i => hK.nonneg _
  have hπ := priorMass_nonneg (cell_pos hE.lattice_pos) hp
  have hpos' : 0 < evidence π (fun i : Fin n => kernel E π tm (τ i.castSucc)) L := lt_of_le_of_ne (Finset.sum_nonneg fun z _ => pathWeight_nonneg' hπ hT hL0 z) hpos.symm
  have he := (evidence_bounds hπ hT hL0 (fun i => (hr i).le) h).1
  have hpos2 : 0 < evidence π (fun i : Fin n => kernel E π tm (τ i.castSucc)) L' := (mul_pos (Finset.prod_pos fun i _ => hr i) hpos').trans_le he
  obtain ⟨A, h1, h2⟩ := smoothing_matched E grid tm hE hL S π hp hR L hL0 τ (matched_of_unit hU) hpos
  obtain ⟨B, h3, h4⟩ := smoothing_matched E grid tm hE hL S π hp hR L' (fun i x => (mul_nonneg (hr i).le (hL0 i x)).trans (h i x).1) τ (matched_of_unit hU) hpos2.ne'
  exact ⟨A, B, _, _, h1, h2, h3, h4, fun i x => posterior_bound hπ hT hL0 hr h hpos' i x⟩

/-- **C81 (forward-only fits).** The filtered probability of every parameter value changes at most by the product of the factors `s j / r j` up to this time step (all time stamps). -/
theorem C81_filtering (E : Env K gs) (grid : (a : Fin d) → Fin (gs a) → K) (tm : TM K) (hE : Regular E) (hL : Linear E tm)
    (S : FitState K gs) (π : Idx gs → K) (hp : PriorMass E.cell S.prior π) (hR : ResetFree tm ∨ S.prior = .none ∨ ∃ v, S.prior = .func v)
    {n : ℕ} (L L' : Fin (n + 1) → Idx gs → K) (hL0 : ∀ i x, 0 ≤ L i x)
    (r s : Fin (n + 1) → K) (hr : ∀ i, 0 < r i) (h : ∀ i x, r i * L i x ≤ L' i x ∧ L' i x ≤ s i * L i x) (τ : Fin (n + 1) → K)
    (hpos : evidence π (fun i : Fin n => kernel E π tm (τ i.castSucc)) L ≠ 0) :
    ∃ (A B : FitState K gs) (p q : Fin (n + 1) → Idx gs → K),
      fit E grid tm (List.ofFn L) (List.ofFn τ) true false S = .ok A ∧ A.posts = List.ofFn (fun i => .val (p i)) ∧
      fit E grid tm (List.ofFn L') (List.ofFn τ) true false S = .ok B ∧ B.posts = List.ofFn (fun i => .val (q i)) ∧
      ∀ i x, (∏ j, upTo i r j / upTo i s j) * p i x ≤ q i x ∧ q i x ≤ (∏ j, upTo i s j / upTo i r j) * p i x := by
  haveI := hE.nonempty
  have hK := kernel_stoch hE hL (resetCond_of hE hp hR)
  have hT : ∀ (i : Fin n) x y, 0 ≤ kernel E π tm (τ i.castSucc) x y := fun i => hK.nonneg _
  have hπ := priorMass_nonneg (cell_pos hE.lattice_pos) hp
  have hpos' : 0 < evidence π (fun i : Fin n => kernel E π tm (τ i.castSucc)) L := lt_of_le_of_ne (Finset.sum_nonneg fun z _ => pathWeight_nonneg' hπ hT hL0 z) hpos.symm
  have he := (evidence_bounds hπ hT hL0 (fun i => (hr i).le) h).1
  have hpos2 : 0 < evidence π (fun i : Fin n => kernel E π tm (τ i.castSucc)) L' := (mul_pos (Finset.prod_pos fun i _ => hr i) hpos').trans_le he
  obtain ⟨A, h1, h2⟩ := C03_filtering E grid tm hE hL S π hp hR L hL0 τ hpos
  obtain ⟨B, h3, h4⟩ := C03_filtering E grid tm hE hL S π hp hR L' (fun i x => (mul_nonneg (hr i).le (hL0 i x)).trans (h i x).1) τ hpos2.ne'
  refine ⟨A, B, _, _, h1, h2, h3, h4, fun i x => ?_⟩
  have hT' : ∀ (j : Fin i.val) x y, 0 ≤ kernel E π tm (upTo i τ j.castSucc) x y := fun j => hK.nonneg _
  have h0 : 0 ≤ evidence π (fun j : Fin i.val => kernel E π tm (upTo i τ j.castSucc)) (upTo i L) := Finset.sum_nonneg fun z _ => pathWeight_nonneg' hπ hT' (fun j => hL0 _) z
  rcases h0.lt_or_eq with h0 | h0
  · exact posterior_bound hπ hT' (L := upTo i L) (L' := upTo i L') (r := upTo i r) (s := upTo i s) (fun j => hL0 _) (fun j => hr _) (fun j => h _) h0 (Fin.last _) x
  · have h5 := (evidence_bounds hπ hT' (L := upTo i L) (L' := upTo i L') (r := upTo i r) (s := upTo i s) (fun j => hL0 _) (fun j => (hr _).le) (fun j => h _)).1
    have h6 := (evidence_bounds hπ hT' (L := upTo i L) (L' := upTo i L') (r := upTo i r) (s := upTo i s) (fun j => hL0 _) (fun j => (hr _).le) (fun j => h _)).2
    rw [← h0, mul_zero] at h5 h6
    have h7 := le_antisymm h6 h5
    simp only [filtering, posterior]
    rw [← h0, h7]
    simp

/-- NotEqual is rightly excluded: it inverts the distribution, so that larger likelihoods can lead to smaller evidence. -/
theorem C81_notEqual_refuted : ∃ (tm : TM ℚ) (Ls Ls' : List (Idx Ex.gs2 → ℚ)), List.Forall₂ (fun L L' => ∀ x, L x ≤ L' x) Ls Ls' ∧
    Ex.ev (fit (Ex.env Ex.gs2 1) (Ex.grid Ex.gs2) tm Ls [0, 1] true false (Ex.S0 .none)) = some (30 / 11) ∧
    Ex.ev (fit (Ex.env Ex.gs2 1) (Ex.grid Ex.gs2) tm Ls' [0, 1] true false (Ex.S0 .none)) = some (5 / 11) :=
  ⟨.leaf .notEqual ["log10pMin"] [.scalar 3] none, [Ex.v2 2 1, Ex.v2 0 2], [Ex.v2 2 3, Ex.v2 0 2],
    .cons (by decide +kernel) (.cons (by decide +kernel) .nil), by decide +kernel, by decide +kernel⟩

/-- The hypotheses are met by a serial model with a change-point and a flat prior; the likelihoods differ by factors between 1/2 and 2. -/
example := C81_smoothing (Ex.env Ex.gs3 (1 / 2)) (Ex.grid Ex.gs3) (Ex.ser true 1 Ex.nested (Ex.grw 2)) (Ex.regular3 (by norm_num))
  (by simp [Ex.ser, Ex.nested, Ex.grw, Ex.static, Linear, LinearAll, Ex.axis_x]) (Ex.S0 .none) _ .flat (Or.inr rfl)
  ![Ex.v3 1 2 3, Ex.v3 0 1 0, Ex.v3 1 0 2] ![Ex.v3 1 3 2, Ex.v3 0 2 0, Ex.v3 (1 / 2) 0 3] (by decide +kernel)
  (fun _ => 1 / 2) (fun _ => 2) (by decide +kernel) (by decide +kernel) ![0, 1, 2] (by decide +kernel) (by decide +kernel)

/-- evidence and filtering: time stamps with gaps -/
example := C81_evidence (Ex.env Ex.gs3 (1 / 2)) (Ex.grid Ex.gs3) (Ex.ser true 1 Ex.nested (Ex.grw 2)) (Ex.regular3 (by norm_num))
  (by simp [Ex.ser, Ex.nested, Ex.grw, Ex.static, Linear, LinearAll, Ex.axis_x]) (Ex.S0 .none) _ .flat (Or.inr (Or.inl rfl))
  ![Ex.v3 1 2 3, Ex.v3 0 1 0, Ex.v3 1 0 2] ![Ex.v3 1 3 2, Ex.v3 0 2 0, Ex.v3 (1 / 2) 0 3] (by decide +kernel)
  (fun _ => 1 / 2) (fun _ => 2) (by decide +kernel) (by decide +kernel) ![0, 1, 7] true false (Or.inr (Or.inl rfl))

end Props
