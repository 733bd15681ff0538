import Verif.Props.Ex
import Verif.Lemmas.Resets

/-! # C04, C05, C06: smoothing -/

set_option linter.unusedSectionVars false

namespace Props
open BL Spec

variable {K : Type} [Field K] [LinearOrder K] [IsStrictOrderedRing K] {d : ℕ} {gs : Fin d → ℕ}

/-- "The full fit stores the smoothing distributions": at every time step the conditional distribution of the
parameter given all data, under the path model with prior `π` (resets = fresh draws from `π`). -/
def SmoothingExact (E : Env K gs) (grid : (a : Fin d) → Fin (gs a) → K) (tm : TM K) (S : FitState K gs) (π : Idx gs → K)
    {n : ℕ} (L : Fin (n + 1) → Idx gs → K) (τ : Fin (n + 1) → K) : Prop :=
  ∃ S', fit E grid tm (List.ofFn L) (List.ofFn τ) false false S = .ok S' ∧
    S'.posts = List.ofFn fun i => .val (posterior π (fun i : Fin n => kernel E π tm (τ i.castSucc)) L i)

theorem smoothing_matched (E : Env K gs) (grid : (a : Fin d) → Fin (gs a) → K) (tm : TM K)
    (hE : Regular E) (hL : Linear E tm) (S : FitState K gs) (π : Idx gs → K) (hp : PriorMass E.cell S.prior π)
    (hR : ResetFree tm ∨ S.prior = .none)
    {n : ℕ} (L : Fin (n + 1) → Idx gs → K) (hL0 : ∀ i x, 0 ≤ L i x) (τ : Fin (n + 1) → K)
    (hU : ∀ i : Fin n, kernel E π tm (τ i.succ - 1) = kernel E π tm (τ i.castSucc))
    (hpos : evidence π (fun i : Fin n => kernel E π tm (τ i.castSucc)) L ≠ 0) :
    SmoothingExact E grid tm S π L τ := by
  haveI := hE.nonempty
  have hR' : ResetCond E tm S.prior 1 π := by
    rcases hR with h | h
    · exact Or.inl h
    · exact Or.inr ⟨by rw [h]; rfl, resetOK_prior hp (Or.inl h)⟩
  have hu : ResetFree tm ∨ ∀ x, π x = 1 / (Fintype.card (Idx gs) : K) := by
    rcases hR with h | h
    · exact Or.inl h
    · rw [h] at hp
      cases hp
      exact Or.inr fun x => rfl
  obtain ⟨S', h1, h2, -⟩ := linear_posterior (grid := grid) hE hL hp hR' hL0 hU _ hu hpos
  exact ⟨S', h1, h2⟩

/-- **C04.** For unit-spaced timestamps and every data sequence of non-zero probability, `fit()` stores the exact smoothing
distributions; with change-points/Independent for flat priors, without them for every prior. -/
theorem C04_smoothing (E : Env K gs) (grid : (a : Fin d) → Fin (gs a) → K) (tm : TM K)
    (hE : Regular E) (hL : Linear E tm) (S : FitState K gs) (π : Idx gs → K) (hp : PriorMass E.cell S.prior π)
    (hR : ResetFree tm ∨ S.prior = .none)
    {n : ℕ} (L : Fin (n + 1) → Idx gs → K) (hL0 : ∀ i x, 0 ≤ L i x) (τ : Fin (n + 1) → K)
    (hU : ∀ i : Fin n, τ i.succ = τ i.castSucc + 1)
    (hpos : evidence π (fun i : Fin n => kernel E π tm (τ i.castSucc)) L ≠ 0) :
    SmoothingExact E grid tm S π L τ :=
  smoothing_matched E grid tm hE hL S π hp hR L hL0 τ (matched_of_unit hU) hpos

example : SmoothingExact (Ex.env Ex.gs3 (1 / 2)) (Ex.grid Ex.gs3) (Ex.ser true 1 Ex.nested (Ex.grw 2)) (Ex.S0 .none)
      (fun _ => 1 / (Fintype.card (Idx Ex.gs3) : ℚ)) ![Ex.v3 1 2 3, Ex.v3 0 1 0, Ex.v3 1 0 2] ![0, 1, 2] :=
  C04_smoothing _ _ _ (Ex.regular3 (by norm_num))
    (by simp [Ex.ser, Ex.nested, Ex.grw, Ex.static, Linear, LinearAll, Ex.axis_x]) _ _ .flat (Or.inr rfl) _
    (by decide +kernel) _ (by decide +kernel) (by decide +kernel)

/-- turn computed posteriors into a refutation -/
theorem refute_smoothing {gs : Fin 1 → ℕ} {E : Env ℚ gs} {grid : (a : Fin 1) → Fin (gs a) → ℚ} {tm : TM ℚ} {S : FitState ℚ gs}
    {π : Idx gs → ℚ} {n : ℕ} {L : Fin (n + 1) → Idx gs → ℚ} {τ : Fin (n + 1) → ℚ}
    (h : Ex.postTable (fit E grid tm (List.ofFn L) (List.ofFn τ) false false S) ≠
      some (List.ofFn fun i => .val ((List.finRange (gs 0)).map fun k =>
        posterior π (fun i : Fin n => kernel E π tm (τ i.castSucc)) L i (fun a => (Fin.fin_one_eq_zero a) ▸ k)))) :
    ¬ SmoothingExact E grid tm S π L τ := by
  rintro ⟨S', h1, h2⟩
  rw [h1, Ex.postTable, h2, List.map_ofFn] at h
  exact h rfl

/-- The claim C05: smoothing is exact for every prior, also across change-points (unit spacing). -/
def C05_claim : Prop :=
  ∀ (E : Env ℚ Ex.gs2) (tm : TM ℚ), Regular E → Linear E tm → E.cell = 1 →
    ∀ (S : FitState ℚ Ex.gs2) (π : Idx Ex.gs2 → ℚ), PriorMass E.cell S.prior π → (∃ v, S.prior = .func v) →
    ∀ (n : ℕ) (L : Fin (n + 1) → Idx Ex.gs2 → ℚ), (∀ i x, 0 ≤ L i x) →
    ∀ (τ : Fin (n + 1) → ℚ), (∀ i : Fin n, τ i.succ = τ i.castSucc + 1) →
    evidence π (fun i : Fin n => kernel E π tm (τ i.castSucc)) L ≠ 0 →
    SmoothingExact E (Ex.grid Ex.gs2) tm S π L τ

/-- **C05 refuted.** Prior (1/4, 3/4), uninformative data, one change-point: the stored posterior before the change-point is
(1/10, 9/10). -/
theorem C05_refuted : ¬ C05_claim := by
  intro h
  refine refute_smoothing ?_ (h (Ex.env Ex.gs2 1) (Ex.cp 0) (Ex.regular2 (by norm_num)) (by simp [Ex.cp, Linear])
    (by simp [Env.cell, Ex.env]) (Ex.S0 (.func (Ex.v2 1 3))) _
    (.func _ (by decide +kernel) (by decide +kernel) (Or.inr (by simp [Env.cell, Ex.env]))) ⟨_, rfl⟩ 1
    ![Ex.v2 1 1, Ex.v2 1 1] (by decide +kernel) ![0, 1] (by decide +kernel) (by decide +kernel))
  decide +kernel

/-- the value in the refutation -/
example : Ex.postTable (fit (Ex.env Ex.gs2 1) (Ex.grid Ex.gs2) (Ex.cp 0) [Ex.v2 1 1, Ex.v2 1 1] [0, 1] false false
    (Ex.S0 (.func (Ex.v2 1 3)))) = some [.val [1 / 10, 9 / 10], .val [1 / 4, 3 / 4]] := by decide +kernel

/-- **C05 (part that holds).** Flat prior.  Missing: non-flat priors (refuted above). -/
theorem C05_partial (E : Env K gs) (grid : (a : Fin d) → Fin (gs a) → K) (tm : TM K)
    (hE : Regular E) (hL : Linear E tm) (S : FitState K gs) (hp : S.prior = .none)
    {n : ℕ} (L : Fin (n + 1) → Idx gs → K) (hL0 : ∀ i x, 0 ≤ L i x) (τ : Fin (n + 1) → K)
    (hU : ∀ i : Fin n, τ i.succ = τ i.castSucc + 1)
    (hpos : evidence (fun _ => 1 / (Fintype.card (Idx gs) : K))
      (fun i : Fin n => kernel E (fun _ => 1 / (Fintype.card (Idx gs) : K)) tm (τ i.castSucc)) L ≠ 0) :
    SmoothingExact E grid tm S (fun _ => 1 / (Fintype.card (Idx gs) : K)) L τ :=
  C04_smoothing E grid tm hE hL S _ (by rw [hp]; exact .flat) (Or.inr hp) L hL0 τ hU hpos

example : SmoothingExact (Ex.env Ex.gs2 (1 / 2)) (Ex.grid Ex.gs2) (Ex.cp 0) (Ex.S0 .none)
      (fun _ => 1 / (Fintype.card (Idx Ex.gs2) : ℚ)) ![Ex.v2 1 2, Ex.v2 3 1] ![0, 1] :=
  C05_partial _ _ _ (Ex.regular2 (by norm_num)) (by simp [Ex.cp, Linear]) _ rfl _
    (by decide +kernel) _ (by decide +kernel) (by decide +kernel)

/-- The claim C06: smoothing is exact for all increasing timestamps. -/
def C06_claim : Prop :=
  ∀ (E : Env ℚ Ex.gs2) (tm : TM ℚ), Regular E → Linear E tm → ResetFree tm →
    ∀ (S : FitState ℚ Ex.gs2) (π : Idx Ex.gs2 → ℚ), PriorMass E.cell S.prior π →
    ∀ (n : ℕ) (L : Fin (n + 1) → Idx Ex.gs2 → ℚ), (∀ i x, 0 ≤ L i x) →
    ∀ (τ : Fin (n + 1) → ℚ), (∀ i : Fin n, τ i.castSucc < τ i.succ) →
    evidence π (fun i : Fin n => kernel E π tm (τ i.castSucc)) L ≠ 0 →
    SmoothingExact E (Ex.grid Ex.gs2) tm S π L τ

/-- **C06 refuted.** Timestamps 0, 10 and a break-point at 5: the forward pass uses the first sub-model, the backward pass the
second one. -/
theorem C06_refuted : ¬ C06_claim := by
  intro h
  refine refute_smoothing ?_ (h (Ex.env Ex.gs2 1) (Ex.ser false 5 (Ex.grw 1) Ex.static) (Ex.regular2 (by norm_num))
    (by simp [Ex.ser, Ex.grw, Ex.static, Linear, LinearAll, Ex.axis_x])
    (by simp [Ex.ser, Ex.grw, Ex.static, ResetFree, ResetFreeAll]) (Ex.S0 .none) _ .flat 1
    ![Ex.v2 1 1, Ex.v2 1 3] (by decide +kernel) ![0, 10] (by decide +kernel) (by decide +kernel))
  decide +kernel

/-- **C06 (part that holds).** Smoothing is exact if the transition at each timestamp minus one is the transition at the
preceding timestamp; in particular for unit-spaced timestamps and (any timestamps) for time-independent models.
Missing: other timestamps (refuted above). -/
theorem C06_partial (E : Env K gs) (grid : (a : Fin d) → Fin (gs a) → K) (tm : TM K)
    (hE : Regular E) (hL : Linear E tm) (S : FitState K gs) (π : Idx gs → K) (hp : PriorMass E.cell S.prior π)
    (hR : ResetFree tm ∨ S.prior = .none)
    {n : ℕ} (L : Fin (n + 1) → Idx gs → K) (hL0 : ∀ i x, 0 ≤ L i x) (τ : Fin (n + 1) → K)
    (hU : (∀ i : Fin n, τ i.succ = τ i.castSucc + 1) ∨ TimeIndependent tm ∨
      ∀ i : Fin n, kernel E π tm (τ i.succ - 1) = kernel E π tm (τ i.castSucc))
    (hpos : evidence π (fun i : Fin n => kernel E π tm (τ i.castSucc)) L ≠ 0) :
    SmoothingExact E grid tm S π L τ := by
  refine smoothing_matched E grid tm hE hL S π hp hR L hL0 τ ?_ hpos
  rcases hU with h | h | h
  · exact matched_of_unit h
  · exact fun i => kernel_time tm h _ _
  · exact h

example : SmoothingExact (Ex.env Ex.gs3 (1 / 2)) (Ex.grid Ex.gs3) (.combined [Ex.grw 1, Ex.grw 2]) (Ex.S0 .none)
      (fun _ => 1 / (Fintype.card (Idx Ex.gs3) : ℚ)) ![Ex.v3 1 2 3, Ex.v3 0 1 0] ![0, 10] :=
  C06_partial _ _ _ (Ex.regular3 (by norm_num)) (by simp [Ex.grw, Linear, LinearAll, Ex.axis_x]) _ _ .flat (Or.inr rfl) _
    (by decide +kernel) _ (Or.inr (Or.inl (by simp [Ex.grw, TimeIndependent, TimeIndependentAll]))) (by decide +kernel)

end Props
