import Verif.Props.Ex
import Verif.Lemmas.Resets

/-! # C02: resets (ChangePoint, change-points of serial models, Independent) -/

set_option linter.unusedSectionVars false

namespace Props
open BL Spec

variable {K : Type} [Field K] [LinearOrder K] [IsStrictOrderedRing K] {d : ℕ} {gs : Fin d → ℕ}

/-- The full claim for one kind of study: evidence = path sum, where a reset is a fresh draw from the prior `π`. -/
def C02_claim (E : Env K gs) (grid : (a : Fin d) → Fin (gs a) → K) (S : FitState K gs) (π : Idx gs → K) : Prop :=
  ∀ (tm : TM K), Linear E tm → ∀ (n : ℕ) (L : Fin (n + 1) → Idx gs → K), (∀ i x, 0 ≤ L i x) →
    ∀ (τ : Fin (n + 1) → K),
    ∃ S', fit E grid tm (List.ofFn L) (List.ofFn τ) true false S = .ok S' ∧
      S'.logEv.exp = evidence π (fun i : Fin n => kernel E π tm (τ i.castSucc)) L

/-- **C02 (exact value).** For a flat prior or a prior given by a function: the reported evidence is the path sum
with fresh draws at resets, multiplied with the factors `massOut` (`cell volume` for each time step whose last
reset is a change-point). -/
theorem C02_exact_factor (E : Env K gs) (grid : (a : Fin d) → Fin (gs a) → K) (tm : TM K)
    (hE : Regular E) (hL : Linear E tm)
    (S : FitState K gs) (π : Idx gs → K) (hp : PriorMass E.cell S.prior π)
    (hprior : S.prior = .none ∨ ∃ v, S.prior = .func v)
    {n : ℕ} (L : Fin (n + 1) → Idx gs → K) (hL0 : ∀ i x, 0 ≤ L i x) (τ : Fin (n + 1) → K) (fo eo : Bool)
    (hmode : eo = true ∨ fo = true) :
    ∃ S', fit E grid tm (List.ofFn L) (List.ofFn τ) fo eo S = .ok S' ∧
      S'.logEv.exp = evidence π (fun i : Fin n => kernel E π tm (τ i.castSucc)) L *
        ∏ i : Fin n, massOut E 1 tm (τ i.castSucc) 1 := by
  haveI := hE.nonempty
  refine linear_evidence (R := 1) (ρ := π) (grid := grid) hE hL hp (Or.inr ⟨?_, resetOK_prior hp hprior⟩) hL0
    (hmode.imp id Or.inl)
  rcases hprior with h | ⟨v, h⟩ <;> rw [h] <;> rfl

/-- **C02 (part that holds).** With unit cell volume, or if the only resets are Independent models, and with a flat prior or
a prior given by a function, the evidence is exact.  Missing for the full claim: other cell volumes, other kinds of priors
(refuted below). -/
theorem C02_partial (E : Env K gs) (grid : (a : Fin d) → Fin (gs a) → K) (tm : TM K)
    (hE : Regular E) (hL : Linear E tm) (hc : E.cell = 1 ∨ NoChangePoint tm)
    (S : FitState K gs) (π : Idx gs → K) (hp : PriorMass E.cell S.prior π)
    (hprior : S.prior = .none ∨ ∃ v, S.prior = .func v)
    {n : ℕ} (L : Fin (n + 1) → Idx gs → K) (hL0 : ∀ i x, 0 ≤ L i x) (τ : Fin (n + 1) → K) (fo eo : Bool)
    (hmode : eo = true ∨ fo = true) :
    ∃ S', fit E grid tm (List.ofFn L) (List.ofFn τ) fo eo S = .ok S' ∧
      S'.logEv.exp = evidence π (fun i : Fin n => kernel E π tm (τ i.castSucc)) L := by
  obtain ⟨S', h1, h2⟩ := C02_exact_factor E grid tm hE hL S π hp hprior L hL0 τ fo eo hmode
  refine ⟨S', h1, ?_⟩
  rw [h2]
  simp only [massOut_one tm hc, Finset.prod_const_one, mul_one]

/-- hypotheses of `C02_partial`: a serial model with change-point, function prior, unit lattice constant -/
example : ∃ S', fit (Ex.env Ex.gs2 1) (Ex.grid Ex.gs2) (Ex.ser true 0 (Ex.grw 1) Ex.static)
      (List.ofFn ![Ex.v2 1 2, Ex.v2 0 1]) (List.ofFn ![0, 1]) true false (Ex.S0 (.func (Ex.v2 1 3))) = .ok S' ∧
      S'.logEv.exp = evidence (fun x => Ex.v2 1 3 x / ∑ y, Ex.v2 1 3 y)
        (fun i : Fin 1 => kernel (Ex.env Ex.gs2 1) (fun x => Ex.v2 1 3 x / ∑ y, Ex.v2 1 3 y)
          (Ex.ser true 0 (Ex.grw 1) Ex.static) (![(0 : ℚ), 1] i.castSucc)) ![Ex.v2 1 2, Ex.v2 0 1] :=
  C02_partial _ _ _ (Ex.regular2 (by norm_num)) (by simp [Ex.ser, Ex.grw, Ex.static, Linear, LinearAll, Ex.axis_x])
    (Or.inl (by simp [Env.cell, Ex.env])) _ _ (.func _ (by decide +kernel) (by decide +kernel) (Or.inr (by simp [Env.cell, Ex.env])))
    (Or.inr ⟨_, rfl⟩) _ (by decide +kernel) _ _ _ (Or.inr rfl)

/-- turn a computed evidence into a refutation -/
theorem refute_C02 {gs : Fin 1 → ℕ} {E : Env ℚ gs} {grid : (a : Fin 1) → Fin (gs a) → ℚ} {S : FitState ℚ gs} {π : Idx gs → ℚ}
    (tm : TM ℚ) (hL : Linear E tm) (L : Fin 2 → Idx gs → ℚ) (hL0 : ∀ i x, 0 ≤ L i x) (τ : Fin 2 → ℚ)
    (h : Ex.ev (fit E grid tm (List.ofFn L) (List.ofFn τ) true false S) ≠
      some (evidence π (fun i : Fin 1 => kernel E π tm (τ i.castSucc)) L)) : ¬ C02_claim E grid S π := by
  intro hc
  obtain ⟨S', h1, h2⟩ := hc tm hL 1 L hL0 τ
  rw [h1] at h
  exact h (congrArg some h2)

/-- **C02 refuted (1):** lattice constant 1/2: evidence with one change-point is off by the factor 1/2. -/
theorem C02_refuted_lattice :
    ¬ C02_claim (Ex.env Ex.gs2 (1 / 2)) (Ex.grid Ex.gs2) (Ex.S0 .none) (fun _ => 1 / (Fintype.card (Idx Ex.gs2) : ℚ)) :=
  refute_C02 (Ex.cp 0) (by simp [Ex.cp, Linear]) ![Ex.v2 1 2, Ex.v2 1 1] (by decide +kernel) ![0, 1] (by decide +kernel)

/-- **C02 refuted (2):** a prior given as an array is overwritten by the forward pass before the reset
reads it (unit lattice constant). -/
theorem C02_refuted_array :
    ¬ C02_claim (Ex.env Ex.gs2 1) (Ex.grid Ex.gs2) (Ex.S0 (.array (some (Ex.v2 1 3)))) (fun x => Ex.v2 1 3 x / ∑ y, Ex.v2 1 3 y) :=
  refute_C02 (Ex.cp 0) (by simp [Ex.cp, Linear]) ![Ex.v2 1 0, Ex.v2 1 2] (by decide +kernel) ![0, 1] (by decide +kernel)

/-- **C02 refuted (3):** a scalar-valued function prior (`lambda x: 1.`) resets to an array of ones. -/
theorem C02_refuted_const :
    ¬ C02_claim (Ex.env Ex.gs2 1) (Ex.grid Ex.gs2) (Ex.S0 (.funcConst 1)) (fun _ => 1 / (Fintype.card (Idx Ex.gs2) : ℚ)) :=
  refute_C02 (Ex.cp 0) (by simp [Ex.cp, Linear]) ![Ex.v2 1 1, Ex.v2 1 1] (by decide +kernel) ![0, 1] (by decide +kernel)

/-- **C02 refuted (4):** a prior given by random variables is ignored by the reset. -/
theorem C02_refuted_rvs :
    ¬ C02_claim (Ex.env Ex.gs2 1) (Ex.grid Ex.gs2) (Ex.S0 (.rvs 1 true (Ex.v2 (1 / 4) (3 / 4)))) (fun x => Ex.v2 (1 / 4) (3 / 4) x * 1) :=
  refute_C02 (Ex.cp 0) (by simp [Ex.cp, Linear]) ![Ex.v2 1 1, Ex.v2 1 0] (by decide +kernel) ![0, 1] (by decide +kernel)

/-- the priors in the refutations stand for the probabilities used there -/
example : PriorMass (1 / 2 : ℚ) (Ex.S0 (gs := Ex.gs2) .none).prior (fun _ => 1 / (Fintype.card (Idx Ex.gs2) : ℚ)) ∧
    PriorMass (1 : ℚ) (Ex.S0 (.array (some (Ex.v2 1 3)))).prior (fun x => Ex.v2 1 3 x / ∑ y, Ex.v2 1 3 y) ∧
    PriorMass (1 : ℚ) (Ex.S0 (gs := Ex.gs2) (.funcConst 1)).prior (fun _ => 1 / (Fintype.card (Idx Ex.gs2) : ℚ)) ∧
    PriorMass (1 : ℚ) (Ex.S0 (.rvs 1 true (Ex.v2 (1 / 4) (3 / 4)))).prior (fun x => Ex.v2 (1 / 4) (3 / 4) x * 1) :=
  ⟨.flat, .array _ (by decide +kernel) (by decide +kernel) (Or.inr rfl), .const _ (by norm_num) (Or.inr rfl),
    .rvs _ (by decide +kernel)⟩

end Props
