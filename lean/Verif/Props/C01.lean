import Verif.Props.Ex
import Verif.Lemmas.Evidence

/-! # C01: the log-evidence is the exact marginal likelihood of the hidden-path model -/

set_option linter.unusedSectionVars false

namespace Props
open BL Spec

variable {K : Type} [Field K] [LinearOrder K] [IsStrictOrderedRing K] {d : ℕ} {gs : Fin d → ℕ}

/-- **C01.** For every model assembled from Static, GaussianRandomWalk, Combined and Serial (with break-points), every grid,
every prior, every number of data points, all likelihood values and all timestamps: the evidence
reported by `fit` is the sum over all parameter paths of prior mass × transition probabilities × likelihoods.
(Forward-only and evidence-only mode for all timestamps, full mode for unit-spaced timestamps; for the latter
restriction see C08.) -/
theorem C01_evidence_is_path_sum (E : Env K gs) (grid : (a : Fin d) → Fin (gs a) → K) (tm : TM K)
    (hE : Regular E) (hL : Linear E tm) (hR : ResetFree tm)
    (S : FitState K gs) (π : Idx gs → K) (hp : PriorMass E.cell S.prior π)
    {n : ℕ} (L : Fin (n + 1) → Idx gs → K) (hL0 : ∀ i x, 0 ≤ L i x) (τ : Fin (n + 1) → K) (fo eo : Bool)
    (hmode : eo = true ∨ fo = true ∨ ∀ i : Fin n, τ i.succ = τ i.castSucc + 1) :
    ∃ S', fit E grid tm (List.ofFn L) (List.ofFn τ) fo eo S = .ok S' ∧
      S'.logEv.exp = evidence π (fun i : Fin n => kernel E π tm (τ i.castSucc)) L := by
  obtain ⟨S', h1, h2⟩ := linear_evidence (R := 1) (ρ := π) (grid := grid) hE hL hp (Or.inl hR) hL0 (τ := τ) (fo := fo) (eo := eo)
    (hmode.imp id (Or.imp id fun h => ⟨matched_of_unit h, 0, Or.inl hR⟩))
  refine ⟨S', h1, ?_⟩
  rw [h2]
  simp only [massOut_resetFree tm hR, Finset.prod_const_one, mul_one]

/-- The hypotheses are met by a nested model with break-point, a flat prior and three data points. -/
example : ∃ S', fit (Ex.env Ex.gs3 (1 / 2)) (Ex.grid Ex.gs3) Ex.nested
      (List.ofFn ![Ex.v3 1 2 3, Ex.v3 0 1 0, Ex.v3 1 0 2]) (List.ofFn ![0, 1, 2]) false false (Ex.S0 .none) = .ok S' ∧
      S'.logEv.exp = evidence (fun _ => 1 / (Fintype.card (Idx Ex.gs3) : ℚ))
        (fun i : Fin 2 => kernel (Ex.env Ex.gs3 (1 / 2)) (fun _ => 1 / (Fintype.card (Idx Ex.gs3) : ℚ)) Ex.nested (![(0 : ℚ), 1, 2] i.castSucc))
        ![Ex.v3 1 2 3, Ex.v3 0 1 0, Ex.v3 1 0 2] :=
  C01_evidence_is_path_sum _ _ _ (Ex.regular3 (by norm_num)) (Ex.nested_linear _ _) Ex.nested_resetFree _ _ .flat _
    (by decide +kernel) _ _ _ (Or.inr (Or.inr (by decide +kernel)))

/-- and the value is not trivial -/
example : Ex.ev (fit (Ex.env Ex.gs3 (1 / 2)) (Ex.grid Ex.gs3) Ex.nested
      [Ex.v3 1 2 3, Ex.v3 0 1 0, Ex.v3 1 0 2] [0, 1, 2] false false (Ex.S0 .none)) = some (1 / 2) := by
  decide +kernel

end Props
