import Verif.Props.Ex
import Verif.Lemmas.Resets

/-! # C08: the fit modes agree; C09: impossible data -/

set_option linter.unusedSectionVars false

namespace Props
open BL Spec

variable {K : Type} [Field K] [LinearOrder K] [IsStrictOrderedRing K] {d : ℕ} {gs : Fin d → ℕ}

/-- The full claim C08 for one study: all modes report the same evidence. -/
def C08_claim (E : Env K gs) (grid : (a : Fin d) → Fin (gs a) → K) (tm : TM K) (S : FitState K gs)
    (Ls : List (Idx gs → K)) (ts : List K) : Prop :=
  ∀ S1 S2, fit E grid tm Ls ts false false S = .ok S1 → fit E grid tm Ls ts true false S = .ok S2 → S1.logEv = S2.logEv

/-- **C08 (forward-only vs evidence-only, all models).** For every transition model, prior, data and timestamps:
`fit(evidenceOnly=True)` and `fit(forwardOnly=True)` succeed or fail alike and report the same evidence and
the same local evidences; evidenceOnly leaves the stored posteriors as they were and, if the evidence is not zero, empties the means. -/
theorem C08_evidenceOnly (E : Env K gs) (grid : (a : Fin d) → Fin (gs a) → K) (tm : TM K) (S : FitState K gs)
    (Ls : List (Idx gs → K)) (ts : List K) (fo : Bool) :
    (∀ e, fit E grid tm Ls ts true false S = .error e ↔ fit E grid tm Ls ts fo true S = .error e) ∧
    ∀ S1 S2, fit E grid tm Ls ts true false S = .ok S1 → fit E grid tm Ls ts fo true S = .ok S2 →
      S1.logEv = S2.logEv ∧ S1.locals = S2.locals ∧ S1.prior = S2.prior ∧ S2.posts = S.posts ∧
      (S2.logEv ≠ LogV.ninf → ∀ a, S2.means a = []) := by
  unfold fit
  cases hc : computePrior { E with prior := S.prior } with
  | error e => simp [bind, Except.bind]
  | ok ap =>
      obtain ⟨a0, pr0⟩ := ap
      simp only [bind, Except.bind]
      cases hf : fwdPass E tm pr0.isArray pr0 a0 Ls ts with
      | error e => simp
      | ok r =>
          simp only
          by_cases hst : r.stopped = true
          · simp only [hst, if_true]
            refine ⟨by simp, ?_⟩
            rintro S1 S2 h1 h2
            cases h1; cases h2
            simp
          · simp only [hst, if_false, if_true, Bool.false_eq_true]
            refine ⟨by simp, ?_⟩
            rintro S1 S2 h1 h2
            cases h1; cases h2
            simp

/-- **C08 (full fit vs forward-only, all models).** For every transition model: whenever both calls return, the
evidences agree unless the full fit reports zero. -/
theorem C08_full_or_zero (E : Env K gs) (grid : (a : Fin d) → Fin (gs a) → K) (tm : TM K) (S : FitState K gs)
    (Ls : List (Idx gs → K)) (ts : List K) (S1 S2 : FitState K gs)
    (h1 : fit E grid tm Ls ts false false S = .ok S1) (h2 : fit E grid tm Ls ts true false S = .ok S2) :
    S1.logEv = S2.logEv ∨ S1.logEv = LogV.ninf := by
  unfold fit at h1 h2
  revert h1 h2
  cases hc : computePrior { E with prior := S.prior } with
  | error e => simp [bind, Except.bind]
  | ok ap =>
      obtain ⟨a0, pr0⟩ := ap
      simp only [bind, Except.bind]
      cases hf : fwdPass E tm pr0.isArray pr0 a0 Ls ts with
      | error e => simp
      | ok r =>
          simp only
          by_cases hst : r.stopped = true
          · simp only [hst, if_true]
            intro h1 h2
            cases h1; cases h2
            simp
          · simp only [hst, if_false, if_true, Bool.false_eq_true]
            cases hb : bwdPass { E with prior := r.prior } tm r.steps with
            | error e => simp
            | ok b =>
                simp only
                by_cases hbs : b.stopped = true
                · simp only [hbs, if_true]
                  intro h1 h2
                  cases h1; cases h2
                  simp
                · simp only [hbs, if_false, Bool.false_eq_true]
                  intro h1 h2
                  cases h1; cases h2
                  simp

/-- **C08 (part that holds for full fits).** Unit-spaced timestamps and models of C04: all three modes report
the same evidence.  Missing: other timestamps (refuted below). -/
theorem C08_partial (E : Env K gs) (grid : (a : Fin d) → Fin (gs a) → K) (tm : TM K)
    (hE : Regular E) (hL : Linear E tm) (S : FitState K gs) (π : Idx gs → K) (hp : PriorMass E.cell S.prior π)
    (hR : ResetFree tm ∨ S.prior = .none)
    {n : ℕ} (L : Fin (n + 1) → Idx gs → K) (hL0 : ∀ i x, 0 ≤ L i x) (τ : Fin (n + 1) → K)
    (hU : ∀ i : Fin n, τ i.succ = τ i.castSucc + 1) :
    ∃ S1 S2 S3, fit E grid tm (List.ofFn L) (List.ofFn τ) false false S = .ok S1 ∧
      fit E grid tm (List.ofFn L) (List.ofFn τ) true false S = .ok S2 ∧
      fit E grid tm (List.ofFn L) (List.ofFn τ) false true S = .ok S3 ∧
      S1.logEv = S2.logEv ∧ S2.logEv = S3.logEv := by
  haveI := hE.nonempty
  have hR' : ResetCond E tm S.prior 1 π := by
    rcases hR with h | h
    · exact Or.inl h
    · exact Or.inr ⟨by rw [h]; rfl, resetOK_prior hp (Or.inl h)⟩
  have hu : ResetFree tm ∨ ∀ x, π x = 1 / (Fintype.card (Idx gs) : K) := by
    rcases hR with h | h
    · exact Or.inl h
    · rw [h] at hp
      cases hp
      exact Or.inr fun x => rfl
  have hm : ∀ i : Fin n, kernel E π tm (τ i.succ - 1) = kernel E π tm (τ i.castSucc) := matched_of_unit hU
  obtain ⟨S1, h1, e1⟩ := linear_evidence (grid := grid) hE hL hp hR' hL0 (fo := false) (eo := false) (Or.inr (Or.inr ⟨hm, _, hu⟩))
  obtain ⟨S2, h2, e2⟩ := linear_evidence (grid := grid) (τ := τ) hE hL hp hR' hL0 (fo := true) (eo := false) (Or.inr (Or.inl rfl))
  obtain ⟨S3, h3, e3⟩ := linear_evidence (grid := grid) (τ := τ) hE hL hp hR' hL0 (fo := false) (eo := true) (Or.inl rfl)
  exact ⟨S1, S2, S3, h1, h2, h3, LogV.ext_exp (e1.trans e2.symm), LogV.ext_exp (e2.trans e3.symm)⟩

example := C08_partial (Ex.env Ex.gs3 (1 / 2)) (Ex.grid Ex.gs3) Ex.nested (Ex.regular3 (by norm_num)) (Ex.nested_linear _ _)
  (Ex.S0 (.func (Ex.v3 1 2 4))) _ (.func _ (by decide +kernel) (by decide +kernel) (Or.inl (by decide +kernel))) (Or.inl Ex.nested_resetFree)
  (n := 1) ![Ex.v3 1 2 3, Ex.v3 0 1 0] (by decide +kernel) ![3, 4] (by decide +kernel)

/-- **C08 refuted.** Timestamps 0 and 10, break-point at 5, walk before and static after: the forward pass finds evidence 1/8,
the full fit reports zero (`-inf`). -/
theorem C08_refuted : ¬ ∀ (E : Env ℚ Ex.gs2) (tm : TM ℚ) (Ls : List (Idx Ex.gs2 → ℚ)) (ts : List ℚ), Regular E → Linear E tm →
    (∀ L ∈ Ls, ∀ x, 0 ≤ L x) → ts.Pairwise (· < ·) → C08_claim E (Ex.grid Ex.gs2) tm (Ex.S0 .none) Ls ts := by
  intro h
  have h := h (Ex.env Ex.gs2 1) (Ex.ser false 5 (Ex.grw 1) Ex.static) [Ex.v2 1 0, Ex.v2 0 1] [0, 10]
    (Ex.regular2 (by norm_num)) (by simp [Ex.ser, Ex.grw, Ex.static, Linear, LinearAll, Ex.axis_x]) (by decide +kernel)
    (by decide +kernel)
  have h1 : Ex.ev (fit (Ex.env Ex.gs2 1) (Ex.grid Ex.gs2) (Ex.ser false 5 (Ex.grw 1) Ex.static) [Ex.v2 1 0, Ex.v2 0 1] [0, 10] false false (Ex.S0 .none)) = some 0 := by
    decide +kernel
  have h2 : Ex.ev (fit (Ex.env Ex.gs2 1) (Ex.grid Ex.gs2) (Ex.ser false 5 (Ex.grw 1) Ex.static) [Ex.v2 1 0, Ex.v2 0 1] [0, 10] true false (Ex.S0 .none)) = some (1 / 8) := by
    decide +kernel
  unfold C08_claim at h
  generalize fit (Ex.env Ex.gs2 1) (Ex.grid Ex.gs2) (Ex.ser false 5 (Ex.grw 1) Ex.static) [Ex.v2 1 0, Ex.v2 0 1] [0, 10] false false (Ex.S0 .none) = r1 at h h1
  generalize fit (Ex.env Ex.gs2 1) (Ex.grid Ex.gs2) (Ex.ser false 5 (Ex.grw 1) Ex.static) [Ex.v2 1 0, Ex.v2 0 1] [0, 10] true false (Ex.S0 .none) = r2 at h h2
  cases r1 with
  | error e => simp [Ex.ev] at h1
  | ok S1 =>
      cases r2 with
      | error e => simp [Ex.ev] at h2
      | ok S2 =>
          have h3 := h S1 S2 rfl rfl
          simp only [Ex.ev, Option.some.injEq] at h1 h2
          rw [h3, h2] at h1
          norm_num at h1

/-- **C09.** `fit` returns without error, and reports `-inf` exactly if the data have probability zero; in that case the mean
values are not updated. (Models of C01; full mode for unit-spaced timestamps.) -/
theorem C09_zero_iff_impossible (E : Env K gs) (grid : (a : Fin d) → Fin (gs a) → K) (tm : TM K)
    (hE : Regular E) (hL : Linear E tm) (S : FitState K gs) (π : Idx gs → K) (hp : PriorMass E.cell S.prior π)
    (hR : ResetFree tm ∨ S.prior = .none)
    {n : ℕ} (L : Fin (n + 1) → Idx gs → K) (hL0 : ∀ i x, 0 ≤ L i x) (τ : Fin (n + 1) → K) (fo eo : Bool)
    (hmode : eo = true ∨ fo = true ∨ ∀ i : Fin n, τ i.succ = τ i.castSucc + 1) :
    ∃ S', fit E grid tm (List.ofFn L) (List.ofFn τ) fo eo S = .ok S' ∧
      (S'.logEv = LogV.ninf ↔ ∀ z, pathWeight π (fun i : Fin n => kernel E π tm (τ i.castSucc)) L z = 0) ∧
      (S'.logEv = LogV.ninf → S'.means = S.means) := by
  haveI := hE.nonempty
  have hR' : ResetCond E tm S.prior 1 π := by
    rcases hR with h | h
    · exact Or.inl h
    · exact Or.inr ⟨by rw [h]; rfl, resetOK_prior hp (Or.inl h)⟩
  have hu : ResetFree tm ∨ ∀ x, π x = 1 / (Fintype.card (Idx gs) : K) := by
    rcases hR with h | h
    · exact Or.inl h
    · rw [h] at hp
      cases hp
      exact Or.inr fun x => rfl
  have hK := kernel_stoch hE hL hR'
  have hπ := priorMass_nonneg (cell_pos hE.lattice_pos) hp
  have hev : evidence π (fun i : Fin n => kernel E π tm (τ i.castSucc)) L = 0 ↔
      ∀ z, pathWeight π (fun i : Fin n => kernel E π tm (τ i.castSucc)) L z = 0 := by
    unfold evidence
    rw [Finset.sum_eq_zero_iff_of_nonneg fun z _ => pathWeight_nonneg hπ (fun i => hK.nonneg _) hL0 z]
    simp
  have hmass : 0 < ∏ i : Fin n, massOut E 1 tm (τ i.castSucc) 1 :=
    Finset.prod_pos fun i _ => massOut_pos hE.lattice_pos tm (Or.inr one_pos) _ 1 one_pos
  obtain ⟨S', h1, e1⟩ := linear_evidence (grid := grid) (τ := τ) hE hL hp hR' hL0 (fo := fo) (eo := eo)
    (hmode.imp id (Or.imp id fun h => ⟨matched_of_unit h, _, hu⟩))
  have hz : S'.logEv = LogV.ninf ↔ evidence π (fun i : Fin n => kernel E π tm (τ i.castSucc)) L = 0 := by
    constructor
    · intro h
      rw [h, LogV.exp_ninf] at e1
      exact (mul_eq_zero.1 e1.symm).resolve_right hmass.ne'
    · intro h
      refine LogV.ext_exp ?_
      rw [e1, h, zero_mul]; rfl
  refine ⟨S', h1, hz.trans hev, ?_⟩
  intro h
  have h0 := hz.1 h
  rw [← pathEv_ofFn hK π L τ] at h0
  obtain ⟨S'', h2, -, h3⟩ := fit_zero (grid := grid) hE hL hp hR' (by simp) (ofFn_nonneg hL0) (by simp [List.ofFn_succ]) h0 fo eo
  rw [h2] at h1
  cases h1
  exact h3

/-- possible and impossible data -/
example : Ex.ev (fit (Ex.env Ex.gs2 (1 / 2)) (Ex.grid Ex.gs2) Ex.static [Ex.v2 1 0, Ex.v2 0 1] [0, 1] false false (Ex.S0 .none)) = some 0 ∧
    Ex.ev (fit (Ex.env Ex.gs2 (1 / 2)) (Ex.grid Ex.gs2) (Ex.grw 1) [Ex.v2 1 0, Ex.v2 0 1] [0, 1] false false (Ex.S0 .none)) = some (1 / 8) := by
  decide +kernel

example := C09_zero_iff_impossible (Ex.env Ex.gs2 (1 / 2)) (Ex.grid Ex.gs2) (Ex.cp 0) (Ex.regular2 (by norm_num))
  (by simp [Ex.cp, Linear]) (Ex.S0 .none) _ .flat (Or.inr rfl) (n := 1) ![Ex.v2 1 0, Ex.v2 0 1] (by decide +kernel) ![0, 1] false false
  (Or.inr (Or.inr (by decide +kernel)))

end Props
