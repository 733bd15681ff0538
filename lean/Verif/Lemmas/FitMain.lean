import Verif.Lemmas.FitLin

/-! # `fit` for linear models -/

set_option linter.unusedSectionVars false

namespace BL
open Spec

variable {K : Type} [Field K] [LinearOrder K] [IsStrictOrderedRing K] {d : ℕ} {gs : Fin d → ℕ}

/-! ### the specification kernels do not look at the prior attribute -/

section
variable {E : Env K gs} (pr : PriorSpec K gs) {ρ : Idx gs → K} {R : K}

mutual
theorem linear_prior : ∀ (tm : TM K), Linear E tm → Linear { E with prior := pr } tm
  | .leaf .static _ _ _, h => by rw [Linear]; trivial
  | .leaf (.grw target) _ vs _, h => by rw [Linear] at *; exact h
  | .leaf .changePoint _ vs _, h => by rw [Linear] at *; exact h
  | .leaf .independent _ _ _, h => by rw [Linear]; trivial
  | .leaf (.alphaStable _) _ _ _, hL => by simp [Linear] at hL
  | .leaf .regimeSwitch _ _ _, hL => by simp [Linear] at hL
  | .leaf .notEqual _ _ _, hL => by simp [Linear] at hL
  | .leaf (.deterministic _ _) _ _ _, hL => by simp [Linear] at hL
  | .leaf .bivariate _ _ _, hL => by simp [Linear] at hL
  | .leaf .breakPoint _ _ _, hL => by simp [Linear] at hL
  | .combined ms, h => by rw [Linear] at *; exact linearAll_prior ms h
  | .serial _ vs _ mask ms, h => by rw [Linear] at *; exact ⟨h.1, h.2.1, linearAll_prior ms h.2.2⟩
theorem linearAll_prior : ∀ (ms : List (TM K)), LinearAll E ms → LinearAll { E with prior := pr } ms
  | [], _ => by rw [LinearAll]; trivial
  | m :: ms, h => by rw [LinearAll] at *; exact ⟨linear_prior m h.1, linearAll_prior ms h.2⟩
end

mutual
theorem kernel_prior : ∀ (tm : TM K) (t : K), kernel { E with prior := pr } ρ tm t = kernel E ρ tm t
  | .leaf .static _ _ _, t => by rw [kernel, kernel]
  | .leaf (.grw target) _ vs _, t => by rw [kernel, kernel]; rfl
  | .leaf .changePoint _ vs _, t => by rw [kernel, kernel]
  | .leaf .independent _ _ _, t => by rw [kernel, kernel]
  | .leaf (.alphaStable _) _ _ _, t => by simp [kernel]
  | .leaf .regimeSwitch _ _ _, t => by simp [kernel]
  | .leaf .notEqual _ _ _, t => by simp [kernel]
  | .leaf (.deterministic _ _) _ _ _, t => by simp [kernel]
  | .leaf .bivariate _ _ _, t => by simp [kernel]
  | .leaf .breakPoint _ _ _, t => by simp [kernel]
  | .combined ms, t => by rw [kernel, kernel, kernelAll_prior]
  | .serial _ vs _ mask ms, t => by rw [kernel, kernel, kernelNth_prior]
theorem kernelAll_prior : ∀ (ms : List (TM K)) (t : K), kernelAll { E with prior := pr } ρ ms t = kernelAll E ρ ms t
  | [], t => by rw [kernelAll, kernelAll]
  | m :: ms, t => by rw [kernelAll, kernelAll, kernel_prior, kernelAll_prior]
theorem kernelNth_prior : ∀ (ms : List (TM K)) (i : ℕ) (t : K),
    kernelNth { E with prior := pr } ρ ms i t = kernelNth E ρ ms i t
  | [], i, t => by rw [kernelNth, kernelNth]
  | m :: ms, 0, t => by rw [kernelNth, kernelNth, kernel_prior]
  | m :: ms, i + 1, t => by rw [kernelNth, kernelNth, kernelNth_prior]
end

mutual
theorem massOut_prior : ∀ (tm : TM K) (t s : K), massOut { E with prior := pr } R tm t s = massOut E R tm t s
  | .leaf .static _ _ _, t, s => by simp [massOut]
  | .leaf (.grw target) _ vs _, t, s => by simp [massOut]
  | .leaf .changePoint _ vs _, t, s => by simp [massOut]
  | .leaf .independent _ _ _, t, s => by simp [massOut]
  | .leaf (.alphaStable _) _ _ _, t, s => by simp [massOut]
  | .leaf .regimeSwitch _ _ _, t, s => by simp [massOut]
  | .leaf .notEqual _ _ _, t, s => by simp [massOut]
  | .leaf (.deterministic _ _) _ _ _, t, s => by simp [massOut]
  | .leaf .bivariate _ _ _, t, s => by simp [massOut]
  | .leaf .breakPoint _ _ _, t, s => by simp [massOut]
  | .combined ms, t, s => by rw [massOut, massOut, massOutAll_prior]
  | .serial _ vs _ mask ms, t, s => by rw [massOut, massOut, massOutNth_prior]
theorem massOutAll_prior : ∀ (ms : List (TM K)) (t s : K),
    massOutAll { E with prior := pr } R ms t s = massOutAll E R ms t s
  | [], t, s => by rw [massOutAll, massOutAll]
  | m :: ms, t, s => by rw [massOutAll, massOutAll, massOut_prior, massOutAll_prior]
theorem massOutNth_prior : ∀ (ms : List (TM K)) (i : ℕ) (t s : K),
    massOutNth { E with prior := pr } R ms i t s = massOutNth E R ms i t s
  | [], i, t, s => by rw [massOutNth, massOutNth]
  | m :: ms, 0, t, s => by rw [massOutNth, massOutNth, massOut_prior]
  | m :: ms, i + 1, t, s => by rw [massOutNth, massOutNth, massOutNth_prior]
end

end

/-! ### prior -/

theorem card_pos_K [Nonempty (Idx gs)] : (0 : K) < (Fintype.card (Idx gs) : K) := by exact_mod_cast Fintype.card_pos

theorem sum_const_card (c : K) : ∑ _x : Idx gs, c = (Fintype.card (Idx gs) : K) * c := by
  rw [Finset.sum_const, nsmul_eq_mul]; rfl

theorem priorMass_nonneg [Nonempty (Idx gs)] {cell : K} (hc : 0 < cell) {p : PriorSpec K gs} {π : Idx gs → K}
    (h : PriorMass cell p π) (x : Idx gs) : 0 ≤ π x := by
  cases h with
  | flat => exact div_nonneg zero_le_one card_pos_K.le
  | array v h0 h1 h2 => exact div_nonneg (h0 x) h1.le
  | func v h0 h1 h2 => exact div_nonneg (h0 x) h1.le
  | const c h0 h2 => exact div_nonneg zero_le_one card_pos_K.le
  | rvs v h0 => exact mul_nonneg (h0 x) hc.le

theorem computePrior_mass [Nonempty (Idx gs)] {E : Env K gs} (hc : 0 < E.cell) {π : Idx gs → K}
    (h : PriorMass E.cell E.prior π) :
    ∃ pr, computePrior E = .ok (some fun x => 1 / E.cell * π x, pr) ∧ pr.isArray = E.prior.isArray ∧
      (E.prior.isArray = false → pr = E.prior) := by
  have hN : (0 : K) < (Fintype.card (Idx gs) : K) := card_pos_K
  have hdiv : ∀ v : Idx gs → K, 0 < ∑ x, v x →
      (normalize v).bind (divScalar · E.cell) = some fun x => 1 / E.cell * (v x / ∑ y, v y) := by
    intro v hv
    rw [normalize_pos hv, Option.bind_some, divScalar, if_neg hc.ne']
    congr 1; funext x; field_simp
  generalize hp : E.prior = p at h ⊢
  unfold computePrior
  rw [hp]
  cases h with
  | flat =>
      refine ⟨.none, ?_, rfl, fun _ => rfl⟩
      dsimp only
      rw [hdiv _ (by rw [sum_const_card, mul_one]; exact hN)]
      simp only [sum_const_card, mul_one]
  | array v h0 h1 h2 =>
      dsimp only
      by_cases h3 : ∑ x, v x = 1
      · have h4 := h2.resolve_left (fun h => h h3)
        refine ⟨_, by rw [if_neg (fun h => h h3)]; simp [h3, h4], rfl, fun h => by simp [PriorSpec.isArray] at h⟩
      · exact ⟨.array (some fun x => 1 / E.cell * (v x / ∑ y, v y)), by rw [if_pos h3, hdiv v h1], rfl,
          fun h => by simp [PriorSpec.isArray] at h⟩
  | func v h0 h1 h2 =>
      dsimp only
      by_cases h3 : ∑ x, v x = 1
      · have h4 := h2.resolve_left (fun h => h h3)
        refine ⟨_, by rw [if_neg (fun h => h h3)]; simp [h3, h4], rfl, fun h => rfl⟩
      · refine ⟨_, by rw [if_pos h3, hdiv v h1], rfl, fun h => rfl⟩
  | const c h0 h2 =>
      dsimp only
      have hs : (0 : K) < ∑ _x : Idx gs, c := by rw [sum_const_card]; exact mul_pos hN h0
      have e : c / ∑ _x : Idx gs, c = 1 / (Fintype.card (Idx gs) : K) := by
        rw [sum_const_card]; field_simp
      by_cases h3 : ∑ _x : Idx gs, c = 1
      · have h4 := h2.resolve_left (fun h => h h3)
        have h5 : c = 1 / (Fintype.card (Idx gs) : K) := by rw [← e, h3, div_one]
        refine ⟨_, by rw [if_neg (fun h => h h3), h4, ← h5]; simp, rfl, fun h => rfl⟩
      · refine ⟨_, by rw [if_pos h3, hdiv _ hs, e], rfl, fun h => rfl⟩
  | rvs v h0 =>
      refine ⟨.rvs d true v, ?_, rfl, fun _ => rfl⟩
      simp only [ne_eq, not_true_eq_false, if_false, if_true]
      congr 2
      congr 1
      funext x
      field_simp

/-! ### fit -/

section
variable {E : Env K gs} {grid : (a : Fin d) → Fin (gs a) → K} {tm : TM K} {π ρ : Idx gs → K} {R : K}

/-- The reset hypothesis: no resets, or a prior that is not an array and whose reset distribution is `R • ρ`. -/
def ResetCond (E : Env K gs) (tm : TM K) (prior : PriorSpec K gs) (R : K) (ρ : Idx gs → K) : Prop :=
  ResetFree tm ∨ (prior.isArray = false ∧ ResetOK { E with prior := prior } R ρ)

theorem kernel_stoch (hE : Regular E) (hL : Linear E tm) {pr : PriorSpec K gs} (hR : ResetCond E tm pr R ρ) :
    Stoch (kernel E ρ tm) where
  nonneg := kernel_nonneg hE.gauss tm (hR.imp id fun h => h.2.nonneg)
  sum := kernel_sum hE.gauss tm hL (hR.imp id fun h => h.2.sum_one)

theorem fit_fwd (hE : Regular E) (hL : Linear E tm) {S : FitState K gs} (hp : PriorMass E.cell S.prior π)
    (hR : ResetCond E tm S.prior R ρ) {Ls : List (Idx gs → K)} {ts : List K} (hlen : ts.length = Ls.length)
    (hL0 : ∀ L ∈ Ls, ∀ x, 0 ≤ L x) :
    ∃ pr0, computePrior { E with prior := S.prior } = .ok (some fun x => 1 / E.cell * π x, pr0) ∧
      (0 < pathEv (kernel E ρ tm) π Ls ts → ∃ pr', fwdPass E tm pr0.isArray pr0 (some fun x => 1 / E.cell * π x) Ls ts =
        .ok ⟨fwdSteps (fun t => massOut E R tm t 1) (kernel E ρ tm) (1 / E.cell) π Ls ts, false, pr'⟩ ∧
        (S.prior.isArray = false → pr' = S.prior)) ∧
      (Ls ≠ [] → pathEv (kernel E ρ tm) π Ls ts = 0 → ∃ pr' steps,
        fwdPass E tm pr0.isArray pr0 (some fun x => 1 / E.cell * π x) Ls ts = .ok ⟨steps, true, pr'⟩ ∧
        (S.prior.isArray = false → pr' = S.prior) ∧ steps.length < Ls.length) := by
  haveI := hE.nonempty
  have hcell : 0 < E.cell := cell_pos hE.lattice_pos
  have hK := kernel_stoch hE hL hR
  have hm : ∀ t, 0 < massOut E R tm t 1 := fun t =>
    massOut_pos hE.lattice_pos tm (hR.imp id fun h => h.2.pos) t 1 one_pos
  obtain ⟨pr0, h1, h2, h3⟩ := computePrior_mass (E := { E with prior := S.prior }) hcell hp
  have h2' : pr0.isArray = S.prior.isArray := h2
  refine ⟨pr0, h1, ?_⟩
  -- priors that can occur
  let P : PriorSpec K gs → Prop := fun pr => ResetFree tm ∨ ResetOK { E with prior := pr } R ρ
  have hF : ∀ pr, P pr → ∀ (α : Idx gs → K) t, (∀ x, 0 ≤ α x) → ∑ x, α x = 1 →
      tm.fwd { E with prior := pr } 0 (some α) t = .ok (some fun y => massOut E R tm t 1 * push (kernel E ρ tm t) α y) := by
    intro pr hpr α t _ hs
    have := fwd_linear (E := { E with prior := pr }) (R := R) (ρ := ρ) hE.lattice_pos hE.gauss tm (linear_prior pr tm hL) hpr 0 α t 1 hs one_pos
    rw [this, kernel_prior, massOut_prior, div_one]
  have hP0 : P pr0 := by
    rcases hR with h | ⟨h, h'⟩
    · exact Or.inl h
    · have : pr0 = S.prior := h3 h
      rw [this]; exact Or.inr h'
  have hPal : pr0.isArray = true → ∀ pr, P pr := by
    intro ha pr
    rcases hR with h | ⟨h, _⟩
    · exact Or.inl h
    · rw [h2', h] at ha; exact absurd ha (by simp)
  constructor
  · intro hpos
    obtain ⟨pr', h4, h5⟩ := fwdPass_pos (m := fun t => massOut E R tm t 1) hK P hm hF Ls ts pr0.isArray pr0 (1 / E.cell) π hP0 hPal hlen
      (div_pos one_pos hcell) (priorMass_nonneg hcell hp) hL0 hpos
    exact ⟨pr', h4, fun h => (h5 (by rw [h2', h])).trans (h3 h)⟩
  · intro hne hz
    obtain ⟨pr', st, h4, h5, h6⟩ := fwdPass_zero (m := fun t => massOut E R tm t 1) hK P hm hF Ls ts pr0.isArray pr0 (1 / E.cell) π hP0 hPal hlen hne
      (div_pos one_pos hcell) (priorMass_nonneg hcell hp) hL0 hz
    exact ⟨pr', st, h4, fun h => (h5 (by rw [h2', h])).trans (h3 h), h6⟩

theorem fwdSteps_length (m : K → K) (Ker : K → Idx gs → Idx gs → K) : ∀ (Ls : List (Idx gs → K)) (ts : List K) (c : K) (π : Idx gs → K),
    ts.length = Ls.length → (fwdSteps m Ker c π Ls ts).length = Ls.length
  | [], _, _, _, _ => by simp [fwdSteps]
  | _ :: _, [], _, _, h => by simp at h
  | L :: Ls, t :: ts, c, π, h => by
      rw [fwdSteps, List.length_cons, fwdSteps_length m Ker Ls ts _ _ (by simpa using h), List.length_cons]

/-- Forward-only and evidence-only modes. -/
theorem fit_fwdOnly (hE : Regular E) (hL : Linear E tm) {S : FitState K gs} (hp : PriorMass E.cell S.prior π)
    (hR : ResetCond E tm S.prior R ρ) {Ls : List (Idx gs → K)} {ts : List K} (hlen : ts.length = Ls.length)
    (hL0 : ∀ L ∈ Ls, ∀ x, 0 ≤ L x) (hpos : 0 < pathEv (kernel E ρ tm) π Ls ts) (eo : Bool) :
    ∃ S', fit E grid tm Ls ts true eo S = .ok S' ∧
      S'.logEv = sumLog E (fwdSteps (fun t => massOut E R tm t 1) (kernel E ρ tm) (1 / E.cell) π Ls ts) ∧
      S'.locals = (fwdSteps (fun t => massOut E R tm t 1) (kernel E ρ tm) (1 / E.cell) π Ls ts).map (fun s => .val (s.norm * E.cell)) ∧
      (eo = false → S'.posts = (fwdSteps (fun t => massOut E R tm t 1) (kernel E ρ tm) (1 / E.cell) π Ls ts).map (fun s => .val s.alpha) ∧
        ∀ a, S'.means a = (fwdSteps (fun t => massOut E R tm t 1) (kernel E ρ tm) (1 / E.cell) π Ls ts).map (fun s => mean grid a s.alpha)) ∧
      (eo = true → S'.posts = S.posts ∧ ∀ a, S'.means a = []) ∧
      (S.prior.isArray = false → S'.prior = S.prior) := by
  obtain ⟨pr0, h1, h2, -⟩ := fit_fwd hE hL hp hR hlen hL0
  obtain ⟨pr', h3, h4⟩ := h2 hpos
  cases eo
  · refine ⟨_, by unfold fit; simp only [h1, bind, Except.bind, h3, Bool.false_eq_true, if_false, if_true]; rfl,
      rfl, rfl, ?_, by simp, h4⟩
    intro _; exact ⟨rfl, fun a => rfl⟩
  · refine ⟨_, by unfold fit; simp only [h1, bind, Except.bind, h3, Bool.false_eq_true, if_false, if_true]; rfl,
      rfl, rfl, by simp, ?_, h4⟩
    intro _; exact ⟨rfl, fun a => rfl⟩

theorem fit_eo_irrel (E : Env K gs) (grid : (a : Fin d) → Fin (gs a) → K) (tm : TM K) (Ls : List (Idx gs → K)) (ts : List K) (fo : Bool) (S : FitState K gs) :
    fit E grid tm Ls ts fo true S = fit E grid tm Ls ts true true S := by
  unfold fit; simp

/-- Full fit. -/
theorem fit_full (hE : Regular E) (hL : Linear E tm) {S : FitState K gs} (hp : PriorMass E.cell S.prior π)
    (hR : ResetCond E tm S.prior R ρ) (u : K) (hu : ResetFree tm ∨ ∀ x, ρ x = u)
    {Ls : List (Idx gs → K)} {ts : List K} (hlen : ts.length = Ls.length) (hU : Matched (kernel E ρ tm) ts)
    (hL0 : ∀ L ∈ Ls, ∀ x, 0 ≤ L x) (hpos : 0 < pathEv (kernel E ρ tm) π Ls ts) :
    ∃ S', fit E grid tm Ls ts false false S = .ok S' ∧
      S'.logEv = sumLog E (fwdSteps (fun t => massOut E R tm t 1) (kernel E ρ tm) (1 / E.cell) π Ls ts) ∧
      S'.posts = (smooth (kernel E ρ tm) π Ls ts).map .val ∧
      (∀ a, S'.means a = (smooth (kernel E ρ tm) π Ls ts).map (mean grid a)) ∧
      S'.locals = List.zipWith (fun p L => localEv E p L) (smooth (kernel E ρ tm) π Ls ts) Ls ∧
      (S.prior.isArray = false → S'.prior = S.prior) := by
  haveI := hE.nonempty
  have hK := kernel_stoch hE hL hR
  obtain ⟨pr0, h1, h2, -⟩ := fit_fwd hE hL hp hR hlen hL0
  obtain ⟨pr', h3, h4⟩ := h2 hpos
  have hR' : ResetFree tm ∨ ResetOK { E with prior := pr' } R ρ := by
    rcases hR with h | ⟨h, h'⟩
    · exact Or.inl h
    · rw [h4 h]; exact Or.inr h'
  have hB : ∀ (b : Idx gs → K) t, (∀ x, 0 ≤ b x) → 0 < ∑ x, b x →
      ∃ k, 0 < k ∧ tm.bwd { E with prior := pr' } 0 (some b) t = .ok (some fun y => k * push (kernel E ρ tm (t - 1)) b y) := by
    intro b t _ hs
    have h5 := fwd_linear (E := { E with prior := pr' }) (R := R) (ρ := ρ) hE.lattice_pos hE.gauss tm (linear_prior pr' tm hL) hR' 0 b (t - 1) _ rfl hs
    rw [kernel_prior, massOut_prior] at h5
    exact ⟨_, div_pos (massOut_pos hE.lattice_pos tm (hR.imp id fun h => h.2.pos) (t - 1) _ hs) hs,
      by rw [bwd_eq_fwd tm (linear_prior pr' tm hL)]; exact h5⟩
  have hS : ∀ t x y, kernel E ρ tm t x y = kernel E ρ tm t y x := fun t x y =>
    kernel_symm hE.gauss u tm hL hu t x y
  obtain ⟨k, loc, hk, h5, h6⟩ := bwdPass_pos (m := fun t => massOut E R tm t 1) (E := { E with prior := pr' }) hK hS hB Ls ts (1 / E.cell) π hlen hU (priorMass_nonneg (cell_pos hE.lattice_pos) hp) hL0 hpos
  refine ⟨_, by unfold fit; simp only [h1, bind, Except.bind, h3, Bool.false_eq_true, if_false, h5]; rfl, rfl, rfl, ?_, h6, h4⟩
  intro a
  simp only [List.filterMap_map]
  rw [← List.filterMap_eq_map]
  rfl

/-- Impossible data. -/
theorem fit_zero (hE : Regular E) (hL : Linear E tm) {S : FitState K gs} (hp : PriorMass E.cell S.prior π)
    (hR : ResetCond E tm S.prior R ρ) {Ls : List (Idx gs → K)} {ts : List K} (hlen : ts.length = Ls.length)
    (hL0 : ∀ L ∈ Ls, ∀ x, 0 ≤ L x) (hne : Ls ≠ []) (hz : pathEv (kernel E ρ tm) π Ls ts = 0) (fo eo : Bool) :
    ∃ S', fit E grid tm Ls ts fo eo S = .ok S' ∧ S'.logEv = LogV.ninf ∧ S'.means = S.means := by
  obtain ⟨pr0, h1, -, h2⟩ := fit_fwd hE hL hp hR hlen hL0
  obtain ⟨pr', st, h3, -, -⟩ := h2 hne hz
  unfold fit
  simp only [h1, bind, Except.bind, h3, if_true]
  exact ⟨_, rfl, rfl, rfl⟩

/-- The reported evidence. -/
theorem sumLog_eq (hE : Regular E) (hL : Linear E tm) {pr : PriorSpec K gs} (hp : PriorMass E.cell pr π)
    (hR : ResetCond E tm pr R ρ) {Ls : List (Idx gs → K)} {ts : List K} (hlen : ts.length = Ls.length)
    (hL0 : ∀ L ∈ Ls, ∀ x, 0 ≤ L x) (hne : Ls ≠ []) (hpos : 0 < pathEv (kernel E ρ tm) π Ls ts) :
    (sumLog E (fwdSteps (fun t => massOut E R tm t 1) (kernel E ρ tm) (1 / E.cell) π Ls ts)).exp =
      pathEv (kernel E ρ tm) π Ls ts * (ts.dropLast.map fun t => massOut E R tm t 1).prod := by
  haveI := hE.nonempty
  have hcell : 0 < E.cell := cell_pos hE.lattice_pos
  rw [sumLog_exp, normProd_fwdSteps (kernel_stoch hE hL hR) Ls ts _ π hlen hne (priorMass_nonneg hcell hp) hL0 hpos]
  field_simp

end

end BL
