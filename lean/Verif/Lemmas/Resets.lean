import Verif.Lemmas.Evidence

/-! # Resets -/

set_option linter.unusedSectionVars false

namespace BL
open Spec

variable {K : Type} [Field K] [LinearOrder K] [IsStrictOrderedRing K] {d : ℕ} {gs : Fin d → ℕ}
variable {E : Env K gs} {ρ : Idx gs → K}

mutual
theorem massOut_one : ∀ (tm : TM K), (E.cell = 1 ∨ NoChangePoint tm) → ∀ t, massOut E 1 tm t 1 = 1
  | .leaf .static _ _ _, _, t => by rw [massOut] <;> simp
  | .leaf (.grw target) _ vs _, _, t => by rw [massOut] <;> simp
  | .leaf .changePoint _ vs _, hR, t => by
      have h : E.cell = 1 := hR.resolve_right (by simp [NoChangePoint])
      rw [massOut, ← Env.cell, h]; simp
  | .leaf .independent _ _ _, hR, t => by rw [massOut]
  | .leaf (.alphaStable _) _ _ _, _, t => by rw [massOut] <;> simp
  | .leaf .regimeSwitch _ _ _, _, t => by rw [massOut] <;> simp
  | .leaf .notEqual _ _ _, _, t => by rw [massOut] <;> simp
  | .leaf (.deterministic _ _) _ _ _, _, t => by rw [massOut] <;> simp
  | .leaf .bivariate _ _ _, _, t => by rw [massOut] <;> simp
  | .leaf .breakPoint _ _ _, _, t => by rw [massOut] <;> simp
  | .combined ms, hR, t => by
      rw [massOut]
      exact massOutAll_one ms (by simpa only [NoChangePoint] using hR) t
  | .serial _ vs _ mask ms, hR, t => by
      rw [massOut, ← Env.cell]
      have hR' : E.cell = 1 ∨ (true ∉ mask ∧ NoChangePointAll ms) := by simpa only [NoChangePoint] using hR
      split
      · rename_i h
        rcases hR' with h1 | h1
        · rw [h1, one_mul]
        · exact absurd h (isChange_mask h1.1)
      · exact massOutNth_one ms (hR'.imp id And.right) _ t
theorem massOutAll_one : ∀ (ms : List (TM K)), (E.cell = 1 ∨ NoChangePointAll ms) → ∀ t, massOutAll E 1 ms t 1 = 1
  | [], _, t => by rw [massOutAll]
  | m :: ms, hR, t => by
      have hR' : E.cell = 1 ∨ (NoChangePoint m ∧ NoChangePointAll ms) := by simpa only [NoChangePointAll] using hR
      rw [massOutAll, massOut_one m (hR'.imp id And.left), massOutAll_one ms (hR'.imp id And.right)]
theorem massOutNth_one : ∀ (ms : List (TM K)), (E.cell = 1 ∨ NoChangePointAll ms) → ∀ i t, massOutNth E 1 ms i t 1 = 1
  | [], _, i, t => by rw [massOutNth]
  | m :: ms, hR, 0, t => by
      have hR' : E.cell = 1 ∨ (NoChangePoint m ∧ NoChangePointAll ms) := by simpa only [NoChangePointAll] using hR
      rw [massOutNth, massOut_one m (hR'.imp id And.left)]
  | m :: ms, hR, i + 1, t => by
      have hR' : E.cell = 1 ∨ (NoChangePoint m ∧ NoChangePointAll ms) := by simpa only [NoChangePointAll] using hR
      rw [massOutNth, massOutNth_one ms (hR'.imp id And.right)]
end

mutual
theorem kernel_time : ∀ (tm : TM K), TimeIndependent tm → ∀ t t', kernel E ρ tm t = kernel E ρ tm t'
  | .leaf .static _ _ _, _, t, t' => by rw [kernel, kernel]
  | .leaf (.grw target) _ vs _, _, t, t' => by rw [kernel, kernel]
  | .leaf .changePoint _ vs _, h, t, t' => by simp [TimeIndependent] at h
  | .leaf .independent _ _ _, _, t, t' => by rw [kernel, kernel]
  | .leaf (.alphaStable _) _ _ _, h, _, _ => by simp [TimeIndependent] at h
  | .leaf .regimeSwitch _ _ _, h, _, _ => by simp [TimeIndependent] at h
  | .leaf .notEqual _ _ _, h, _, _ => by simp [TimeIndependent] at h
  | .leaf (.deterministic _ _) _ _ _, h, _, _ => by simp [TimeIndependent] at h
  | .leaf .bivariate _ _ _, h, _, _ => by simp [TimeIndependent] at h
  | .leaf .breakPoint _ _ _, h, _, _ => by simp [TimeIndependent] at h
  | .combined ms, h, t, t' => by
      rw [kernel, kernel]; exact kernelAll_time ms (by simpa only [TimeIndependent] using h) t t'
  | .serial _ vs _ mask ms, h, t, t' => by simp [TimeIndependent] at h
theorem kernelAll_time : ∀ (ms : List (TM K)), TimeIndependentAll ms → ∀ t t', kernelAll E ρ ms t = kernelAll E ρ ms t'
  | [], _, t, t' => by rw [kernelAll, kernelAll]
  | m :: ms, h, t, t' => by
      have h' : TimeIndependent m ∧ TimeIndependentAll ms := by simpa only [TimeIndependentAll] using h
      rw [kernelAll, kernelAll, kernel_time m h'.1 t t', kernelAll_time ms h'.2 t t']
end

/-- Without prior, or with a function as prior, the reset distribution is the prior. -/
theorem resetOK_prior [Nonempty (Idx gs)] {pr : PriorSpec K gs} {π : Idx gs → K} {cell : K} (hp : PriorMass cell pr π)
    (h : pr = .none ∨ ∃ v, pr = .func v) : ResetOK { E with prior := pr } 1 π := by
  have hN : (0 : K) < (Fintype.card (Idx gs) : K) := card_pos_K
  have h1 : (0 : K) < ∑ _x : Idx gs, (1 : K) := by rw [sum_const_card, mul_one]; exact hN
  cases hp with
  | flat =>
      refine ⟨?_, one_pos, fun _ => div_nonneg zero_le_one hN.le, ?_⟩
      · simp only [Env.resetArr]
        rw [normalize_pos h1]; simp only [one_mul, sum_const_card, mul_one]
      · rw [sum_const_card]; field_simp
  | func v h0 h1 h2 =>
      refine ⟨?_, one_pos, fun x => div_nonneg (h0 x) h1.le, ?_⟩
      · simp only [Env.resetArr]
        rw [normalize_pos h1]; simp only [one_mul]
      · rw [← Finset.sum_div, div_self h1.ne']
  | array v h0 h1 h2 => simp at h
  | const c h0 h2 => simp at h
  | rvs v h0 => simp at h

end BL
