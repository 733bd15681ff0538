import Verif.Lemmas.Kernel
import Verif.Spec.Fragment
import Mathlib.Tactic.Positivity
import Mathlib.Algebra.Order.BigOperators.Ring.Finset

/-! # The compute functions of the linear models realise the kernels of the specification -/

set_option linter.unusedSectionVars false

namespace BL
open Spec

variable {K : Type} [Field K] [LinearOrder K] [IsStrictOrderedRing K] {d : ℕ} {gs : Fin d → ℕ}
variable {E : Env K gs} {R : K} {ρ : Idx gs → K}

theorem modelIndex_eq (vs : List K) (t : K) : modelIndex vs t = breaksUpTo vs t := by
  unfold modelIndex breaksUpTo; rw [List.countP_eq_length_filter]

theorem cpIn_iff (vs : List K) (mask : List Bool) (t : K) : cpIn vs mask t = true ↔ IsChange vs mask t := by
  unfold cpIn IsChange
  rw [List.any_eq_true]
  constructor
  · rintro ⟨⟨v, b⟩, hm, h⟩
    simp only [Bool.and_eq_true, decide_eq_true_eq] at h
    rw [← h.2]; rw [h.1] at hm; exact hm
  · intro h
    exact ⟨(t, true), h, by simp⟩

theorem scalars_eq : ∀ (vs : List (HVal K)), (∀ v ∈ vs, ∃ c, v = .scalar c) → scalars vs = .ok (vals vs)
  | [], _ => rfl
  | v :: l, h => by
      obtain ⟨c, rfl⟩ := h v (by simp)
      rw [scalars, scalars_eq l fun v hv => h v (by simp [hv])]
      rfl

theorem vals_length : ∀ (vs : List (HVal K)), (vals vs).length = vs.length
  | [] => rfl
  | .scalar _ :: l => by simp [vals, vals_length l]
  | .none :: l => by simp [vals, vals_length l]
  | .array _ :: l => by simp [vals, vals_length l]
  | .all :: l => by simp [vals, vals_length l]
  | .pylist _ :: l => by simp [vals, vals_length l]

theorem breaksUpTo_le (vs : List K) (t : K) : breaksUpTo vs t ≤ vs.length := List.length_filter_le _ _

theorem isChange_mask {vs : List K} {mask : List Bool} {t : K} (h : true ∉ mask) : ¬ IsChange vs mask t := by
  intro hc
  exact h (List.of_mem_zip hc).2

/-! ### row sums and non-negativity -/

theorem stay_sum (x : Idx gs) : ∑ y, (stay x y : K) = 1 := by simp [stay]

theorem comp_sum {A B : Idx gs → Idx gs → K} (hA : ∀ x, ∑ y, A x y = 1) (hB : ∀ x, ∑ y, B x y = 1) (x : Idx gs) :
    ∑ z, comp A B x z = 1 := by
  unfold comp
  rw [Finset.sum_comm]
  simp only [← Finset.mul_sum, hB, mul_one, hA]

theorem comp_nonneg {A B : Idx gs → Idx gs → K} (hA : ∀ x y, 0 ≤ A x y) (hB : ∀ x y, 0 ≤ B x y) (x z : Idx gs) :
    0 ≤ comp A B x z := Finset.sum_nonneg fun _ _ => mul_nonneg (hA _ _) (hB _ _)

mutual
theorem kernel_sum (hG : GaussOK E.ext) : ∀ (tm : TM K), Linear E tm → (ResetFree tm ∨ ∑ x, ρ x = 1) →
    ∀ t x, ∑ y, kernel E ρ tm t x y = 1
  | .leaf .static _ _ _, _, _, t, x => by rw [kernel]; exact stay_sum x
  | .leaf (.grw target) _ vs _, hL, _, t, x => by
      obtain ⟨⟨a, ha⟩, σ, rfl⟩ := (by simpa only [Linear] using hL : (∃ a, E.axis target = .ok a) ∧ ∃ σ, vs = [.scalar σ])
      rw [kernel, ha]
      dsimp only
      split
      · rename_i h
        rw [walkAxis_row_sum _ _ _ (hG.even _), hG.sum_one _ h]
      · exact stay_sum x
  | .leaf .changePoint _ vs _, hL, hR, t, x => by
      rw [kernel]
      have hR : ∑ x, ρ x = 1 := hR.resolve_left (by simp [ResetFree])
      split
      · exact hR
      · exact stay_sum x
  | .leaf .independent _ _ _, _, hR, t, x => by
      rw [kernel]
      exact hR.resolve_left (by simp [ResetFree])
  | .leaf (.alphaStable _) _ _ _, hL, _, _, _ => by simp [Linear] at hL
  | .leaf .regimeSwitch _ _ _, hL, _, _, _ => by simp [Linear] at hL
  | .leaf .notEqual _ _ _, hL, _, _, _ => by simp [Linear] at hL
  | .leaf (.deterministic _ _) _ _ _, hL, _, _, _ => by simp [Linear] at hL
  | .leaf .bivariate _ _ _, hL, _, _, _ => by simp [Linear] at hL
  | .leaf .breakPoint _ _ _, hL, _, _, _ => by simp [Linear] at hL
  | .combined ms, hL, hR, t, x => by
      rw [kernel]
      exact kernelAll_sum hG ms (by simpa only [Linear] using hL) (by simpa only [ResetFree] using hR) t x
  | .serial _ vs _ mask ms, hL, hR, t, x => by
      rw [kernel]
      have hL' : (∀ v ∈ vs, ∃ c, v = .scalar c) ∧ ms.length = vs.length + 1 ∧ LinearAll E ms := by
        simpa only [Linear] using hL
      have hR' : (true ∉ mask ∧ ResetFreeAll ms) ∨ ∑ x, ρ x = 1 := by simpa only [ResetFree] using hR
      refine comp_sum (kernelNth_sum hG ms hL'.2.2 (hR'.imp And.right id) _ ?_ t) ?_ x
      · have := breaksUpTo_le (vals vs) t
        rw [vals_length] at this
        omega
      · intro x
        split
        · rename_i h
          rcases hR' with h1 | h1
          · exact absurd h (isChange_mask h1.1)
          · exact h1
        · exact stay_sum x
theorem kernelAll_sum (hG : GaussOK E.ext) : ∀ (ms : List (TM K)), LinearAll E ms → (ResetFreeAll ms ∨ ∑ x, ρ x = 1) →
    ∀ t x, ∑ y, kernelAll E ρ ms t x y = 1
  | [], _, _, t, x => by rw [kernelAll]; exact stay_sum x
  | m :: ms, hL, hR, t, x => by
      rw [kernelAll]
      have hL' : Linear E m ∧ LinearAll E ms := by simpa only [LinearAll] using hL
      have hR' : (ResetFree m ∧ ResetFreeAll ms) ∨ ∑ x, ρ x = 1 := by simpa only [ResetFreeAll] using hR
      exact comp_sum (kernel_sum hG m hL'.1 (hR'.imp And.left id) t)
        (kernelAll_sum hG ms hL'.2 (hR'.imp And.right id) t) x
theorem kernelNth_sum (hG : GaussOK E.ext) : ∀ (ms : List (TM K)), LinearAll E ms → (ResetFreeAll ms ∨ ∑ x, ρ x = 1) →
    ∀ i, i < ms.length → ∀ t x, ∑ y, kernelNth E ρ ms i t x y = 1
  | [], _, _, i, hi, t, x => by simp at hi
  | m :: ms, hL, hR, 0, hi, t, x => by
      rw [kernelNth]
      have hL' : Linear E m ∧ LinearAll E ms := by simpa only [LinearAll] using hL
      have hR' : (ResetFree m ∧ ResetFreeAll ms) ∨ ∑ x, ρ x = 1 := by simpa only [ResetFreeAll] using hR
      exact kernel_sum hG m hL'.1 (hR'.imp And.left id) t x
  | m :: ms, hL, hR, i + 1, hi, t, x => by
      rw [kernelNth]
      have hL' : Linear E m ∧ LinearAll E ms := by simpa only [LinearAll] using hL
      have hR' : (ResetFree m ∧ ResetFreeAll ms) ∨ ∑ x, ρ x = 1 := by simpa only [ResetFreeAll] using hR
      exact kernelNth_sum hG ms hL'.2 (hR'.imp And.right id) i (by simpa using hi) t x
end

theorem stay_nonneg (x y : Idx gs) : (0 : K) ≤ stay x y := by unfold stay; split <;> simp

mutual
theorem kernel_nonneg (hG : GaussOK E.ext) : ∀ (tm : TM K), (ResetFree tm ∨ ∀ x, 0 ≤ ρ x) →
    ∀ t x y, 0 ≤ kernel E ρ tm t x y
  | .leaf .static _ _ _, _, t, x, y => by rw [kernel]; exact stay_nonneg x y
  | .leaf (.grw target) _ vs _, _, t, x, y => by
      rw [kernel]
      rcases h : E.axis target with e | a
      · exact stay_nonneg x y
      · dsimp only
        split
        · exact walkAxis_nonneg _ _ _ (hG.nonneg _) _ _
        · exact stay_nonneg x y
  | .leaf .changePoint _ vs _, hR, t, x, y => by
      rw [kernel]
      have hR : ∀ x, 0 ≤ ρ x := hR.resolve_left (by simp [ResetFree])
      split
      · exact hR y
      · exact stay_nonneg x y
  | .leaf .independent _ _ _, hR, t, x, y => by
      rw [kernel]
      exact hR.resolve_left (by simp [ResetFree]) y
  | .leaf (.alphaStable _) _ _ _, _, _, _, _ => by simp [kernel]
  | .leaf .regimeSwitch _ _ _, _, _, _, _ => by simp [kernel]
  | .leaf .notEqual _ _ _, _, _, _, _ => by simp [kernel]
  | .leaf (.deterministic _ _) _ _ _, _, _, _, _ => by simp [kernel]
  | .leaf .bivariate _ _ _, _, _, _, _ => by simp [kernel]
  | .leaf .breakPoint _ _ _, _, _, _, _ => by simp [kernel]
  | .combined ms, hR, t, x, y => by
      rw [kernel]
      exact kernelAll_nonneg hG ms (by simpa only [ResetFree] using hR) t x y
  | .serial _ vs _ mask ms, hR, t, x, y => by
      rw [kernel]
      have hR' : (true ∉ mask ∧ ResetFreeAll ms) ∨ ∀ x, 0 ≤ ρ x := by simpa only [ResetFree] using hR
      refine comp_nonneg (kernelNth_nonneg hG ms (hR'.imp And.right id) _ t) ?_ x y
      intro x y
      split
      · rename_i h
        rcases hR' with h1 | h1
        · exact absurd h (isChange_mask h1.1)
        · exact h1 y
      · exact stay_nonneg x y
theorem kernelAll_nonneg (hG : GaussOK E.ext) : ∀ (ms : List (TM K)), (ResetFreeAll ms ∨ ∀ x, 0 ≤ ρ x) →
    ∀ t x y, 0 ≤ kernelAll E ρ ms t x y
  | [], _, t, x, y => by rw [kernelAll]; exact stay_nonneg x y
  | m :: ms, hR, t, x, y => by
      rw [kernelAll]
      have hR' : (ResetFree m ∧ ResetFreeAll ms) ∨ ∀ x, 0 ≤ ρ x := by simpa only [ResetFreeAll] using hR
      exact comp_nonneg (kernel_nonneg hG m (hR'.imp And.left id) t)
        (kernelAll_nonneg hG ms (hR'.imp And.right id) t) x y
theorem kernelNth_nonneg (hG : GaussOK E.ext) : ∀ (ms : List (TM K)), (ResetFreeAll ms ∨ ∀ x, 0 ≤ ρ x) →
    ∀ i t x y, 0 ≤ kernelNth E ρ ms i t x y
  | [], _, i, t, x, y => by rw [kernelNth]
  | m :: ms, hR, 0, t, x, y => by
      rw [kernelNth]
      have hR' : (ResetFree m ∧ ResetFreeAll ms) ∨ ∀ x, 0 ≤ ρ x := by simpa only [ResetFreeAll] using hR
      exact kernel_nonneg hG m (hR'.imp And.left id) t x y
  | m :: ms, hR, i + 1, t, x, y => by
      rw [kernelNth]
      have hR' : (ResetFree m ∧ ResetFreeAll ms) ∨ ∀ x, 0 ≤ ρ x := by simpa only [ResetFreeAll] using hR
      exact kernelNth_nonneg hG ms (hR'.imp And.right id) i t x y
end

/-! ### mass -/

theorem cell_pos (hl : ∀ a, 0 < E.lattice a) : 0 < ∏ a, E.lattice a := Finset.prod_pos fun a _ => hl a

mutual
theorem massOut_pos (hl : ∀ a, 0 < E.lattice a) : ∀ (tm : TM K), (ResetFree tm ∨ 0 < R) →
    ∀ t s, 0 < s → 0 < massOut E R tm t s
  | .leaf .static _ _ _, _, t, s, hs => by rwa [massOut] <;> simp
  | .leaf (.grw target) _ vs _, _, t, s, hs => by rwa [massOut] <;> simp
  | .leaf .changePoint _ vs _, hR, t, s, hs => by
      rw [massOut]
      have hR : 0 < R := hR.resolve_left (by simp [ResetFree])
      split
      · exact mul_pos hR (cell_pos hl)
      · exact hs
  | .leaf .independent _ _ _, hR, t, s, hs => by
      rw [massOut]
      exact hR.resolve_left (by simp [ResetFree])
  | .leaf (.alphaStable _) _ _ _, _, t, s, hs => by rwa [massOut] <;> simp
  | .leaf .regimeSwitch _ _ _, _, t, s, hs => by rwa [massOut] <;> simp
  | .leaf .notEqual _ _ _, _, t, s, hs => by rwa [massOut] <;> simp
  | .leaf (.deterministic _ _) _ _ _, _, t, s, hs => by rwa [massOut] <;> simp
  | .leaf .bivariate _ _ _, _, t, s, hs => by rwa [massOut] <;> simp
  | .leaf .breakPoint _ _ _, _, t, s, hs => by rwa [massOut] <;> simp
  | .combined ms, hR, t, s, hs => by
      rw [massOut]
      exact massOutAll_pos hl ms (by simpa only [ResetFree] using hR) t s hs
  | .serial _ vs _ mask ms, hR, t, s, hs => by
      rw [massOut]
      have hR' : (true ∉ mask ∧ ResetFreeAll ms) ∨ 0 < R := by simpa only [ResetFree] using hR
      split
      · rename_i h
        rcases hR' with h1 | h1
        · exact absurd h (isChange_mask h1.1)
        · exact mul_pos h1 (cell_pos hl)
      · exact massOutNth_pos hl ms (hR'.imp And.right id) _ t s hs
theorem massOutAll_pos (hl : ∀ a, 0 < E.lattice a) : ∀ (ms : List (TM K)), (ResetFreeAll ms ∨ 0 < R) →
    ∀ t s, 0 < s → 0 < massOutAll E R ms t s
  | [], _, t, s, hs => by rwa [massOutAll]
  | m :: ms, hR, t, s, hs => by
      rw [massOutAll]
      have hR' : (ResetFree m ∧ ResetFreeAll ms) ∨ 0 < R := by simpa only [ResetFreeAll] using hR
      exact massOutAll_pos hl ms (hR'.imp And.right id) t _ (massOut_pos hl m (hR'.imp And.left id) t s hs)
theorem massOutNth_pos (hl : ∀ a, 0 < E.lattice a) : ∀ (ms : List (TM K)), (ResetFreeAll ms ∨ 0 < R) →
    ∀ i t s, 0 < s → 0 < massOutNth E R ms i t s
  | [], _, i, t, s, hs => by rwa [massOutNth]
  | m :: ms, hR, 0, t, s, hs => by
      rw [massOutNth]
      have hR' : (ResetFree m ∧ ResetFreeAll ms) ∨ 0 < R := by simpa only [ResetFreeAll] using hR
      exact massOut_pos hl m (hR'.imp And.left id) t s hs
  | m :: ms, hR, i + 1, t, s, hs => by
      rw [massOutNth]
      have hR' : (ResetFree m ∧ ResetFreeAll ms) ∨ 0 < R := by simpa only [ResetFreeAll] using hR
      exact massOutNth_pos hl ms (hR'.imp And.right id) i t s hs
end

mutual
theorem massOut_resetFree : ∀ (tm : TM K), ResetFree tm → ∀ t s, massOut E R tm t s = s
  | .leaf .static _ _ _, _, t, s => by rw [massOut] <;> simp
  | .leaf (.grw target) _ vs _, _, t, s => by rw [massOut] <;> simp
  | .leaf .changePoint _ vs _, hR, t, s => by simp [ResetFree] at hR
  | .leaf .independent _ _ _, hR, t, s => by simp [ResetFree] at hR
  | .leaf (.alphaStable _) _ _ _, _, t, s => by rw [massOut] <;> simp
  | .leaf .regimeSwitch _ _ _, _, t, s => by rw [massOut] <;> simp
  | .leaf .notEqual _ _ _, _, t, s => by rw [massOut] <;> simp
  | .leaf (.deterministic _ _) _ _ _, _, t, s => by rw [massOut] <;> simp
  | .leaf .bivariate _ _ _, _, t, s => by rw [massOut] <;> simp
  | .leaf .breakPoint _ _ _, _, t, s => by rw [massOut] <;> simp
  | .combined ms, hR, t, s => by
      rw [massOut]
      exact massOutAll_resetFree ms (by simpa only [ResetFree] using hR) t s
  | .serial _ vs _ mask ms, hR, t, s => by
      rw [massOut]
      have hR' : true ∉ mask ∧ ResetFreeAll ms := by simpa only [ResetFree] using hR
      rw [if_neg (isChange_mask hR'.1)]
      exact massOutNth_resetFree ms hR'.2 _ t s
theorem massOutAll_resetFree : ∀ (ms : List (TM K)), ResetFreeAll ms → ∀ t s, massOutAll E R ms t s = s
  | [], _, t, s => by rw [massOutAll]
  | m :: ms, hR, t, s => by
      have hR' : ResetFree m ∧ ResetFreeAll ms := by simpa only [ResetFreeAll] using hR
      rw [massOutAll, massOut_resetFree m hR'.1, massOutAll_resetFree ms hR'.2]
theorem massOutNth_resetFree : ∀ (ms : List (TM K)), ResetFreeAll ms → ∀ i t s, massOutNth E R ms i t s = s
  | [], _, i, t, s => by rw [massOutNth]
  | m :: ms, hR, 0, t, s => by
      have hR' : ResetFree m ∧ ResetFreeAll ms := by simpa only [ResetFreeAll] using hR
      rw [massOutNth, massOut_resetFree m hR'.1]
  | m :: ms, hR, i + 1, t, s => by
      have hR' : ResetFree m ∧ ResetFreeAll ms := by simpa only [ResetFreeAll] using hR
      rw [massOutNth, massOutNth_resetFree ms hR'.2]
end

/-! ### forward computation -/

/-- propagate a distribution through a kernel -/
def push (A : Idx gs → Idx gs → K) (a : Idx gs → K) : Idx gs → K := fun y => ∑ x, a x * A x y

theorem push_stay (a : Idx gs → K) : push stay a = a := by
  funext y; simp [push, stay]

theorem push_comp (A B : Idx gs → Idx gs → K) (a : Idx gs → K) : push (comp A B) a = push B (push A a) := by
  funext z
  unfold push comp
  simp only [Finset.mul_sum, Finset.sum_mul]
  rw [Finset.sum_comm]
  simp only [mul_assoc]

theorem push_sum {A : Idx gs → Idx gs → K} (hA : ∀ x, ∑ y, A x y = 1) (a : Idx gs → K) :
    ∑ y, push A a y = ∑ x, a x := by
  unfold push
  rw [Finset.sum_comm]
  simp only [← Finset.mul_sum, hA, mul_one]

theorem push_fresh (a : Idx gs → K) : push (fresh ρ) a = fun y => (∑ x, a x) * ρ y := by
  funext y; unfold push fresh; rw [Finset.sum_mul]

theorem push_smul (A : Idx gs → Idx gs → K) (c : K) (a : Idx gs → K) :
    push A (fun x => c * a x) = fun y => c * push A a y := by
  funext y; unfold push; rw [Finset.mul_sum]; simp only [mul_assoc]

mutual
theorem fwd_linear (hl : ∀ a, 0 < E.lattice a) (hG : GaussOK E.ext) : ∀ (tm : TM K), Linear E tm →
    (ResetFree tm ∨ ResetOK E R ρ) → ∀ (toff : K) (a : Idx gs → K) (t s : K), ∑ x, a x = s → 0 < s →
    tm.fwd E toff (some a) t = .ok (some fun y => massOut E R tm t s / s * push (kernel E ρ tm t) a y)
  | .leaf .static _ _ _, _, _, toff, a, t, s, hs, h0 => by
      rw [TM.fwd, leafFwd, kernel, massOut, push_stay] <;> simp [div_self h0.ne']
  | .leaf (.grw target) nm vs pr, hL, _, toff, a, t, s, hs, h0 => by
      obtain ⟨⟨b, hb⟩, σ, rfl⟩ := (by simpa only [Linear] using hL : (∃ a, E.axis target = .ok a) ∧ ∃ σ, vs = [.scalar σ])
      have hm : massOut E R (.leaf (.grw target) nm [.scalar σ] pr) t s = s := by rw [massOut] <;> simp
      rw [TM.fwd, leafFwd, kernel, hm, div_self h0.ne', grwFwd, hb]
      have hs : scalarAt [HVal.scalar σ] 0 = .ok σ := rfl
      simp only [hs, bind, Except.bind, (hl b).ne', if_false, val0]
      by_cases h : 0 < σ / E.lattice b
      · simp only [h, if_true, Option.map_some]
        congr 2
        funext y
        rw [filterAxis_eq _ _ _ (hG.even _), one_mul]; rfl
      · simp only [h, if_false, push_stay, one_mul]
  | .leaf .changePoint _ vs _, hL, hR, toff, a, t, s, hs, h0 => by
      obtain ⟨v, rfl⟩ := (by simpa only [Linear] using hL : ∃ v, vs = [.scalar v])
      have hR : ResetOK E R ρ := hR.resolve_left (by simp [ResetFree])
      rw [TM.fwd, leafFwd, kernel, massOut]
      have hs' : cpHit [HVal.scalar v] t = .ok (decide (t = v)) := rfl
      simp only [hs', bind, Except.bind, val0, decide_eq_true_eq]
      by_cases h : t = v
      · simp only [h, if_true, Env.resetCell, hR.eq, Option.map_some, push_fresh, hs, Env.cell]
        congr 2
        funext y
        field_simp
      · simp only [h, if_false, push_stay, div_self h0.ne', one_mul]
  | .leaf .independent _ _ _, _, hR, toff, a, t, s, hs, h0 => by
      have hR : ResetOK E R ρ := hR.resolve_left (by simp [ResetFree])
      rw [TM.fwd, leafFwd, kernel, massOut]
      simp only [hR.eq, push_fresh, hs]
      congr 2
      funext y
      field_simp
  | .leaf (.alphaStable _) _ _ _, hL, _, _, _, _, _, _, _ => by simp [Linear] at hL
  | .leaf .regimeSwitch _ _ _, hL, _, _, _, _, _, _, _ => by simp [Linear] at hL
  | .leaf .notEqual _ _ _, hL, _, _, _, _, _, _, _ => by simp [Linear] at hL
  | .leaf (.deterministic _ _) _ _ _, hL, _, _, _, _, _, _, _ => by simp [Linear] at hL
  | .leaf .bivariate _ _ _, hL, _, _, _, _, _, _, _ => by simp [Linear] at hL
  | .leaf .breakPoint _ _ _, hL, _, _, _, _, _, _, _ => by simp [Linear] at hL
  | .combined ms, hL, hR, toff, a, t, s, hs, h0 => by
      rw [TM.fwd, kernel, massOut]
      exact fwdAll_linear hl hG ms (by simpa only [Linear] using hL) (by simpa only [ResetFree] using hR) toff a t s hs h0
  | .serial _ vs _ mask ms, hL, hR, toff, a, t, s, hs, h0 => by
      have hL' : (∀ v ∈ vs, ∃ c, v = .scalar c) ∧ ms.length = vs.length + 1 ∧ LinearAll E ms := by
        simpa only [Linear] using hL
      have hR' : (true ∉ mask ∧ ResetFreeAll ms) ∨ ResetOK E R ρ := by simpa only [ResetFree] using hR
      have hi : breaksUpTo (vals vs) t < ms.length := by
        have := breaksUpTo_le (vals vs) t
        rw [vals_length] at this
        omega
      have hsum := kernelNth_sum (ρ := ρ) hG ms hL'.2.2 (hR'.imp And.right ResetOK.sum_one) _ hi t
      rw [TM.fwd, kernel, massOut, scalars_eq vs hL'.1]
      simp only [bind, Except.bind, modelIndex_eq]
      rw [fwdNth_linear hl hG ms hL'.2.2 (hR'.imp And.right id) _ _ hi a t s hs h0]
      simp only [cpCheck, push_comp]
      congr 1
      by_cases h : IsChange (vals vs) mask t
      · have hR2 : ResetOK E R ρ := hR'.resolve_left fun h1 => isChange_mask h1.1 h
        rw [if_pos ((cpIn_iff _ _ _).2 h), if_pos h, if_pos h, push_fresh, push_sum hsum, hs]
        simp only [Env.resetCell, hR2.eq, Option.map_some, Env.cell]
        congr 1
        funext y
        field_simp
      · rw [if_neg (fun hc => h ((cpIn_iff _ _ _).1 hc)), if_neg h, if_neg h, push_stay]
theorem fwdAll_linear (hl : ∀ a, 0 < E.lattice a) (hG : GaussOK E.ext) : ∀ (ms : List (TM K)), LinearAll E ms →
    (ResetFreeAll ms ∨ ResetOK E R ρ) → ∀ (toff : K) (a : Idx gs → K) (t s : K), ∑ x, a x = s → 0 < s →
    TM.fwdAll E toff ms (some a) t = .ok (some fun y => massOutAll E R ms t s / s * push (kernelAll E ρ ms t) a y)
  | [], _, _, toff, a, t, s, hs, h0 => by
      rw [TM.fwdAll, kernelAll, massOutAll, push_stay]; simp [div_self h0.ne']
  | m :: ms, hL, hR, toff, a, t, s, hs, h0 => by
      have hL' : Linear E m ∧ LinearAll E ms := by simpa only [LinearAll] using hL
      have hR' : (ResetFree m ∧ ResetFreeAll ms) ∨ ResetOK E R ρ := by simpa only [ResetFreeAll] using hR
      have hp := massOut_pos (R := R) hl m (hR'.imp And.left ResetOK.pos) t s h0
      have hsum := kernel_sum (ρ := ρ) hG m hL'.1 (hR'.imp And.left ResetOK.sum_one) t
      have hs2 : ∑ y, massOut E R m t s / s * push (kernel E ρ m t) a y = massOut E R m t s := by
        rw [← Finset.mul_sum, push_sum hsum, hs, div_mul_cancel₀ _ h0.ne']
      rw [TM.fwdAll, fwd_linear hl hG m hL'.1 (hR'.imp And.left id) toff a t s hs h0]
      simp only [bind, Except.bind]
      rw [fwdAll_linear hl hG ms hL'.2 (hR'.imp And.right id) toff _ t _ hs2 hp]
      rw [kernelAll, massOutAll, push_comp, push_smul]
      congr 2
      funext y
      field_simp
theorem fwdNth_linear (hl : ∀ a, 0 < E.lattice a) (hG : GaussOK E.ext) : ∀ (ms : List (TM K)), LinearAll E ms →
    (ResetFreeAll ms ∨ ResetOK E R ρ) → ∀ (toff : K) i, i < ms.length → ∀ (a : Idx gs → K) (t s : K),
    ∑ x, a x = s → 0 < s →
    TM.fwdNth E toff ms i (some a) t =
      .ok (some fun y => massOutNth E R ms i t s / s * push (kernelNth E ρ ms i t) a y)
  | [], _, _, _, i, hi, _, _, _, _, _ => by simp at hi
  | m :: ms, hL, hR, toff, 0, hi, a, t, s, hs, h0 => by
      have hL' : Linear E m ∧ LinearAll E ms := by simpa only [LinearAll] using hL
      have hR' : (ResetFree m ∧ ResetFreeAll ms) ∨ ResetOK E R ρ := by simpa only [ResetFreeAll] using hR
      rw [TM.fwdNth, kernelNth, massOutNth]
      exact fwd_linear hl hG m hL'.1 (hR'.imp And.left id) toff a t s hs h0
  | m :: ms, hL, hR, toff, i + 1, hi, a, t, s, hs, h0 => by
      have hL' : Linear E m ∧ LinearAll E ms := by simpa only [LinearAll] using hL
      have hR' : (ResetFree m ∧ ResetFreeAll ms) ∨ ResetOK E R ρ := by simpa only [ResetFreeAll] using hR
      rw [TM.fwdNth, kernelNth, massOutNth]
      exact fwdNth_linear hl hG ms hL'.2 (hR'.imp And.right id) toff i (by simpa using hi) a t s hs h0
end

/-! ### backward computation -/

mutual
theorem bwd_eq_fwd : ∀ (tm : TM K), Linear E tm → ∀ (toff : K) (p : Arr K gs) (t : K),
    tm.bwd E toff p t = tm.fwd E toff p (t - 1)
  | .leaf .static _ _ _, _, toff, p, t => by rw [TM.fwd, TM.bwd, leafBwd]; simp
  | .leaf (.grw target) _ vs _, _, toff, p, t => by rw [TM.fwd, TM.bwd, leafBwd]; simp
  | .leaf .changePoint _ vs _, _, toff, p, t => by rw [TM.fwd, TM.bwd, leafBwd]; simp
  | .leaf .independent _ _ _, _, toff, p, t => by rw [TM.fwd, TM.bwd, leafBwd]; simp
  | .leaf (.alphaStable _) _ _ _, hL, _, _, _ => by simp [Linear] at hL
  | .leaf .regimeSwitch _ _ _, hL, _, _, _ => by simp [Linear] at hL
  | .leaf .notEqual _ _ _, hL, _, _, _ => by simp [Linear] at hL
  | .leaf (.deterministic _ _) _ _ _, hL, _, _, _ => by simp [Linear] at hL
  | .leaf .bivariate _ _ _, hL, _, _, _ => by simp [Linear] at hL
  | .leaf .breakPoint _ _ _, hL, _, _, _ => by simp [Linear] at hL
  | .combined ms, hL, toff, p, t => by
      rw [TM.fwd, TM.bwd]
      exact bwdAll_eq_fwdAll ms (by simpa only [Linear] using hL) toff p t
  | .serial _ vs _ mask ms, hL, toff, p, t => by
      have hL' : (∀ v ∈ vs, ∃ c, v = .scalar c) ∧ ms.length = vs.length + 1 ∧ LinearAll E ms := by
        simpa only [Linear] using hL
      rw [TM.fwd, TM.bwd]
      simp only [bwdNth_eq_fwdNth ms hL'.2.2]
theorem bwdAll_eq_fwdAll : ∀ (ms : List (TM K)), LinearAll E ms → ∀ (toff : K) (p : Arr K gs) (t : K),
    TM.bwdAll E toff ms p t = TM.fwdAll E toff ms p (t - 1)
  | [], _, toff, p, t => by rw [TM.fwdAll, TM.bwdAll]
  | m :: ms, hL, toff, p, t => by
      have hL' : Linear E m ∧ LinearAll E ms := by simpa only [LinearAll] using hL
      rw [TM.fwdAll, TM.bwdAll, bwd_eq_fwd m hL'.1]
      simp only [bwdAll_eq_fwdAll ms hL'.2]
theorem bwdNth_eq_fwdNth : ∀ (ms : List (TM K)), LinearAll E ms → ∀ (toff : K) i (p : Arr K gs) (t : K),
    TM.bwdNth E toff ms i p t = TM.fwdNth E toff ms i p (t - 1)
  | [], _, toff, i, p, t => by rw [TM.fwdNth, TM.bwdNth]
  | m :: ms, hL, toff, 0, p, t => by
      have hL' : Linear E m ∧ LinearAll E ms := by simpa only [LinearAll] using hL
      rw [TM.fwdNth, TM.bwdNth, bwd_eq_fwd m hL'.1]
  | m :: ms, hL, toff, i + 1, p, t => by
      have hL' : Linear E m ∧ LinearAll E ms := by simpa only [LinearAll] using hL
      rw [TM.fwdNth, TM.bwdNth, bwdNth_eq_fwdNth ms hL'.2]
end

/-! ### symmetry for flat resets -/

mutual
theorem kernel_symAlg (hG : GaussOK E.ext) (u : K) : ∀ (tm : TM K), Linear E tm → (ResetFree tm ∨ ∀ x, ρ x = u) →
    ∀ t, toM (kernel E ρ tm t) ∈ SymAlg K gs u
  | .leaf .static _ _ _, _, _, t => by rw [kernel, toM_stay]; exact one_mem _
  | .leaf (.grw target) _ vs _, hL, _, t => by
      obtain ⟨⟨a, ha⟩, σ, rfl⟩ := (by simpa only [Linear] using hL : (∃ a, E.axis target = .ok a) ∧ ∃ σ, vs = [.scalar σ])
      rw [kernel, ha]
      dsimp only
      split
      · rename_i h
        exact Submonoid.subset_closure (Or.inl ⟨a, _, _, hG.even _, hG.sum_one _ h, rfl⟩)
      · rw [toM_stay]; exact one_mem _
  | .leaf .changePoint _ vs _, hL, hR, t => by
      rw [kernel]
      have hR : ∀ x, ρ x = u := hR.resolve_left (by simp [ResetFree])
      split
      · refine Submonoid.subset_closure (Or.inr ?_)
        congr 1; funext x y; exact hR y
      · rw [toM_stay]; exact one_mem _
  | .leaf .independent _ _ _, _, hR, t => by
      rw [kernel]
      have hR : ∀ x, ρ x = u := hR.resolve_left (by simp [ResetFree])
      refine Submonoid.subset_closure (Or.inr ?_)
      congr 1; funext x y; exact hR y
  | .leaf (.alphaStable _) _ _ _, hL, _, _ => by simp [Linear] at hL
  | .leaf .regimeSwitch _ _ _, hL, _, _ => by simp [Linear] at hL
  | .leaf .notEqual _ _ _, hL, _, _ => by simp [Linear] at hL
  | .leaf (.deterministic _ _) _ _ _, hL, _, _ => by simp [Linear] at hL
  | .leaf .bivariate _ _ _, hL, _, _ => by simp [Linear] at hL
  | .leaf .breakPoint _ _ _, hL, _, _ => by simp [Linear] at hL
  | .combined ms, hL, hR, t => by
      rw [kernel]
      exact kernelAll_symAlg hG u ms (by simpa only [Linear] using hL) (by simpa only [ResetFree] using hR) t
  | .serial _ vs _ mask ms, hL, hR, t => by
      have hL' : (∀ v ∈ vs, ∃ c, v = .scalar c) ∧ ms.length = vs.length + 1 ∧ LinearAll E ms := by
        simpa only [Linear] using hL
      have hR' : (true ∉ mask ∧ ResetFreeAll ms) ∨ ∀ x, ρ x = u := by simpa only [ResetFree] using hR
      have hi : breaksUpTo (vals vs) t < ms.length := by
        have := breaksUpTo_le (vals vs) t
        rw [vals_length] at this
        omega
      rw [kernel, toM_comp]
      refine mul_mem (kernelNth_symAlg hG u ms hL'.2.2 (hR'.imp And.right id) _ hi t) ?_
      split
      · rename_i h
        rcases hR' with h1 | h1
        · exact absurd h (isChange_mask h1.1)
        · refine Submonoid.subset_closure (Or.inr ?_)
          congr 1; funext x y; exact h1 y
      · rw [toM_stay]; exact one_mem _
theorem kernelAll_symAlg (hG : GaussOK E.ext) (u : K) : ∀ (ms : List (TM K)), LinearAll E ms →
    (ResetFreeAll ms ∨ ∀ x, ρ x = u) → ∀ t, toM (kernelAll E ρ ms t) ∈ SymAlg K gs u
  | [], _, _, t => by rw [kernelAll, toM_stay]; exact one_mem _
  | m :: ms, hL, hR, t => by
      have hL' : Linear E m ∧ LinearAll E ms := by simpa only [LinearAll] using hL
      have hR' : (ResetFree m ∧ ResetFreeAll ms) ∨ ∀ x, ρ x = u := by simpa only [ResetFreeAll] using hR
      rw [kernelAll, toM_comp]
      exact mul_mem (kernel_symAlg hG u m hL'.1 (hR'.imp And.left id) t)
        (kernelAll_symAlg hG u ms hL'.2 (hR'.imp And.right id) t)
theorem kernelNth_symAlg (hG : GaussOK E.ext) (u : K) : ∀ (ms : List (TM K)), LinearAll E ms →
    (ResetFreeAll ms ∨ ∀ x, ρ x = u) → ∀ i, i < ms.length → ∀ t, toM (kernelNth E ρ ms i t) ∈ SymAlg K gs u
  | [], _, _, i, hi, t => by simp at hi
  | m :: ms, hL, hR, 0, hi, t => by
      have hL' : Linear E m ∧ LinearAll E ms := by simpa only [LinearAll] using hL
      have hR' : (ResetFree m ∧ ResetFreeAll ms) ∨ ∀ x, ρ x = u := by simpa only [ResetFreeAll] using hR
      rw [kernelNth]
      exact kernel_symAlg hG u m hL'.1 (hR'.imp And.left id) t
  | m :: ms, hL, hR, i + 1, hi, t => by
      have hL' : Linear E m ∧ LinearAll E ms := by simpa only [LinearAll] using hL
      have hR' : (ResetFree m ∧ ResetFreeAll ms) ∨ ∀ x, ρ x = u := by simpa only [ResetFreeAll] using hR
      rw [kernelNth]
      exact kernelNth_symAlg hG u ms hL'.2 (hR'.imp And.right id) i (by simpa using hi) t
end

theorem kernel_symm (hG : GaussOK E.ext) (u : K) (tm : TM K) (hL : Linear E tm) (hR : ResetFree tm ∨ ∀ x, ρ x = u)
    (t : K) (x y : Idx gs) : kernel E ρ tm t x y = kernel E ρ tm t y x := by
  have := symAlg_symm u (kernel_symAlg hG u tm hL hR t)
  have h2 := congrFun (congrFun this y) x
  simpa [Matrix.transpose_apply] using h2

end BL
