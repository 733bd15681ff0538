import Verif.Spec.Paths
import Mathlib.Algebra.BigOperators.Fin
import Mathlib.Algebra.Order.BigOperators.Ring.Finset
import Mathlib.Logic.Equiv.Fin.Basic
import Mathlib.Tactic.Ring

/-! # Recursion for the path sums of the specification -/

set_option linter.unusedSectionVars false

namespace Spec

variable {ι K : Type} [Fintype ι] [DecidableEq ι] [Field K]

/-- distribution after seeing `L` and moving with `A` -/
def advance (A : ι → ι → K) (L : ι → K) (π : ι → K) : ι → K := fun y => ∑ x, π x * L x * A x y

theorem pathWeight_zero (π : ι → K) (T : Fin 0 → ι → ι → K) (L : Fin 1 → ι → K) (z : Fin 1 → ι) :
    pathWeight π T L z = π (z 0) * L 0 (z 0) := by
  simp [pathWeight]

theorem pathWeight_cons {n : ℕ} (π : ι → K) (T : Fin (n + 1) → ι → ι → K) (L : Fin (n + 2) → ι → K)
    (x : ι) (z : Fin (n + 1) → ι) :
    pathWeight π T L (Fin.cons x z) =
      pathWeight (fun y => π x * L 0 x * T 0 x y) (fun i => T i.succ) (fun i => L i.succ) z := by
  unfold pathWeight
  rw [Fin.prod_univ_succ (fun i : Fin (n + 1) => T i ((Fin.cons x z : Fin (n + 2) → ι) i.castSucc)
        ((Fin.cons x z : Fin (n + 2) → ι) i.succ)),
      Fin.prod_univ_succ (fun i : Fin (n + 2) => L i ((Fin.cons x z : Fin (n + 2) → ι) i))]
  simp only [Fin.castSucc_zero, Fin.cons_zero, Fin.cons_succ, Fin.castSucc_succ]
  ring

theorem sum_cons {n : ℕ} (f : (Fin (n + 1) → ι) → K) :
    ∑ z, f z = ∑ x : ι, ∑ z : Fin n → ι, f (Fin.cons x z) := by
  rw [← Fintype.sum_prod_type']
  exact (Fintype.sum_equiv (Fin.consEquiv (fun _ => ι)) _ _ (fun _ => rfl)).symm

theorem pathWeight_sum_init {n : ℕ} (f : ι → ι → K) (T : Fin n → ι → ι → K) (L : Fin (n + 1) → ι → K)
    (z : Fin (n + 1) → ι) :
    ∑ x, pathWeight (f x) T L z = pathWeight (fun y => ∑ x, f x y) T L z := by
  unfold pathWeight
  simp only [Finset.sum_mul]

theorem evidence_zero (π : ι → K) (T : Fin 0 → ι → ι → K) (L : Fin 1 → ι → K) :
    evidence π T L = ∑ x, π x * L 0 x := by
  unfold evidence
  rw [sum_cons]
  simp [pathWeight_zero]

theorem evidence_succ {n : ℕ} (π : ι → K) (T : Fin (n + 1) → ι → ι → K) (L : Fin (n + 2) → ι → K) :
    evidence π T L = evidence (advance (T 0) (L 0) π) (fun i => T i.succ) (fun i => L i.succ) := by
  unfold evidence
  rw [sum_cons, Finset.sum_comm]
  refine Finset.sum_congr rfl fun z _ => ?_
  simp only [pathWeight_cons]
  exact pathWeight_sum_init _ _ _ _

theorem marginal_succ {n : ℕ} (π : ι → K) (T : Fin (n + 1) → ι → ι → K) (L : Fin (n + 2) → ι → K)
    (i : Fin (n + 1)) (x : ι) :
    marginal π T L i.succ x =
      marginal (advance (T 0) (L 0) π) (fun i => T i.succ) (fun i => L i.succ) i x := by
  unfold marginal
  rw [Finset.sum_filter, Finset.sum_filter, sum_cons, Finset.sum_comm]
  refine Finset.sum_congr rfl fun z _ => ?_
  simp only [pathWeight_cons, Fin.cons_succ]
  split
  · exact pathWeight_sum_init _ _ _ _
  · simp

/-- likelihood of everything after the first data point, given that the parameter is `x` there -/
def future {n : ℕ} (T : Fin n → ι → ι → K) (L : Fin (n + 1) → ι → K) (x : ι) : K :=
  match n, T, L with
  | 0, _, _ => 1
  | _ + 1, T, L => evidence (fun y => T 0 x y) (fun i => T i.succ) (fun i => L i.succ)

theorem pathWeight_smul {n : ℕ} (c : K) (π : ι → K) (T : Fin n → ι → ι → K) (L : Fin (n + 1) → ι → K)
    (z : Fin (n + 1) → ι) : pathWeight (fun y => c * π y) T L z = c * pathWeight π T L z := by
  unfold pathWeight; ring

theorem evidence_smul {n : ℕ} (c : K) (π : ι → K) (T : Fin n → ι → ι → K) (L : Fin (n + 1) → ι → K) :
    evidence (fun y => c * π y) T L = c * evidence π T L := by
  unfold evidence; simp only [pathWeight_smul, Finset.mul_sum]

theorem marginal_zero {n : ℕ} (π : ι → K) (T : Fin n → ι → ι → K) (L : Fin (n + 1) → ι → K) (x : ι) :
    marginal π T L 0 x = π x * L 0 x * future T L x := by
  unfold marginal
  rw [Finset.sum_filter, sum_cons]
  simp only [Fin.cons_zero]
  rw [Finset.sum_eq_single x]
  · match n, T, L with
    | 0, T, L => simp [pathWeight_zero, future]
    | n + 1, T, L =>
        simp only [if_true, pathWeight_cons, pathWeight_smul, ← Finset.mul_sum, future]
        rfl
  · intro b _ hb
    simp [hb]
  · simp

theorem evidence_eq_sum_marginal {n : ℕ} (π : ι → K) (T : Fin n → ι → ι → K) (L : Fin (n + 1) → ι → K)
    (i : Fin (n + 1)) : evidence π T L = ∑ x, marginal π T L i x := by
  unfold evidence marginal
  exact (Finset.sum_fiberwise _ _ _).symm

theorem evidence_eq_future {n : ℕ} (π : ι → K) (T : Fin n → ι → ι → K) (L : Fin (n + 1) → ι → K) :
    evidence π T L = ∑ x, π x * L 0 x * future T L x := by
  rw [evidence_eq_sum_marginal π T L 0]
  simp only [marginal_zero]

theorem future_succ {n : ℕ} (T : Fin (n + 1) → ι → ι → K) (L : Fin (n + 2) → ι → K) (x : ι) :
    future T L x = ∑ y, T 0 x y * L 1 y * future (fun i => T i.succ) (fun i => L i.succ) y := by
  rw [future, evidence_eq_future]
  rfl

section order
variable [LinearOrder K] [IsStrictOrderedRing K]

theorem pathWeight_nonneg {n : ℕ} {π : ι → K} {T : Fin n → ι → ι → K} {L : Fin (n + 1) → ι → K}
    (hπ : ∀ x, 0 ≤ π x) (hT : ∀ i x y, 0 ≤ T i x y) (hL : ∀ i x, 0 ≤ L i x) (z : Fin (n + 1) → ι) :
    0 ≤ pathWeight π T L z :=
  mul_nonneg (mul_nonneg (hπ _) (Finset.prod_nonneg fun _ _ => hT _ _ _)) (Finset.prod_nonneg fun _ _ => hL _ _)

theorem evidence_nonneg {n : ℕ} {π : ι → K} {T : Fin n → ι → ι → K} {L : Fin (n + 1) → ι → K}
    (hπ : ∀ x, 0 ≤ π x) (hT : ∀ i x y, 0 ≤ T i x y) (hL : ∀ i x, 0 ≤ L i x) :
    0 ≤ evidence π T L :=
  Finset.sum_nonneg fun _ _ => pathWeight_nonneg hπ hT hL _

end order

end Spec
