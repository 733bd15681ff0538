import Verif.Lemmas.Reflect
import Mathlib.Data.Matrix.Mul
import Mathlib.GroupTheory.Submonoid.Centralizer

/-! # Kernels of the linear transition models: stochastic, symmetric, commuting -/

set_option linter.unusedSectionVars false

namespace BL
open Spec

variable {K : Type} [Field K] [LinearOrder K] [IsStrictOrderedRing K] {d : ℕ} {gs : Fin d → ℕ}

theorem sum_agree (a : Fin d) (y : Idx gs) (f : Idx gs → K) :
    (∑ x : Idx gs, if ∀ b, b ≠ a → x b = y b then f x else 0)
      = ∑ j : Fin (gs a), f (Function.update y a j) := by
  rw [← Finset.sum_filter]
  symm
  refine Finset.sum_nbij' (fun j => Function.update y a j) (fun x => x a) ?_ ?_ ?_ ?_ ?_
  · intro j _
    simp only [Finset.mem_filter, Finset.mem_univ, true_and]
    intro b hb
    rw [Function.update_of_ne hb]
  · intro x _; simp
  · intro j _; simp
  · intro x hx
    simp only [Finset.mem_filter, Finset.mem_univ, true_and] at hx
    funext b
    by_cases hb : b = a
    · subst hb; simp
    · rw [Function.update_of_ne hb, hx b hb]
  · intro j _; rfl

theorem walkAxis_symm (a : Fin d) (r : ℕ) (w : ℤ → K) (hw : ∀ k, w (-k) = w k) (x y : Idx gs) :
    walkAxis a r w x y = walkAxis a r w y x := by
  unfold walkAxis
  by_cases h : ∀ b, b ≠ a → x b = y b
  · have h' : ∀ b, b ≠ a → y b = x b := fun b hb => (h b hb).symm
    rw [if_pos h, if_pos h', walk_symm _ _ _ hw]
  · have h' : ¬ ∀ b, b ≠ a → y b = x b := fun g => h fun b hb => (g b hb).symm
    rw [if_neg h, if_neg h']

theorem sum_walkAxis (a : Fin d) (r : ℕ) (w : ℤ → K) (hw : ∀ k, w (-k) = w k) (f : Idx gs → K) (y : Idx gs) :
    ∑ x, walkAxis a r w x y * f x = ∑ j, walk (gs a) r w (y a) j * f (Function.update y a j) := by
  have : ∀ x : Idx gs, walkAxis a r w x y * f x =
      if ∀ b, b ≠ a → x b = y b then walk (gs a) r w (y a) (x a) * f x else 0 := by
    intro x
    unfold walkAxis
    split
    · rw [walk_symm _ _ _ hw]
    · ring
  simp only [this]
  rw [sum_agree]
  simp

theorem sum_walkAxis' (a : Fin d) (r : ℕ) (w : ℤ → K) (hw : ∀ k, w (-k) = w k) (f : Idx gs → K) (x : Idx gs) :
    ∑ y, walkAxis a r w x y * f y = ∑ j, walk (gs a) r w (x a) j * f (Function.update x a j) := by
  rw [← sum_walkAxis a r w hw f x]
  exact Finset.sum_congr rfl fun y _ => by rw [walkAxis_symm a r w hw]

theorem walkAxis_row_sum (a : Fin d) (r : ℕ) (w : ℤ → K) (hw : ∀ k, w (-k) = w k) (x : Idx gs) :
    ∑ y, walkAxis a r w x y = ∑ k ∈ Finset.Icc (-(r : ℤ)) r, w k := by
  have := sum_walkAxis' a r w hw (fun _ : Idx gs => (1 : K)) x
  simp only [mul_one] at this
  rw [this, walk_row_sum]

theorem walkAxis_nonneg (a : Fin d) (r : ℕ) (w : ℤ → K) (hw : ∀ k, 0 ≤ w k) (x y : Idx gs) :
    0 ≤ walkAxis a r w x y := by
  unfold walkAxis
  split
  · exact walk_nonneg _ _ _ hw _ _
  · exact le_rfl

/-- The filter of the code is multiplication with the walk kernel. -/
theorem filterAxis_eq (a : Fin d) (r : ℕ) (w : ℤ → K) (hw : ∀ k, w (-k) = w k) (p : Idx gs → K) (y : Idx gs) :
    filterAxis r w a p y = ∑ x, p x * walkAxis a r w x y := by
  have h := sum_walkAxis a r w hw p y
  simp only [mul_comm (p _)]
  rw [h]
  unfold filterAxis walk
  simp only [Finset.sum_mul]
  rw [Finset.sum_comm]
  refine Finset.sum_congr rfl fun k _ => ?_
  rw [hw, Finset.sum_eq_single (reflIdx (gs a) (y a) k)]
  · rw [if_pos ((reflIdx_eq_iff _ _ _ _).1 rfl)]; ring
  · intro j _ hj
    rw [if_neg]
    · ring
    · intro hc
      exact hj ((reflIdx_eq_iff _ _ _ _).2 hc).symm
  · intro h; exact absurd (Finset.mem_univ _) h

theorem walkAxis_comm (a b : Fin d) (r r' : ℕ) (w w' : ℤ → K) (hw : ∀ k, w (-k) = w k)
    (hw' : ∀ k, w' (-k) = w' k) (x z : Idx gs) :
    ∑ y, walkAxis a r w x y * walkAxis b r' w' y z = ∑ y, walkAxis b r' w' x y * walkAxis a r w y z := by
  rw [sum_walkAxis' a r w hw (fun y => walkAxis b r' w' y z) x,
    sum_walkAxis' b r' w' hw' (fun y => walkAxis a r w y z) x]
  by_cases hab : a = b
  · subst hab
    by_cases h : ∀ c, c ≠ a → x c = z c
    · have h1 : ∀ j : Fin (gs a), ∀ c, c ≠ a → Function.update x a j c = z c := by
        intro j c hc; rw [Function.update_of_ne hc, h c hc]
      simp only [walkAxis, if_pos (h1 _), Function.update_self]
      exact walk_comm _ _ _ _ _ hw hw' _ _
    · have h1 : ∀ j : Fin (gs a), ¬ ∀ c, c ≠ a → Function.update x a j c = z c := by
        intro j hc; exact h fun c hca => by rw [← hc c hca, Function.update_of_ne hca]
      simp only [walkAxis, if_neg (h1 _), mul_zero]
  · -- different axes
    have hba : b ≠ a := fun h => hab h.symm
    by_cases h : ∀ c, c ≠ a → c ≠ b → x c = z c
    · have e1 : ∀ j : Fin (gs a), walkAxis b r' w' (Function.update x a j) z =
          if j = z a then walk (gs b) r' w' (x b) (z b) else 0 := by
        intro j
        unfold walkAxis
        by_cases hj : j = z a
        · rw [if_pos hj, if_pos, Function.update_of_ne hba]
          intro c hc
          by_cases hca : c = a
          · subst hca; rw [Function.update_self, hj]
          · rw [Function.update_of_ne hca, h c hca hc]
        · rw [if_neg hj, if_neg]
          intro hc
          exact hj (by have := hc a hab; rwa [Function.update_self] at this)
      have e2 : ∀ j : Fin (gs b), walkAxis a r w (Function.update x b j) z =
          if j = z b then walk (gs a) r w (x a) (z a) else 0 := by
        intro j
        unfold walkAxis
        by_cases hj : j = z b
        · rw [if_pos hj, if_pos, Function.update_of_ne hab]
          intro c hc
          by_cases hcb : c = b
          · subst hcb; rw [Function.update_self, hj]
          · rw [Function.update_of_ne hcb, h c hc hcb]
        · rw [if_neg hj, if_neg]
          intro hc
          exact hj (by have := hc b hba; rwa [Function.update_self] at this)
      simp only [e1, e2]
      simp [mul_comm]
    · have e1 : ∀ j : Fin (gs a), walkAxis b r' w' (Function.update x a j) z = 0 := by
        intro j
        unfold walkAxis
        rw [if_neg]
        intro hc
        exact h fun c hca hcb => by rw [← hc c hcb, Function.update_of_ne hca]
      have e2 : ∀ j : Fin (gs b), walkAxis a r w (Function.update x b j) z = 0 := by
        intro j
        unfold walkAxis
        rw [if_neg]
        intro hc
        exact h fun c hca hcb => by rw [← hc c hca, Function.update_of_ne hcb]
      simp [e1, e2]

/-! ### Matrices -/

/-- a kernel as a Mathlib matrix -/
def toM (A : Idx gs → Idx gs → K) : Matrix (Idx gs) (Idx gs) K := Matrix.of A

@[simp] theorem toM_apply (A : Idx gs → Idx gs → K) (x y : Idx gs) : toM A x y = A x y := rfl

theorem toM_comp (A B : Idx gs → Idx gs → K) : toM (comp A B) = toM A * toM B := by
  ext x z; rw [Matrix.mul_apply]; rfl

theorem toM_stay : toM (stay : Idx gs → Idx gs → K) = 1 := by
  ext x y; rw [Matrix.one_apply]; rfl

theorem toM_inj {A B : Idx gs → Idx gs → K} (h : toM A = toM B) : A = B := h

/-- generators of the algebra of symmetric transitions: mirrored walks and the uniform fresh draw -/
def symGen (K : Type) [Field K] [LinearOrder K] (gs : Fin d → ℕ) (u : K) : Set (Matrix (Idx gs) (Idx gs) K) :=
  {M | (∃ (a : Fin d) (r : ℕ) (w : ℤ → K), (∀ k, w (-k) = w k) ∧
      (∑ k ∈ Finset.Icc (-(r : ℤ)) r, w k = 1) ∧ M = toM (walkAxis a r w)) ∨ M = toM (fun _ _ => u)}

theorem symGen_comm (u : K) : ∀ A ∈ symGen K gs u, ∀ B ∈ symGen K gs u, A * B = B * A := by
  have key : ∀ (a : Fin d) (r : ℕ) (w : ℤ → K), (∀ k, w (-k) = w k) →
      (∑ k ∈ Finset.Icc (-(r : ℤ)) r, w k = 1) →
      toM (walkAxis a r w) * toM (fun _ _ : Idx gs => u) = toM (fun _ _ => u) * toM (walkAxis a r w) := by
    intro a r w hw hs
    ext x z
    rw [Matrix.mul_apply, Matrix.mul_apply]
    simp only [toM_apply]
    rw [← Finset.sum_mul, ← Finset.mul_sum, walkAxis_row_sum a r w hw, hs]
    have : ∑ i, walkAxis a r w i z = ∑ i, walkAxis a r w z i :=
      Finset.sum_congr rfl fun i _ => walkAxis_symm a r w hw _ _
    rw [this, walkAxis_row_sum a r w hw, hs]; ring
  rintro A (⟨a, r, w, hw, hs, rfl⟩ | rfl) B (⟨b, r', w', hw', hs', rfl⟩ | rfl)
  · ext x z
    rw [Matrix.mul_apply, Matrix.mul_apply]
    exact walkAxis_comm a b r r' w w' hw hw' x z
  · exact key a r w hw hs
  · exact (key b r' w' hw' hs').symm
  · rfl

/-- submonoid of symmetric, commuting transition matrices -/
def SymAlg (K : Type) [Field K] [LinearOrder K] (gs : Fin d → ℕ) (u : K) :
    Submonoid (Matrix (Idx gs) (Idx gs) K) := Submonoid.closure (symGen K gs u)

theorem symAlg_comm (u : K) {A B : Matrix (Idx gs) (Idx gs) K} (hA : A ∈ SymAlg K gs u)
    (hB : B ∈ SymAlg K gs u) : A * B = B * A := by
  letI := Submonoid.closureCommMonoidOfComm _ (symGen_comm (K := K) (gs := gs) u)
  exact congrArg Subtype.val (mul_comm (⟨A, hA⟩ : Submonoid.closure (symGen K gs u)) ⟨B, hB⟩)

theorem symAlg_symm (u : K) {A : Matrix (Idx gs) (Idx gs) K} (hA : A ∈ SymAlg K gs u) : A.transpose = A := by
  induction hA using Submonoid.closure_induction with
  | mem A h =>
    rcases h with ⟨a, r, w, hw, hs, rfl⟩ | rfl
    · ext x y; exact walkAxis_symm a r w hw _ _
    · ext x y; rfl
  | one => exact Matrix.transpose_one
  | mul A B hA hB ihA ihB => rw [Matrix.transpose_mul, ihA, ihB]; exact symAlg_comm u hB hA

end BL
