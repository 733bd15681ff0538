import Verif.Spec.Kernel
import Mathlib.Data.ZMod.Basic
import Mathlib.Algebra.Order.BigOperators.Group.Finset
import Mathlib.Tactic.Ring
import Mathlib.Tactic.Linarith
import Mathlib.Tactic.Abel
import Mathlib.Tactic.LinearCombination
import Mathlib.Tactic.FieldSimp

/-! # The mirrored random walk: symmetric, mass-preserving, commuting -/

set_option linter.unusedSectionVars false
set_option linter.style.haveILetI false

namespace BL
open Spec

variable {K : Type} [Field K] [LinearOrder K] [IsStrictOrderedRing K] {d : ℕ} {gs : Fin d → ℕ}

/-- periodised weights -/
def perW (n r : ℕ) (w : ℤ → K) (c : ZMod (2 * n)) : K :=
  ∑ k ∈ Finset.Icc (-(r : ℤ)) r, if (k : ZMod (2 * n)) = c then w k else 0

theorem perW_even (n r : ℕ) (w : ℤ → K) (hw : ∀ k, w (-k) = w k) (c : ZMod (2 * n)) :
    perW n r w (-c) = perW n r w c := by
  unfold perW
  refine Finset.sum_nbij' (fun k => -k) (fun k => -k) ?_ ?_ ?_ ?_ ?_
  · intro k hk; simp only [Finset.mem_Icc] at *; omega
  · intro k hk; simp only [Finset.mem_Icc] at *; omega
  · intro k _; simp
  · intro k _; simp
  · intro k _
    rw [hw]
    congr 1
    push_cast
    rw [neg_eq_iff_eq_neg, eq_iff_iff]

theorem not_both (n : ℕ) (c : ZMod (2 * n)) (j : Fin n) :
    ¬ (c = ((j : ℕ) : ZMod (2 * n)) ∧ c = -1 - ((j : ℕ) : ZMod (2 * n))) := by
  rintro ⟨h1, h2⟩
  have h3 : ((2 * (j : ℕ) + 1 : ℕ) : ZMod (2 * n)) = 0 := by
    push_cast
    have : ((j : ℕ) : ZMod (2 * n)) = -1 - ((j : ℕ) : ZMod (2 * n)) := h1 ▸ h2
    calc (2 : ZMod (2 * n)) * ((j : ℕ) : ZMod (2 * n)) + 1
        = ((j : ℕ) : ZMod (2 * n)) + ((j : ℕ) : ZMod (2 * n)) + 1 := by ring
      _ = ((j : ℕ) : ZMod (2 * n)) + (-1 - ((j : ℕ) : ZMod (2 * n))) + 1 := by rw [← this]
      _ = 0 := by ring
  rw [ZMod.natCast_eq_zero_iff] at h3
  have h4 := (Dvd.intro n rfl : 2 ∣ 2 * n).trans h3
  omega

theorem walk_eq_perW (n r : ℕ) (w : ℤ → K) (i j : Fin n) :
    walk n r w i j = perW n r w (((j : ℕ) : ZMod (2 * n)) - ((i : ℕ) : ZMod (2 * n)))
      + perW n r w (-1 - ((j : ℕ) : ZMod (2 * n)) - ((i : ℕ) : ZMod (2 * n))) := by
  unfold walk perW
  rw [← Finset.sum_add_distrib]
  refine Finset.sum_congr rfl fun k _ => ?_
  have e1 : ((2 * n : ℕ) : ℤ) ∣ (i : ℤ) + k - (j : ℤ) ↔
      (k : ZMod (2 * n)) = ((j : ℕ) : ZMod (2 * n)) - ((i : ℕ) : ZMod (2 * n)) := by
    rw [← ZMod.intCast_zmod_eq_zero_iff_dvd]
    push_cast
    constructor
    · intro h; linear_combination h
    · intro h; linear_combination h
  have e2 : ((2 * n : ℕ) : ℤ) ∣ (i : ℤ) + k + 1 + (j : ℤ) ↔
      (k : ZMod (2 * n)) = -1 - ((j : ℕ) : ZMod (2 * n)) - ((i : ℕ) : ZMod (2 * n)) := by
    rw [← ZMod.intCast_zmod_eq_zero_iff_dvd]
    push_cast
    constructor
    · intro h; linear_combination h
    · intro h; linear_combination h
  have := not_both n ((k : ZMod (2 * n)) + ((i : ℕ) : ZMod (2 * n))) j
  by_cases h1 : (k : ZMod (2 * n)) = ((j : ℕ) : ZMod (2 * n)) - ((i : ℕ) : ZMod (2 * n))
  · have h2 : ¬ (k : ZMod (2 * n)) = -1 - ((j : ℕ) : ZMod (2 * n)) - ((i : ℕ) : ZMod (2 * n)) := by
      intro h2
      exact this ⟨by rw [h1]; ring, by rw [h2]; ring⟩
    rw [if_pos (Or.inl (e1.2 h1)), if_pos h1, if_neg h2]; ring
  · by_cases h2 : (k : ZMod (2 * n)) = -1 - ((j : ℕ) : ZMod (2 * n)) - ((i : ℕ) : ZMod (2 * n))
    · rw [if_pos (Or.inr (e2.2 h2)), if_neg h1, if_pos h2]; ring
    · rw [if_neg (by rw [e1, e2]; tauto), if_neg h1, if_neg h2]; ring

/-- a full period splits into the grid and its mirror image -/
theorem sum_zmod (n : ℕ) [NeZero n] (f : ZMod (2 * n) → K) :
    ∑ z, f z = ∑ j : Fin n, (f ((j : ℕ) : ZMod (2 * n)) + f (-1 - ((j : ℕ) : ZMod (2 * n)))) := by
  have hn : 0 < n := NeZero.pos n
  rw [Finset.sum_add_distrib]
  have h1 : ∑ z : ZMod (2 * n), f z = ∑ m : Fin (n + n), f ((m : ℕ) : ZMod (2 * n)) := by
    symm
    refine Fintype.sum_bijective (fun m : Fin (n + n) => ((m : ℕ) : ZMod (2 * n))) ?_ _ _ (fun _ => rfl)
    rw [Fintype.bijective_iff_injective_and_card]
    constructor
    · intro a b hab
      simp only at hab
      rw [ZMod.natCast_eq_natCast_iff'] at hab
      rw [Nat.mod_eq_of_lt (by omega), Nat.mod_eq_of_lt (by omega)] at hab
      exact Fin.ext hab
    · rw [ZMod.card, Fintype.card_fin]; ring
  rw [h1, Fin.sum_univ_add]
  congr 1
  rw [← Equiv.sum_comp Fin.revPerm]
  refine Finset.sum_congr rfl fun j _ => ?_
  congr 1
  simp only [Fin.revPerm_apply, Fin.val_natAdd, Fin.val_rev]
  have h2 : ((n + (n - (↑j + 1)) : ℕ) : ZMod (2 * n)) = ((2 * n : ℕ) : ZMod (2 * n)) - 1 - ((j : ℕ) : ZMod (2 * n)) := by
    have : n + (n - ((j : ℕ) + 1)) + 1 + j = 2 * n := by have := j.2; omega
    rw [← this]; push_cast; ring
  rw [h2, ZMod.natCast_self]; ring

theorem sum_perW (n r : ℕ) [NeZero n] (w : ℤ → K) :
    ∑ c, perW n r w c = ∑ k ∈ Finset.Icc (-(r : ℤ)) r, w k := by
  unfold perW
  rw [Finset.sum_comm]
  refine Finset.sum_congr rfl fun k _ => ?_
  simp

theorem walk_symm (n r : ℕ) (w : ℤ → K) (hw : ∀ k, w (-k) = w k) (i j : Fin n) :
    walk n r w i j = walk n r w j i := by
  rw [walk_eq_perW, walk_eq_perW, ← perW_even n r w hw]
  congr 2 <;> ring

theorem walk_row_sum (n r : ℕ) (w : ℤ → K) (i : Fin n) :
    ∑ j, walk n r w i j = ∑ k ∈ Finset.Icc (-(r : ℤ)) r, w k := by
  haveI : NeZero n := ⟨by have := i.pos; omega⟩
  rw [← sum_perW n r w, ← Equiv.sum_comp (Equiv.subRight ((i : ℕ) : ZMod (2 * n))), sum_zmod]
  refine Finset.sum_congr rfl fun j _ => ?_
  rw [walk_eq_perW]; rfl

theorem walk_nonneg (n r : ℕ) (w : ℤ → K) (hw : ∀ k, 0 ≤ w k) (i j : Fin n) : 0 ≤ walk n r w i j := by
  unfold walk
  refine Finset.sum_nonneg fun k _ => mul_nonneg (hw k) ?_
  split <;> simp

theorem walk_comp_eq (n r r' : ℕ) (w w' : ℤ → K) (hw' : ∀ k, w' (-k) = w' k) (i l : Fin n) :
    ∑ j, walk n r w i j * walk n r' w' j l =
      (haveI : NeZero n := ⟨by have := i.pos; omega⟩
       ∑ z : ZMod (2 * n), perW n r w (z - ((i : ℕ) : ZMod (2 * n))) *
        (perW n r' w' (((l : ℕ) : ZMod (2 * n)) - z) + perW n r' w' (-1 - ((l : ℕ) : ZMod (2 * n)) - z))) := by
  haveI : NeZero n := ⟨by have := i.pos; omega⟩
  rw [sum_zmod]
  refine Finset.sum_congr rfl fun j _ => ?_
  rw [walk_eq_perW, walk_eq_perW, add_mul]
  congr 2
  rw [add_comm]
  congr 1
  · rw [← perW_even n r' w' hw']; congr 1; ring
  · rw [← perW_even n r' w' hw']; congr 1; ring

theorem walk_comm (n r r' : ℕ) (w w' : ℤ → K) (hw : ∀ k, w (-k) = w k) (hw' : ∀ k, w' (-k) = w' k)
    (i l : Fin n) :
    ∑ j, walk n r w i j * walk n r' w' j l = ∑ j, walk n r' w' i j * walk n r w j l := by
  haveI : NeZero n := ⟨by have := i.pos; omega⟩
  rw [walk_comp_eq n r r' w w' hw', walk_comp_eq n r' r w' w hw]
  simp only [mul_add, Finset.sum_add_distrib]
  congr 1
  · rw [← Equiv.sum_comp (Equiv.subLeft (((i : ℕ) : ZMod (2 * n)) + ((l : ℕ) : ZMod (2 * n))))]
    refine Finset.sum_congr rfl fun z _ => ?_
    rw [mul_comm, Equiv.subLeft_apply]
    congr 2 <;> ring
  · rw [← Equiv.sum_comp (Equiv.subLeft (((i : ℕ) : ZMod (2 * n)) + (-1 - ((l : ℕ) : ZMod (2 * n)))))]
    refine Finset.sum_congr rfl fun z _ => ?_
    rw [mul_comm, Equiv.subLeft_apply]
    congr 2 <;> ring

/-- scipy's index reflection is the mirrored position -/
theorem reflIdx_eq_iff (n : ℕ) (i j : Fin n) (k : ℤ) :
    reflIdx n i k = j ↔
      (((2 * n : ℕ) : ℤ) ∣ (i : ℤ) + k - (j : ℤ) ∨ ((2 * n : ℕ) : ℤ) ∣ (i : ℤ) + k + 1 + (j : ℤ)) := by
  have hn := i.pos
  have hj := j.2
  set m := (((i : ℕ) : ℤ) + k) % (2 * n) with hm
  have m0 : 0 ≤ m := Int.emod_nonneg _ (by omega)
  have m1 : m < 2 * n := Int.emod_lt_of_pos _ (by omega)
  obtain ⟨q, hq⟩ : ∃ q, ((i : ℕ) : ℤ) + k = 2 * n * q + m :=
    ⟨(((i : ℕ) : ℤ) + k) / (2 * n), by rw [hm]; exact (Int.mul_ediv_add_emod _ _).symm⟩
  have e1 : ((2 * n : ℕ) : ℤ) ∣ (i : ℤ) + k - (j : ℤ) ↔ m = j := by
    rw [hq]
    constructor
    · intro h
      have h2 : ((2 * n : ℕ) : ℤ) ∣ m - j := by
        have : 2 * (n : ℤ) * q + m - j = (m - j) + ((2 * n : ℕ) : ℤ) * q := by push_cast; ring
        rw [this] at h
        exact (Int.dvd_add_left (Dvd.intro _ rfl)).1 h
      have := Int.eq_zero_of_abs_lt_dvd h2 (by rw [abs_lt]; push_cast; omega)
      omega
    · intro h
      exact ⟨q, by rw [h]; push_cast; ring⟩
  have e2 : ((2 * n : ℕ) : ℤ) ∣ (i : ℤ) + k + 1 + (j : ℤ) ↔ m = 2 * n - 1 - j := by
    rw [hq]
    constructor
    · intro h
      have h2 : ((2 * n : ℕ) : ℤ) ∣ m - (2 * n - 1 - j) := by
        have : 2 * (n : ℤ) * q + m + 1 + j = (m - (2 * n - 1 - j)) + ((2 * n : ℕ) : ℤ) * (q + 1) := by
          push_cast; ring
        rw [this] at h
        exact (Int.dvd_add_left (Dvd.intro _ rfl)).1 h
      have := Int.eq_zero_of_abs_lt_dvd h2 (by rw [abs_lt]; push_cast; omega)
      omega
    · intro h
      exact ⟨q + 1, by rw [h]; push_cast; ring⟩
  rw [e1, e2]
  by_cases h : m < n
  · have h' : (((i : ℕ) : ℤ) + k) % (2 * n) < n := hm ▸ h
    have : ((reflIdx n i k : Fin n) : ℕ) = m.toNat := by simp only [reflIdx, dif_pos h', hm]
    rw [Fin.ext_iff, this]
    omega
  · have h' : ¬ (((i : ℕ) : ℤ) + k) % (2 * n) < n := hm ▸ h
    have : ((reflIdx n i k : Fin n) : ℕ) = (2 * n - 1 - m).toNat := by simp only [reflIdx, dif_neg h', hm]
    rw [Fin.ext_iff, this]
    omega

end BL
