import Verif.Spec.Continuum
import Verif.Model.Transition
import Mathlib.Algebra.Order.Round
import Mathlib.Tactic.Positivity
import Mathlib.Tactic.FieldSimp
import Mathlib.Tactic.Ring
import Mathlib.Tactic.Linarith

/-! # Reflection of indices and of parameter values -/

set_option linter.unusedSectionVars false

namespace BL
open Spec

theorem even_le {w : ℝ} (hw : 0 < w) (s : ℝ) (m : ℤ) : |s - 2 * w * round (s / (2 * w))| ≤ |s - 2 * w * m| := by
  have h := round_le (s / (2 * w)) m
  have e : ∀ r : ℝ, |s - 2 * w * r| = 2 * w * |s / (2 * w) - r| := by
    intro r
    rw [← abs_of_pos (show (0 : ℝ) < 2 * w by positivity), ← abs_mul, abs_of_pos (show (0 : ℝ) < 2 * w by positivity)]
    congr 1
    field_simp
  rw [e, e]
  exact mul_le_mul_of_nonneg_left h (by positivity)

theorem even_half {w : ℝ} (hw : 0 < w) (s : ℝ) : |s - 2 * w * round (s / (2 * w))| ≤ w := by
  have h := abs_sub_round (s / (2 * w))
  have e : |s - 2 * w * round (s / (2 * w))| = 2 * w * |s / (2 * w) - round (s / (2 * w))| := by
    rw [← abs_of_pos (show (0 : ℝ) < 2 * w by positivity), ← abs_mul, abs_of_pos (show (0 : ℝ) < 2 * w by positivity)]
    congr 1
    field_simp
  rw [e]
  nlinarith

theorem mirror_mem {lo hi : ℝ} (h : lo < hi) (y : ℝ) : mirror lo hi y ∈ Set.Icc lo hi := by
  unfold mirror
  have h1 := even_half (sub_pos.2 h) (y - lo)
  have h2 := abs_nonneg (y - lo - 2 * (hi - lo) * round ((y - lo) / (2 * (hi - lo))))
  constructor <;> linarith

theorem mirror_of {lo hi y v : ℝ} (h : lo < hi) (h0 : 0 ≤ v) (h1 : v ≤ hi - lo) (r : ℤ) (hy : y = lo + 2 * (hi - lo) * r + v ∨ y = lo + 2 * (hi - lo) * r - v) : mirror lo hi y = lo + v := by
  have hw : 0 < hi - lo := sub_pos.2 h
  unfold mirror
  congr 1
  obtain ⟨m, hm⟩ : ∃ m, m = round ((y - lo) / (2 * (hi - lo))) := ⟨_, rfl⟩
  have hle := even_le hw (y - lo) r
  rw [← hm] at hle ⊢
  have hvr : |y - lo - 2 * (hi - lo) * r| = v := by
    rcases hy with e | e
    · rw [show y - lo - 2 * (hi - lo) * r = v by rw [e]; ring, abs_of_nonneg h0]
    · rw [show y - lo - 2 * (hi - lo) * r = -v by rw [e]; ring, abs_neg, abs_of_nonneg h0]
  rw [hvr] at hle
  refine le_antisymm hle ?_
  by_cases hmr : m = r
  · rw [hmr, hvr]
  · have hd : (1 : ℝ) ≤ |(m : ℝ) - r| := by
      have : (1 : ℤ) ≤ |m - r| := Int.one_le_abs (sub_ne_zero.2 hmr)
      exact_mod_cast this
    have e1 : 2 * (hi - lo) * |(m : ℝ) - r| ≤ |y - lo - 2 * (hi - lo) * m| + |y - lo - 2 * (hi - lo) * r| := by
      rw [← abs_of_pos (show (0 : ℝ) < 2 * (hi - lo) by positivity), ← abs_mul, abs_of_pos (show (0 : ℝ) < 2 * (hi - lo) by positivity)]
      calc |2 * (hi - lo) * ((m : ℝ) - r)| = |(y - lo - 2 * (hi - lo) * r) - (y - lo - 2 * (hi - lo) * m)| := by congr 1; ring
        _ ≤ |y - lo - 2 * (hi - lo) * r| + |y - lo - 2 * (hi - lo) * m| := abs_sub _ _
        _ = _ := add_comm _ _
    rw [hvr] at e1
    nlinarith

theorem mirror_lip {lo hi : ℝ} (h : lo < hi) (y y' : ℝ) : |mirror lo hi y - mirror lo hi y'| ≤ |y - y'| := by
  have key : ∀ y y' : ℝ, mirror lo hi y ≤ mirror lo hi y' + |y - y'| := by
    intro y y'
    unfold mirror
    have h1 := even_le (sub_pos.2 h) (y - lo) (round ((y' - lo) / (2 * (hi - lo))))
    have h2 := abs_add_le (y - y') (y' - lo - 2 * (hi - lo) * round ((y' - lo) / (2 * (hi - lo))))
    rw [show y - y' + (y' - lo - 2 * (hi - lo) * round ((y' - lo) / (2 * (hi - lo)))) = y - lo - 2 * (hi - lo) * round ((y' - lo) / (2 * (hi - lo))) by ring] at h2
    linarith
  rw [abs_le]
  have h1 := key y y'
  have h2 := key y' y
  rw [abs_sub_comm] at h2
  constructor <;> linarith

/-- reflection depends continuously on the ends of the interval -/
theorem mirror_close {lo hi lo' hi' : ℝ} (h : lo < hi) (h' : lo' < hi') (y : ℝ) :
    mirror lo hi y ≤ mirror lo' hi' y + (2 * |lo - lo'| + 2 * |(hi - lo) - (hi' - lo')| * (|y - lo'| / (2 * (hi' - lo')) + 1)) := by
  unfold mirror
  obtain ⟨m, hm⟩ : ∃ m, m = round ((y - lo') / (2 * (hi' - lo'))) := ⟨_, rfl⟩
  have hw' : 0 < hi' - lo' := sub_pos.2 h'
  have h1 := even_le (sub_pos.2 h) (y - lo) m
  rw [← hm]
  have h2 : |y - lo - 2 * (hi - lo) * m| ≤ |y - lo' - 2 * (hi' - lo') * m| + |lo - lo'| + 2 * |(hi - lo) - (hi' - lo')| * |(m : ℝ)| := by
    have e : y - lo - 2 * (hi - lo) * m = (y - lo' - 2 * (hi' - lo') * m) + -(lo - lo') + -(2 * ((hi - lo) - (hi' - lo')) * m) := by ring
    rw [e]
    refine (abs_add_three _ _ _).trans (le_of_eq ?_)
    rw [abs_neg, abs_neg, abs_mul, abs_mul, abs_two]
  have h3 : |(m : ℝ)| ≤ |y - lo'| / (2 * (hi' - lo')) + 1 := by
    have e1 := abs_sub_round ((y - lo') / (2 * (hi' - lo')))
    rw [← hm] at e1
    have e2 : |(m : ℝ)| ≤ |(y - lo') / (2 * (hi' - lo'))| + |(y - lo') / (2 * (hi' - lo')) - m| := by
      have := abs_sub ((y - lo') / (2 * (hi' - lo'))) ((y - lo') / (2 * (hi' - lo')) - m)
      rwa [sub_sub_cancel] at this
    rw [abs_div, abs_of_pos (show (0 : ℝ) < 2 * (hi' - lo') by positivity)] at e2
    linarith
  have h4 : 2 * |(hi - lo) - (hi' - lo')| * |(m : ℝ)| ≤ 2 * |(hi - lo) - (hi' - lo')| * (|y - lo'| / (2 * (hi' - lo')) + 1) := mul_le_mul_of_nonneg_left h3 (by positivity)
  have h5 : lo ≤ lo' + |lo - lo'| := by linarith [le_abs_self (lo - lo')]
  linarith

/-- scipy's index reflection is the reflection at half a grid spacing outside of the grid -/
theorem reflIdx_mirror (n : ℕ) (i : Fin n) (k : ℤ) (c h : ℝ) (hh : 0 < h) :
    c + (reflIdx n i k : ℕ) * h = mirror (c - h / 2) (c + (n - 1 / 2) * h) (c + (i : ℕ) * h + k * h) := by
  have hn : 0 < n := i.pos
  have hnR : (0 : ℝ) < n := by exact_mod_cast hn
  obtain ⟨q, hq⟩ : ∃ q : ℤ, q = ((i : ℕ) : ℤ) + k := ⟨_, rfl⟩
  have hqR : (q : ℝ) = (i : ℕ) + k := by rw [hq]; push_cast; ring
  have hdiv := Int.emod_add_mul_ediv q (2 * n)
  have hm0 : 0 ≤ q % (2 * n) := Int.emod_nonneg _ (by omega)
  have hm1 : q % (2 * n) < 2 * n := Int.emod_lt_of_pos _ (by omega)
  obtain ⟨m, hm⟩ : ∃ m, m = q % (2 * n) := ⟨_, rfl⟩
  obtain ⟨r, hr⟩ : ∃ r, r = q / (2 * n) := ⟨_, rfl⟩
  rw [← hm] at hm0 hm1
  rw [← hm, ← hr] at hdiv
  have hdR : (q : ℝ) = m + 2 * n * r := by rw [← hdiv]; push_cast; ring
  have hlt : c - h / 2 < c + (n - 1 / 2) * h := by nlinarith
  have hw : c + (n - 1 / 2) * h - (c - h / 2) = n * h := by ring
  have hy : c + (i : ℕ) * h + k * h = c + q * h := by rw [hqR]; ring
  rw [hy]
  have hm0R : (0 : ℝ) ≤ m := by exact_mod_cast hm0
  unfold reflIdx
  simp only [← hq, ← hm]
  split
  · rename_i hlt'
    have hmn : (m : ℝ) + 1 ≤ n := by exact_mod_cast hlt'
    rw [mirror_of (v := (m + 1 / 2) * h) hlt (by positivity) (by rw [hw]; nlinarith) r (Or.inl (by rw [hw, hdR]; ring))]
    have : ((m.toNat : ℕ) : ℝ) = m := by
      have := Int.toNat_of_nonneg hm0
      exact_mod_cast this
    rw [this]; ring
  · rename_i hge
    have hge' : (n : ℝ) ≤ m := by exact_mod_cast (not_lt.1 hge)
    have hm1R : (m : ℝ) + 1 ≤ 2 * n := by exact_mod_cast hm1
    rw [mirror_of (v := (2 * n - m - 1 / 2) * h) hlt (by nlinarith) (by rw [hw]; nlinarith) (r + 1) (Or.inr (by rw [hw, hdR]; push_cast; ring))]
    have : (((2 * (n : ℤ) - 1 - m).toNat : ℕ) : ℝ) = 2 * n - 1 - m := by
      have := Int.toNat_of_nonneg (show 0 ≤ 2 * (n : ℤ) - 1 - m by omega)
      have h2 : (((2 * (n : ℤ) - 1 - m).toNat : ℤ) : ℝ) = ((2 * (n : ℤ) - 1 - m : ℤ) : ℝ) := by rw [this]
      push_cast at h2
      exact_mod_cast h2
    rw [this]; ring

end BL
