import Verif.Model.Float64
import Verif.Lemmas.RoundingFit
import Mathlib.Algebra.Order.Round
import Mathlib.Algebra.Order.Archimedean.Basic
import Mathlib.Tactic.Positivity
import Mathlib.Tactic.FieldSimp
import Mathlib.Tactic.NormNum

/-! # Numbers of type `float64` -/

set_option linter.unusedSectionVars false

namespace BL
variable {K : Type} [Field K] [LinearOrder K] [IsStrictOrderedRing K] {d : ℕ} {gs : Fin d → ℕ}

theorem u64_pos : (0 : K) < u64 K := by unfold u64; positivity
theorem u64_lt : u64 K < 1 := by
  unfold u64
  rw [div_lt_one (by positivity)]
  exact one_lt_pow₀ one_lt_two (by norm_num)
theorem tiny64_pos : (0 : K) < tiny64 K := by unfold tiny64; positivity

theorem float64_zero : (0 : K) ∈ float64 K := ⟨0, 0, by norm_num, by norm_num, by norm_num, by simp⟩

/-- all numbers are multiples of the smallest one -/
theorem float64_multiple {a : K} (h : a ∈ float64 K) : ∃ n : ℤ, a = n * 2 ^ (-1074 : ℤ) := by
  obtain ⟨m, e, -, h1, -, rfl⟩ := h
  obtain ⟨k, rfl⟩ : ∃ k : ℕ, e = k + -1074 := ⟨(e + 1074).toNat, by omega⟩
  refine ⟨m * 2 ^ k, ?_⟩
  rw [zpow_add₀ (by norm_num), zpow_natCast]
  push_cast
  ring

/-- sums in the range of reduced precision are exact -/
theorem float64_add {a b : K} (ha : a ∈ float64 K) (hb : b ∈ float64 K) (h : |a + b| < tiny64 K) : a + b ∈ float64 K := by
  obtain ⟨m, rfl⟩ := float64_multiple ha
  obtain ⟨n, rfl⟩ := float64_multiple hb
  refine ⟨m + n, -1074, ?_, le_rfl, by norm_num, by push_cast; ring⟩
  rw [← add_mul, abs_mul, abs_of_pos (zpow_pos (by norm_num : (0 : K) < 2) _)] at h
  have h2 : tiny64 K = 2 ^ 52 * 2 ^ (-1074 : ℤ) := by
    have : (-1074 : ℤ) = -(1074 : ℕ) := by norm_num
    rw [tiny64, this, zpow_neg, zpow_natCast, show 1074 = 52 + 1022 by norm_num, pow_add]
    field_simp
  rw [h2] at h
  have h3 : |(m + n : K)| < 2 ^ 52 := lt_of_mul_lt_mul_right h (zpow_pos (by norm_num : (0 : K) < 2) _).le
  have h4 : |m + n| < 2 ^ 52 := by exact_mod_cast h3
  exact h4.trans (by norm_num)

theorem Fl.exact {a b : K} (h : Fl a b) (ha : a ∈ float64 K) : b = a := by
  have := h.2.1 a ha
  rw [sub_self, abs_zero] at this
  exact sub_eq_zero.1 (abs_nonpos_iff.1 this)

theorem Fl.nonneg {a b : K} (h : Fl a b) (ha : 0 ≤ a) : 0 ≤ b := by
  by_contra hb
  push Not at hb
  have := h.2.1 0 float64_zero
  rw [zero_sub, abs_neg, abs_of_nonneg ha, abs_of_nonpos (by linarith)] at this
  linarith

theorem Fl.zero {b : K} (h : Fl 0 b) : b = 0 := h.exact float64_zero

variable [FloorRing K]

/-- numbers with full precision are rounded with a small relative error -/
theorem Fl.rounded {a b : K} (h : Fl a b) (ha : tiny64 K ≤ |a|) : Rounded (u64 K) a b := by
  obtain ⟨-, h1, h2⟩ := h
  have h0 : 0 < |a| := tiny64_pos.trans_le ha
  obtain ⟨n, hn1, hn2⟩ := exists_mem_Ico_zpow h0 (one_lt_two : (1 : K) < 2)
  have two : (1 : K) < 2 := one_lt_two
  have hlow : -1022 ≤ n := by
    have : (2 : K) ^ (-1022 : ℤ) < 2 ^ (n + 1) := lt_of_le_of_lt (by
      refine le_trans (le_of_eq ?_) ha
      have : (-1022 : ℤ) = -(1022 : ℕ) := by norm_num
      rw [tiny64, this, zpow_neg, zpow_natCast, one_div]) hn2
    have := (zpow_lt_zpow_iff_right₀ two).1 this
    omega
  have hhigh : n ≤ 1023 := by
    have h3 : (2 : K) ^ n < 2 ^ (1024 : ℤ) := by
      refine lt_of_le_of_lt (hn1.trans h2) ?_
      rw [show (1024 : ℤ) = (1024 : ℕ) by norm_num, zpow_natCast, show 1024 = 53 + 971 by norm_num, pow_add]
      exact mul_lt_mul_of_pos_right (by linarith) (by positivity)
    have := (zpow_lt_zpow_iff_right₀ two).1 h3
    omega
  obtain ⟨e, he⟩ : ∃ e : ℤ, e = n - 52 := ⟨_, rfl⟩
  have hE : (0 : K) < 2 ^ e := zpow_pos (by norm_num) _
  have e1 : (2 : K) ^ n = 2 ^ 52 * 2 ^ e := by
    rw [show n = (52 : ℕ) + e by omega, zpow_add₀ (by norm_num), zpow_natCast]
  have e2 : (2 : K) ^ (n + 1) = 2 ^ 53 * 2 ^ e := by
    rw [show n + 1 = (53 : ℕ) + e by omega, zpow_add₀ (by norm_num), zpow_natCast]
  rw [e1] at hn1
  rw [e2] at hn2
  obtain ⟨m, hm⟩ : ∃ m : ℤ, m = round (a / 2 ^ e) := ⟨_, rfl⟩
  have hr : |m * 2 ^ e - a| ≤ 2 ^ e / 2 := by
    have := abs_sub_round (a / (2 : K) ^ e)
    rw [← hm] at this
    have h3 : (m : K) * 2 ^ e - a = -((a / 2 ^ e - m) * 2 ^ e) := by field_simp; ring
    rw [h3, abs_neg, abs_mul, abs_of_pos hE]
    calc |a / 2 ^ e - m| * 2 ^ e ≤ 1 / 2 * 2 ^ e := mul_le_mul_of_nonneg_right this hE.le
      _ = 2 ^ e / 2 := by ring
  have hma : |(m : K)| ≤ |a| / 2 ^ e + 1 / 2 := by
    have := abs_sub_round (a / (2 : K) ^ e)
    rw [← hm] at this
    have h4 : |(m : K)| ≤ |a / 2 ^ e| + |a / 2 ^ e - m| := by
      have := abs_sub (a / 2 ^ e) (a / 2 ^ e - m)
      rwa [sub_sub_cancel] at this
    rw [abs_div, abs_of_pos hE] at h4
    linarith
  have hm53 : |m| ≤ 2 ^ 53 := by
    have h3 : |a| / 2 ^ e < 2 ^ 53 := by rw [div_lt_iff₀ hE]; exact hn2
    have h4 : |(m : K)| < 2 ^ 53 + 1 := by linarith
    have h5 : |m| < 2 ^ 53 + 1 := by exact_mod_cast h4
    omega
  have hc : (m : K) * 2 ^ e ∈ float64 K := by
    rcases lt_or_eq_of_le hm53 with h3 | h3
    · exact ⟨m, e, h3, by omega, by omega, rfl⟩
    · rcases lt_or_eq_of_le (show e ≤ 971 by omega) with h4 | h4
      · rcases abs_eq (by positivity) |>.1 h3 with h5 | h5
        · refine ⟨2 ^ 52, e + 1, by norm_num, by omega, by omega, ?_⟩
          rw [h5, zpow_add₀ (by norm_num)]; push_cast; ring
        · refine ⟨-2 ^ 52, e + 1, by norm_num, by omega, by omega, ?_⟩
          rw [h5, zpow_add₀ (by norm_num)]; push_cast; ring
      · exfalso
        have h5 : |a| / 2 ^ e ≤ 2 ^ 53 - 1 := by
          rw [div_le_iff₀ hE, h4]
          simpa using h2
        have h6 : |(m : K)| < 2 ^ 53 := by linarith
        have h7 : |m| < 2 ^ 53 := by exact_mod_cast h6
        omega
  refine (h1 _ hc).trans (hr.trans ?_)
  rw [u64]
  have : (2 : K) ^ e / 2 = 1 / 2 ^ 53 * (2 ^ 52 * 2 ^ e) := by field_simp
  rw [this]
  exact mul_le_mul_of_nonneg_left hn1 (by positivity)

/-- products and quotients that are zero or have full precision -/
theorem Fl.rounded' {a b : K} (h : Fl a b) (ha : a = 0 ∨ tiny64 K ≤ a) : Rounded (u64 K) a b := by
  rcases ha with rfl | ha
  · rw [h.zero, Rounded]; simp
  · exact h.rounded (ha.trans (le_abs_self a))

/-- sums -/
theorem Fl.rounded_add {a b r : K} (h : Fl (a + b) r) (ha : a ∈ float64 K) (hb : b ∈ float64 K) : Rounded (u64 K) (a + b) r := by
  rcases lt_or_ge |a + b| (tiny64 K) with h1 | h1
  · rw [h.exact (float64_add ha hb h1), Rounded, sub_self, abs_zero]
    exact mul_nonneg u64_pos.le (abs_nonneg _)
  · exact h.rounded h1

theorem FSum.rsum {m : Multiset K} {r : K} (h : FSum m r) : (∀ a ∈ m, a ∈ float64 K) → r ∈ float64 K ∧ RSum (u64 K) m r := by
  induction h with
  | single a => exact fun h => ⟨h a (by simp), .single a⟩
  | add h1 h2 h3 i1 i2 =>
      intro h
      obtain ⟨k1, k2⟩ := i1 fun a ha => h a (by simp [ha])
      obtain ⟨l1, l2⟩ := i2 fun a ha => h a (by simp [ha])
      exact ⟨h3.1, .add k2 l2 (h3.rounded_add k1 l1)⟩

theorem FSumGrid.rsum {p : Idx gs → K} {s : K} (h : FSumGrid p s) (hp : ∀ x, p x ∈ float64 K) : s ∈ float64 K ∧ RSumGrid (u64 K) p s :=
  FSum.rsum h fun a ha => by obtain ⟨x, -, rfl⟩ := Multiset.mem_map.1 ha; exact hp x

end BL
