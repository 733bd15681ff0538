import Verif.Model.RoundingHyper
import Verif.Spec.Accuracy
import Verif.Lemmas.Rounding
import Mathlib.Analysis.SpecialFunctions.Log.Basic
import Mathlib.Analysis.SpecialFunctions.Exp
import Mathlib.Analysis.Complex.ExponentialBounds
import Mathlib.Tactic.Linarith
import Mathlib.Tactic.Positivity
import Mathlib.Tactic.FieldSimp
import Mathlib.Tactic.Ring
import Mathlib.Tactic.NormNum

/-! # Rounding errors of computations in log-space -/

set_option linter.unusedSectionVars false

namespace BL
open Spec

/-! ## Logarithms -/

theorem log_close {x y δ : ℝ} (hx : 0 < x) (hy : 0 < y) (h1 : x ≤ Real.exp δ * y) (h2 : y ≤ Real.exp δ * x) : |Real.log x - Real.log y| ≤ δ := by
  have h3 := Real.log_le_log hx h1
  have h4 := Real.log_le_log hy h2
  rw [Real.log_mul (Real.exp_pos _).ne' hy.ne', Real.log_exp] at h3
  rw [Real.log_mul (Real.exp_pos _).ne' hx.ne', Real.log_exp] at h4
  rw [abs_le]
  constructor <;> linarith

theorem exp_close {a b δ : ℝ} (h : |a - b| ≤ δ) : Real.exp a ≤ Real.exp δ * Real.exp b := by
  rw [← Real.exp_add]
  exact Real.exp_le_exp.2 (by linarith [(abs_le.1 h).2])

theorem exp_le_of_log {a x δ : ℝ} (hx : 0 < x) (h : |a - Real.log x| ≤ δ) : Real.exp a ≤ Real.exp δ * x ∧ x ≤ Real.exp δ * Real.exp a := by
  have h1 := exp_close h
  have h' : |Real.log x - a| ≤ δ := by rwa [abs_sub_comm]
  have h2 := exp_close h'
  rw [Real.exp_log hx] at h1 h2
  exact ⟨h1, h2⟩

/-- `1 - κ ≥ exp(-2κ)` -/
theorem one_sub_ge {κ : ℝ} (h0 : 0 ≤ κ) (h1 : κ ≤ 1 / 2) : Real.exp (-(2 * κ)) ≤ 1 - κ := by
  have h2 : 1 ≤ (1 - κ) * (1 + 2 * κ) := by nlinarith
  have h3 : (1 - κ) * (1 + 2 * κ) ≤ (1 - κ) * Real.exp (2 * κ) := mul_le_mul_of_nonneg_left (by linarith [Real.add_one_le_exp (2 * κ)]) (by linarith)
  rw [Real.exp_neg, inv_le_iff_one_le_mul₀ (Real.exp_pos _)]
  linarith

/-! ## Sums of logarithms -/

/-- error of the sum of three log-space numbers -/
theorem near_three {κ M x y z a b c l : ℝ} (h0 : 0 ≤ κ) (hκ : κ ≤ 1 / 10) (hM : 1 + |x| + |y| + |z| ≤ M) (h1 : Near κ x a) (h2 : Near κ (a + y) b) (h3 : Near κ z c) (h4 : Near κ (b + c) l) :
    |l - (x + y + z)| ≤ 5 * κ * M := by
  unfold Near at *
  have hx := abs_nonneg x
  have hy := abs_nonneg y
  have hz := abs_nonneg z
  have hM0 : 0 ≤ M := by linarith
  have e1 : |a - x| ≤ κ * M := h1.trans (mul_le_mul_of_nonneg_left (by linarith) h0)
  have e3 : |c - z| ≤ κ * M := h3.trans (mul_le_mul_of_nonneg_left (by linarith) h0)
  have b1 : |a + y| ≤ |x| + |y| + κ * M := by
    calc |a + y| = |(a - x) + x + y| := by ring_nf
      _ ≤ |a - x| + |x| + |y| := abs_add_three _ _ _
      _ ≤ _ := by linarith
  have e2 : |b - (a + y)| ≤ κ * (M + κ * M) := h2.trans (mul_le_mul_of_nonneg_left (by linarith) h0)
  have b2 : |b + c| ≤ |x| + |y| + |z| + (2 * (κ * M) + κ * (M + κ * M)) := by
    calc |b + c| = |(b - (a + y)) + (a + y) + ((c - z) + z)| := by ring_nf
      _ ≤ |b - (a + y)| + |a + y| + |(c - z) + z| := abs_add_three _ _ _
      _ ≤ |b - (a + y)| + |a + y| + (|c - z| + |z|) := by linarith [abs_add_le (c - z) z]
      _ ≤ _ := by linarith
  have e4 : |l - (b + c)| ≤ κ * (M + (2 * (κ * M) + κ * (M + κ * M))) := h4.trans (mul_le_mul_of_nonneg_left (by linarith) h0)
  have e5 : |l - (x + y + z)| ≤ |l - (b + c)| + |b - (a + y)| + (|a - x| + |c - z|) := by
    calc |l - (x + y + z)| = |(l - (b + c)) + (b - (a + y)) + ((a - x) + (c - z))| := by ring_nf
      _ ≤ |l - (b + c)| + |b - (a + y)| + |(a - x) + (c - z)| := abs_add_three _ _ _
      _ ≤ _ := by linarith [abs_add_le (a - x) (c - z)]
  have hκM : 0 ≤ κ * M := mul_nonneg h0 hM0
  have : κ * (M + (2 * (κ * M) + κ * (M + κ * M))) + κ * (M + κ * M) + (κ * M + κ * M) = κ * M * (4 + 4 * κ + κ * κ) := by ring
  have h6 : κ * M * (4 + 4 * κ + κ * κ) ≤ κ * M * 5 := mul_le_mul_of_nonneg_left (by nlinarith) hκM
  linarith

/-- `np.exp` of a log-space number -/
noncomputable def expO : Option ℝ → ℝ
  | none => 0
  | some a => Real.exp a

theorem expO_nonneg (o : Option ℝ) : 0 ≤ expO o := by cases o <;> simp [expO, Real.exp_nonneg]

theorem sum_exp_bounds {l : Multiset (Option ℝ)} {B : ℝ} {n : ℕ} (hB : ∀ a, some a ∈ l → |a| ≤ B) (hc : l.card ≤ n) (hS : 0 < (l.map expO).sum) :
    |Real.log (l.map expO).sum| ≤ B + Real.log n := by
  have hn : 0 < l.card := by
    rw [Multiset.card_pos]; rintro rfl; simp at hS
  have hn' : (1 : ℝ) ≤ n := by exact_mod_cast (by omega : 1 ≤ n)
  have hu : (l.map expO).sum ≤ n * Real.exp B := by
    have h1 : (l.map expO).sum ≤ (l.map expO).card • Real.exp B := by
      apply Multiset.sum_le_card_nsmul
      intro y hy
      obtain ⟨o, ho, rfl⟩ := Multiset.mem_map.1 hy
      cases o with
      | none => exact Real.exp_nonneg _
      | some a => exact Real.exp_le_exp.2 ((le_abs_self a).trans (hB a ho))
    rw [Multiset.card_map, nsmul_eq_mul] at h1
    exact h1.trans (mul_le_mul_of_nonneg_right (by exact_mod_cast hc) (Real.exp_nonneg _))
  have hl : Real.exp (-B) ≤ (l.map expO).sum := by
    by_contra hlt
    have h0 : ∀ y ∈ l.map expO, y = 0 := by
      intro y hy
      obtain ⟨o, ho, rfl⟩ := Multiset.mem_map.1 hy
      cases o with
      | none => rfl
      | some a =>
          exfalso
          have h1 : expO (some a) ≤ (l.map expO).sum := Multiset.single_le_sum (fun y hy => by obtain ⟨o, -, rfl⟩ := Multiset.mem_map.1 hy; exact expO_nonneg o) _ hy
          have h2 : Real.exp (-B) ≤ Real.exp a := Real.exp_le_exp.2 (by linarith [neg_abs_le a, hB a ho])
          exact hlt (h2.trans h1)
    rw [Multiset.sum_eq_zero h0] at hS
    exact lt_irrefl _ hS
  have h1 := Real.log_le_log hS hu
  have h2 := Real.log_le_log (Real.exp_pos _) hl
  rw [Real.log_mul (by linarith) (Real.exp_pos _).ne', Real.log_exp] at h1
  rw [Real.log_exp] at h2
  have h3 := Real.log_nonneg hn'
  rw [abs_le]
  constructor <;> linarith

/-- accuracy of repeated `np.logaddexp` -/
theorem RLogAdd.spec {κ M : ℝ} {n : ℕ} (h0 : 0 ≤ κ) (hM1 : 1 ≤ M) (hn : 2 * κ * M * n ≤ 1 / 2) {l : Multiset (Option ℝ)} {r : Option ℝ} (h : RLogAdd κ l r) :
    (∀ a, some a ∈ l → 1 + |a| + Real.log n ≤ M) → l.card ≤ n →
      (r = none → (l.map expO).sum = 0) ∧ ∀ s, r = some s → 0 < (l.map expO).sum ∧ |s - Real.log (l.map expO).sum| ≤ 2 * κ * M * l.card := by
  have hκM : 0 ≤ 2 * κ * M := by positivity
  induction h with
  | start => intro _ _; simp
  | single a =>
      intro _ _
      cases a with
      | none => simp [expO]
      | some a => simp [expO, Real.exp_pos]; positivity
  | @left l l' r h1 h2 ih1 ih2 =>
      intro hb hc
      rw [Multiset.card_add] at hc
      have k1 := (ih1 (fun a ha => hb a (Multiset.mem_add.2 (Or.inl ha))) (by omega)).1 rfl
      have k2 := ih2 (fun a ha => hb a (Multiset.mem_add.2 (Or.inr ha))) (by omega)
      rw [Multiset.map_add, Multiset.sum_add, k1, zero_add]
      refine ⟨k2.1, fun s hs => ⟨(k2.2 s hs).1, (k2.2 s hs).2.trans (mul_le_mul_of_nonneg_left ?_ hκM)⟩⟩
      exact_mod_cast (by rw [Multiset.card_add]; omega)
  | @right l l' r h1 h2 ih1 ih2 =>
      intro hb hc
      rw [Multiset.card_add] at hc
      have k1 := ih1 (fun a ha => hb a (Multiset.mem_add.2 (Or.inl ha))) (by omega)
      have k2 := (ih2 (fun a ha => hb a (Multiset.mem_add.2 (Or.inr ha))) (by omega)).1 rfl
      rw [Multiset.map_add, Multiset.sum_add, k2, add_zero]
      refine ⟨k1.1, fun s hs => ⟨(k1.2 s hs).1, (k1.2 s hs).2.trans (mul_le_mul_of_nonneg_left ?_ hκM)⟩⟩
      exact_mod_cast (by rw [Multiset.card_add]; omega)
  | @add l l' s s' r h1 h2 h3 ih1 ih2 =>
      intro hb hc
      have hc' := hc
      rw [Multiset.card_add] at hc
      obtain ⟨p1, e1⟩ := (ih1 (fun a ha => hb a (Multiset.mem_add.2 (Or.inl ha))) (by omega)).2 s rfl
      obtain ⟨p2, e2⟩ := (ih2 (fun a ha => hb a (Multiset.mem_add.2 (Or.inr ha))) (by omega)).2 s' rfl
      refine ⟨fun h => by simp at h, fun r' hr' => ?_⟩
      cases hr'
      have c1 : 1 ≤ l.card := by rw [Nat.one_le_iff_ne_zero, Ne, Multiset.card_eq_zero]; rintro rfl; simp at p1
      have c2 : 1 ≤ l'.card := by rw [Nat.one_le_iff_ne_zero, Ne, Multiset.card_eq_zero]; rintro rfl; simp at p2
      have hsum : ((l + l').map expO).sum = (l.map expO).sum + (l'.map expO).sum := by rw [Multiset.map_add, Multiset.sum_add]
      have hpos : 0 < ((l + l').map expO).sum := by rw [hsum]; exact add_pos p1 p2
      refine ⟨hpos, ?_⟩
      obtain ⟨δ, hδ⟩ : ∃ δ, δ = 2 * κ * M * ((l + l').card - 1 : ℝ) := ⟨_, rfl⟩
      have hcard : ((l + l').card : ℝ) = l.card + l'.card := by rw [Multiset.card_add]; push_cast; ring
      have c1' : (1 : ℝ) ≤ l.card := by exact_mod_cast c1
      have c2' : (1 : ℝ) ≤ l'.card := by exact_mod_cast c2
      have d1 : |s - Real.log (l.map expO).sum| ≤ δ := e1.trans (by rw [hδ]; exact mul_le_mul_of_nonneg_left (by linarith) hκM)
      have d2 : |s' - Real.log (l'.map expO).sum| ≤ δ := e2.trans (by rw [hδ]; exact mul_le_mul_of_nonneg_left (by linarith) hκM)
      have q1 := exp_le_of_log p1 d1
      have q2 := exp_le_of_log p2 d2
      have d3 : |Real.log (Real.exp s + Real.exp s') - Real.log ((l + l').map expO).sum| ≤ δ := by
        apply log_close (add_pos (Real.exp_pos _) (Real.exp_pos _)) hpos
        · rw [hsum, mul_add]; exact add_le_add q1.1 q2.1
        · rw [hsum, mul_add]; exact add_le_add q1.2 q2.2
      have d4 := sum_exp_bounds (B := M - 1 - Real.log n) (fun a ha => by linarith [hb a ha]) hc' hpos
      have hδ1 : δ ≤ 1 / 2 := by
        refine le_trans ?_ hn
        rw [hδ]
        exact mul_le_mul_of_nonneg_left (by have : ((l + l').card : ℝ) ≤ n := by exact_mod_cast hc'
                                            linarith) hκM
      have d5 : |Real.log (Real.exp s + Real.exp s')| ≤ M - 1 + δ := by
        have := abs_sub_abs_le_abs_sub (Real.log (Real.exp s + Real.exp s')) (Real.log ((l + l').map expO).sum)
        linarith
      have d6 : |r - Real.log (Real.exp s + Real.exp s')| ≤ κ * (2 * M) := h3.trans (mul_le_mul_of_nonneg_left (by linarith) h0)
      have d7 := abs_sub_le r (Real.log (Real.exp s + Real.exp s')) (Real.log ((l + l').map expO).sum)
      have : 2 * κ * M * ((l + l').card : ℝ) = κ * (2 * M) + δ := by rw [hδ]; ring
      linarith

/-! ## Back to linear space -/

theorem exp_le_inv {x : ℝ} (h : x < 1) : Real.exp x ≤ 1 / (1 - x) := by
  have h1 := Real.one_sub_le_exp_neg x
  rw [Real.exp_neg] at h1
  rw [le_div_iff₀ (by linarith)]
  have := mul_le_mul_of_nonneg_left h1 (Real.exp_pos x).le
  rwa [mul_inv_cancel₀ (Real.exp_pos x).ne'] at this

theorem pow_one_sub_ge {κ : ℝ} (h0 : 0 ≤ κ) (h1 : κ ≤ 1 / 2) (k : ℕ) : Real.exp (-(2 * κ * k)) ≤ (1 - κ) ^ k := by
  have := pow_le_pow_left₀ (Real.exp_nonneg _) (one_sub_ge h0 h1) k
  rw [← Real.exp_nat_mul] at this
  rwa [show (k : ℝ) * -(2 * κ) = -(2 * κ * k) by ring] at this

variable {ι : Type} [Fintype ι]

/-- The sum of the shifted values is accurate. -/
theorem sum_close {κ τ a : ℝ} {v w : ι → ℝ} {s : ℝ} {N : ℕ} (hN : N = Fintype.card ι) (h0 : 0 ≤ κ) (hκ : κ ≤ 1 / 10) (hτ : 0 ≤ τ) (hτN : N * τ ≤ 1 / 64) (ha0 : 0 ≤ a) (ha : a ≤ 1 / 4)
    (hv : ∀ x, 0 ≤ v x) (h1 : ∀ x, v x ≤ Real.exp a * w x + τ) (h2 : ∀ x, w x ≤ Real.exp a * (v x + τ)) (hW : 1 / 4 ≤ ∑ x, w x) (hs : RSum κ (Finset.univ.val.map v) s) :
    s ≤ Real.exp (sumAcc κ τ a N) * ∑ x, w x ∧ ∑ x, w x ≤ Real.exp (sumAcc κ τ a N) * s ∧ 0 < s := by
  obtain ⟨W, hWd⟩ : ∃ W, W = ∑ x, w x := ⟨_, rfl⟩
  obtain ⟨V, hVd⟩ : ∃ V, V = ∑ x, v x := ⟨_, rfl⟩
  rw [← hWd] at hW ⊢
  have hsum : (Finset.univ.val.map v).sum = V := hVd.symm
  have hcard : (Finset.univ.val.map v).card = N := by rw [Multiset.card_map, hN]; rfl
  have hW0 : 0 < W := by linarith
  have hNτ : 0 ≤ N * τ := by positivity
  have h3 : V ≤ Real.exp a * W + N * τ := by
    rw [hVd, hWd, Finset.mul_sum, hN]
    calc ∑ x, v x ≤ ∑ x, (Real.exp a * w x + τ) := Finset.sum_le_sum fun x _ => h1 x
      _ = _ := by rw [Finset.sum_add_distrib, Finset.sum_const, Finset.card_univ, nsmul_eq_mul]
  have h4 : W ≤ Real.exp a * (V + N * τ) := by
    rw [hVd, hWd, hN]
    calc ∑ x, w x ≤ ∑ x, (Real.exp a * (v x + τ)) := Finset.sum_le_sum fun x _ => h2 x
      _ = _ := by rw [← Finset.mul_sum, Finset.sum_add_distrib, Finset.sum_const, Finset.card_univ, nsmul_eq_mul]
  have hea : 1 ≤ Real.exp a := Real.one_le_exp ha0
  have hea' : Real.exp a ≤ 4 / 3 := (exp_le_inv (by linarith)).trans (by rw [div_le_div_iff₀ (by linarith) (by norm_num)]; linarith)
  have hV0 : 0 ≤ V := by rw [hVd]; exact Finset.sum_nonneg fun x _ => hv x
  -- the exact sum of the computed values
  have h5 : V ≤ Real.exp (a + 12 * N * τ) * W := by
    have e1 : N * τ ≤ Real.exp a * W * (4 * (N * τ)) := by
      have : 1 ≤ Real.exp a * W * 4 := by nlinarith
      nlinarith
    have e2 : 1 + 4 * (N * τ) ≤ Real.exp (12 * N * τ) := by
      have := Real.add_one_le_exp (12 * N * τ)
      linarith
    calc V ≤ Real.exp a * W * (1 + 4 * (N * τ)) := by linarith
      _ ≤ Real.exp a * W * Real.exp (12 * N * τ) := mul_le_mul_of_nonneg_left e2 (by positivity)
      _ = _ := by rw [Real.exp_add]; ring
  have h6 : W ≤ Real.exp (a + 12 * N * τ) * V := by
    have e1 : Real.exp a * (N * τ) ≤ W * (6 * (N * τ)) := by
      have : Real.exp a ≤ W * 6 := by linarith
      nlinarith
    have e2 : W * (1 - 6 * (N * τ)) ≤ Real.exp a * V := by nlinarith
    have e3 := one_sub_ge (κ := 6 * (N * τ)) (by linarith) (by linarith)
    have e4 : W * Real.exp (-(2 * (6 * (N * τ)))) ≤ Real.exp a * V := (mul_le_mul_of_nonneg_left e3 hW0.le).trans e2
    rw [Real.exp_neg, ← div_eq_mul_inv, div_le_iff₀ (Real.exp_pos _)] at e4
    refine e4.trans (le_of_eq ?_)
    rw [Real.exp_add]
    ring_nf
  have hV : 0 < V := by
    by_contra hn
    have : V = 0 := le_antisymm (not_lt.1 hn) hV0
    rw [this, mul_zero] at h6
    linarith
  -- rounding of the sum
  have hacc := hs.acc h0 (by linarith) (by intro y hy; obtain ⟨x, -, rfl⟩ := Multiset.mem_map.1 hy; exact hv x)
  rw [hsum, hcard] at hacc
  have hp := pow_one_sub_ge h0 (by linarith) (N - 1)
  have hp' : Real.exp (-(2 * κ * N)) ≤ (1 - κ) ^ (N - 1) := by
    refine le_trans (Real.exp_le_exp.2 ?_) hp
    have : ((N - 1 : ℕ) : ℝ) ≤ N := by exact_mod_cast Nat.sub_le N 1
    nlinarith
  have h7 : s ≤ Real.exp (2 * κ * N) * V := by
    have := (mul_le_mul_of_nonneg_right hp' hacc.right).trans hacc.upper
    rw [Real.exp_neg, inv_mul_le_iff₀ (Real.exp_pos _)] at this
    exact this
  have h8 : V ≤ Real.exp (2 * κ * N) * s := by
    have := (mul_le_mul_of_nonneg_right hp' hacc.left).trans hacc.lower
    rw [Real.exp_neg, inv_mul_le_iff₀ (Real.exp_pos _)] at this
    exact this
  have hs0 : 0 < s := by
    by_contra hn
    have : Real.exp (2 * κ * N) * s ≤ 0 := mul_nonpos_of_nonneg_of_nonpos (Real.exp_nonneg _) (not_lt.1 hn)
    linarith
  have he : Real.exp (sumAcc κ τ a N) = Real.exp (2 * κ * N) * Real.exp (a + 12 * N * τ) := by rw [← Real.exp_add, sumAcc]; congr 1; ring
  refine ⟨?_, ?_, hs0⟩
  · rw [he, mul_assoc]
    exact h7.trans (mul_le_mul_of_nonneg_left h5 (Real.exp_nonneg _))
  · rw [he, mul_comm (Real.exp (2 * κ * N)), mul_assoc]
    exact h6.trans (mul_le_mul_of_nonneg_left h8 (Real.exp_nonneg _))

/-- The quotients are accurate. -/
theorem quot_close {κ τ a v w s W q σ : ℝ} (h0 : 0 ≤ κ) (hκ : κ ≤ 1 / 10) (hτ : 0 ≤ τ) (hσ : σ ≤ 9 / 16) (hw : 0 ≤ w)
    (h1 : v ≤ Real.exp a * w + τ) (h2 : w ≤ Real.exp a * (v + τ)) (hv : 0 ≤ v) (hW : 1 / 4 ≤ W) (h3 : s ≤ Real.exp σ * W) (h4 : W ≤ Real.exp σ * s) (hs : 0 < s) (hq : RTiny κ τ (v / s) q) :
    |q - w / W| ≤ (Real.exp (2 * κ + a + σ) - 1) * (w / W) + 16 * τ := by
  have hW0 : 0 < W := by linarith
  obtain ⟨hq0, hq1⟩ := hq
  rw [abs_le] at hq1
  have hp0 : 0 ≤ w / W := by positivity
  have heσ : Real.exp σ ≤ 16 / 7 := (exp_le_inv (by linarith)).trans (by rw [div_le_div_iff₀ (by linarith) (by norm_num)]; linarith)
  have hτs : τ / s ≤ 64 / 7 * τ := by
    rw [div_le_iff₀ hs]
    have : 1 / 4 ≤ 16 / 7 * s := hW.trans (h4.trans (mul_le_mul_of_nonneg_right heσ hs.le))
    nlinarith
  have hvs : v / s ≤ Real.exp (a + σ) * (w / W) + 64 / 7 * τ := by
    have e1 : v / s ≤ Real.exp a * w / s + τ / s := by rw [← add_div]; exact div_le_div_of_nonneg_right h1 hs.le
    have e2 : Real.exp a * w / s ≤ Real.exp (a + σ) * (w / W) := by
      have r : 1 / s ≤ Real.exp σ / W := by rw [div_le_div_iff₀ hs hW0]; linarith
      have := mul_le_mul_of_nonneg_left r (by positivity : 0 ≤ Real.exp a * w)
      rw [Real.exp_add]
      calc Real.exp a * w / s = Real.exp a * w * (1 / s) := by ring
        _ ≤ _ := this
        _ = _ := by ring
    linarith
  have hvs' : w / W ≤ Real.exp (a + σ) * (v / s + 64 / 7 * τ) := by
    have r : 1 / W ≤ Real.exp σ / s := by rw [div_le_div_iff₀ hW0 hs]; linarith
    calc w / W = w * (1 / W) := by ring
      _ ≤ w * (Real.exp σ / s) := mul_le_mul_of_nonneg_left r hw
      _ ≤ Real.exp a * (v + τ) * (Real.exp σ / s) := mul_le_mul_of_nonneg_right h2 (by positivity)
      _ = Real.exp (a + σ) * (v / s + τ / s) := by rw [Real.exp_add]; ring
      _ ≤ _ := mul_le_mul_of_nonneg_left (by linarith) (Real.exp_nonneg _)
  have hvs0 : 0 ≤ v / s := by positivity
  have hup : q ≤ Real.exp (2 * κ + a + σ) * (w / W) + 16 * τ := by
    have e1 : (1 + κ) * Real.exp (a + σ) ≤ Real.exp (2 * κ + a + σ) := by
      rw [add_assoc, Real.exp_add (2 * κ)]
      exact mul_le_mul_of_nonneg_right (by linarith [Real.add_one_le_exp (2 * κ)]) (Real.exp_nonneg _)
    have e2 := mul_le_mul_of_nonneg_right e1 hp0
    nlinarith
  have hlo : Real.exp (-(2 * κ + a + σ)) * (w / W) ≤ q + 16 * τ := by
    have e1 := one_sub_ge h0 (by linarith : κ ≤ 1 / 2)
    have e2 : Real.exp (-(a + σ)) * (w / W) ≤ v / s + 64 / 7 * τ := by
      rw [Real.exp_neg, inv_mul_le_iff₀ (Real.exp_pos _)]; exact hvs'
    have e3 : Real.exp (-(2 * κ + a + σ)) = Real.exp (-(2 * κ)) * Real.exp (-(a + σ)) := by rw [← Real.exp_add]; congr 1; ring
    rw [e3, mul_assoc]
    have e4 := mul_le_mul e1 e2 (by positivity) (by linarith)
    nlinarith
  have h5 := Real.add_one_le_exp (2 * κ + a + σ)
  have h6 := Real.add_one_le_exp (-(2 * κ + a + σ))
  rw [abs_le]
  constructor <;> nlinarith

end BL
