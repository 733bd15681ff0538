import Verif.Lemmas.Forget
import Verif.Lemmas.RoundingFit
import Mathlib.Algebra.BigOperators.Intervals

/-! # Rounding errors in models that forget their initial distribution -/

set_option linter.unusedSectionVars false

namespace Spec
open BL

variable {ι K : Type} [Fintype ι] [DecidableEq ι] [Field K] [LinearOrder K] [IsStrictOrderedRing K] {T : ℕ → ι → ι → K} {L : ℕ → ι → K}

/-- bounds for the ratio of two distributions after whole windows -/
theorem within_windows {C : K} (hC : 1 ≤ C) {w : ℕ} (hT : ∀ i x y, 0 ≤ T i x y) (hL : ∀ i x, 0 ≤ L i x) (hmix : ∀ k, Mixes (between T L k w) C) {π π' : ι → K} (hπ : ∀ x, 0 ≤ π x) {m M δ : K}
    (hm : 0 < m) (hmM : m ≤ M) (hδ : 0 ≤ δ) (hd : M - m ≤ δ * m) (h : ∀ x, m * π x ≤ π' x ∧ π' x ≤ M * π x) :
    ∀ j : ℕ, ∃ m' M', 0 < m' ∧ m' ≤ M' ∧ M' - m' ≤ (1 - 1 / C) ^ j * δ * m' ∧
      ∀ x, m' * predict T L π (j * (w + 1)) x ≤ predict T L π' (j * (w + 1)) x ∧ predict T L π' (j * (w + 1)) x ≤ M' * predict T L π (j * (w + 1)) x
  | 0 => ⟨m, M, hm, hmM, by rwa [pow_zero, one_mul], by rw [Nat.zero_mul]; exact h⟩
  | j + 1 => by
      obtain ⟨m1, M1, h1, h2, h3, h4⟩ := within_windows hC hT hL hmix hπ hm hmM hδ hd h j
      have hp := predict_nonneg (k := j * (w + 1)) hπ (fun i _ => hT i) fun i _ => hL i
      obtain ⟨m', M', k1, k2, k3, k4, k5⟩ := mixes_contract hC (hmix (j * (w + 1))) (a := fun x => predict T L π (j * (w + 1)) x * L (j * (w + 1)) x)
        (b := fun x => predict T L π' (j * (w + 1)) x * L (j * (w + 1)) x) (fun x => mul_nonneg (hp x) (hL _ x)) h2 fun x => by
          rw [← mul_assoc, ← mul_assoc]
          exact ⟨mul_le_mul_of_nonneg_right (h4 x).1 (hL _ x), mul_le_mul_of_nonneg_right (h4 x).2 (hL _ x)⟩
      have hC0 : 0 < C := zero_lt_one.trans_le hC
      have hq : 0 ≤ 1 - 1 / C := by rw [sub_nonneg, div_le_one hC0]; exact hC
      refine ⟨m', M', h1.trans_le k1, k2, ?_, fun y => ?_⟩
      · rw [k4]
        calc (1 - 1 / C) * (M1 - m1) ≤ (1 - 1 / C) * ((1 - 1 / C) ^ j * δ * m1) := mul_le_mul_of_nonneg_left h3 hq
          _ = (1 - 1 / C) ^ (j + 1) * δ * m1 := by ring
          _ ≤ (1 - 1 / C) ^ (j + 1) * δ * m' := mul_le_mul_of_nonneg_left k1 (mul_nonneg (pow_nonneg hq _) hδ)
      · rw [show (j + 1) * (w + 1) = j * (w + 1) + w + 1 by ring, predict_between, predict_between]
        exact k5 y

/-- … and after any number of steps -/
theorem within_any {C : K} (hC : 1 ≤ C) {w : ℕ} (hT : ∀ i x y, 0 ≤ T i x y) (hL : ∀ i x, 0 ≤ L i x) (hmix : ∀ k, Mixes (between T L k w) C) {π π' : ι → K} (hπ : ∀ x, 0 ≤ π x) {m M δ : K}
    (hm : 0 < m) (hmM : m ≤ M) (hδ : 0 ≤ δ) (hd : M - m ≤ δ * m) (h : ∀ x, m * π x ≤ π' x ∧ π' x ≤ M * π x) (n : ℕ) :
    ∃ m' M', 0 < m' ∧ m' ≤ M' ∧ M' - m' ≤ (1 - 1 / C) ^ (n / (w + 1)) * δ * m' ∧ ∀ x, m' * predict T L π n x ≤ predict T L π' n x ∧ predict T L π' n x ≤ M' * predict T L π n x := by
  obtain ⟨m', M', h1, h2, h3, h4⟩ := within_windows hC hT hL hmix hπ hm hmM hδ hd h (n / (w + 1))
  refine ⟨m', M', h1, h2, h3, ?_⟩
  have := within_steps h4 (s := n % (w + 1)) (fun i _ => hT i) fun i _ => hL i
  rwa [mul_comm (n / (w + 1)), Nat.div_add_mod] at this

theorem acc_within {u : K} (hu : 0 ≤ u) (hu1 : u < 1) {N : ℕ} {c : K} (hc : 0 < c) {a b : ι → K} (h : ∀ x, Acc u N (a x) (c * b x)) :
    ∃ m M, 0 < m ∧ m ≤ M ∧ M - m ≤ (1 / (1 - u) ^ (2 * N) - 1) * m ∧ ∀ x, m * a x ≤ b x ∧ b x ≤ M * a x := by
  have hp : 0 < (1 - u) ^ N := pow_pos (by linarith) N
  have hp1 : (1 - u) ^ N ≤ 1 := pow_le_one₀ (by linarith) (by linarith)
  refine ⟨(1 - u) ^ N / c, 1 / ((1 - u) ^ N * c), by positivity, ?_, le_of_eq ?_, fun x => ⟨?_, ?_⟩⟩
  · rw [div_le_div_iff₀ hc (by positivity)]
    nlinarith [mul_pos hp hc, mul_le_mul_of_nonneg_left hp1 (mul_pos hp hc).le]
  · rw [mul_comm 2 N, pow_mul]
    field_simp
  · rw [div_mul_eq_mul_div, div_le_iff₀ hc, mul_comm (b x)]
    exact (h x).lower
  · rw [one_div_mul_eq_div, le_div_iff₀ (by positivity)]
    have := (h x).upper
    linarith

theorem one_le_inv_pow {u : K} (hu : 0 ≤ u) (hu1 : u < 1) (N : ℕ) : 0 ≤ 1 / (1 - u) ^ N - 1 := by
  have hp : 0 < (1 - u) ^ N := pow_pos (by linarith) N
  have hp1 : (1 - u) ^ N ≤ 1 := pow_le_one₀ (by linarith) (by linarith)
  rw [sub_nonneg, le_div_iff₀ hp]
  linarith

/-- **The errors of all steps together.** `a k`: computed arrays, each of them close to the array that the exact step gives for its predecessor (up to a factor).  The error of step `k` shrinks in the
following steps. -/
theorem errors_fade {u : K} (hu : 0 ≤ u) (hu1 : u < 1) {C : K} (hC : 1 ≤ C) {w r : ℕ} {F : ι → K} (hF : ∀ x, 0 ≤ F x) :
    ∀ (n : ℕ) {T : ℕ → ι → ι → K} {L : ℕ → ι → K} (_ : ∀ i x y, 0 ≤ T i x y) (_ : ∀ i x, 0 ≤ L i x) (_ : ∀ k, Mixes (between T L k w) C) {eP : ℕ} {a : ℕ → ι → K} {b : ι → K} {c : K}
      (_ : 0 < c) (_ : ∀ x, Acc u eP (b x) (c * a 0 x)) (_ : ∀ k < n, ∃ c, 0 < c ∧ ∀ x, Acc u r (advance (T k) (L k) (a k) x) (c * a (k + 1) x)) (_ : 0 < ∑ x, predict T L b n x * F x),
      0 < ∑ x, a n x * F x ∧ ∑ x, |a n x * F x / (∑ x, a n x * F x) - predict T L b n x * F x / ∑ x, predict T L b n x * F x|
        ≤ (1 - 1 / C) ^ (n / (w + 1)) * (1 / (1 - u) ^ (2 * eP) - 1) + ∑ k ∈ Finset.range n, (1 - 1 / C) ^ (k / (w + 1)) * (1 / (1 - u) ^ (2 * r) - 1)
  | n, T, L, hT, hL, hmix, eP, a, b, c, hc, hb, hs, hpos => by
      obtain ⟨m, M, h1, h2, h3, h4⟩ := acc_within hu hu1 hc hb
      obtain ⟨m', M', k1, k2, k3, k4⟩ := within_any hC hT hL hmix (fun x => (hb x).left) h1 h2 (one_le_inv_pow hu hu1 _) h3 h4 n
      have hpb := predict_nonneg (k := n) (T := T) (L := L) (fun x => (hb x).left) (fun i _ => hT i) fun i _ => hL i
      have e1 := close_of_within hF hpb k1 k2 k4 hpos
      have e2 : (M' - m') / m' ≤ (1 - 1 / C) ^ (n / (w + 1)) * (1 / (1 - u) ^ (2 * eP) - 1) := by
        rw [div_le_iff₀ k1]; exact k3
      have hpos' : 0 < ∑ x, predict T L (a 0) n x * F x := by
        refine (mul_pos k1 hpos).trans_le ?_
        rw [Finset.mul_sum]
        refine Finset.sum_le_sum fun x _ => ?_
        rw [← mul_assoc]
        exact mul_le_mul_of_nonneg_right (k4 x).1 (hF x)
      match n, hs, hpos, e1, e2, hpos' with
      | 0, hs, hpos, e1, e2, hpos' =>
          refine ⟨hpos', ?_⟩
          rw [Finset.range_zero, Finset.sum_empty, add_zero]
          exact e1.trans e2
      | n + 1, hs, hpos, e1, e2, hpos' =>
          obtain ⟨c1, hc1, hb1⟩ := hs 0 (Nat.succ_pos n)
          have hsh : predict (fun i => T (i + 1)) (fun i => L (i + 1)) (advance (T 0) (L 0) (a 0)) n = predict T L (a 0) (n + 1) := predict_shift T L (a 0) n
          have hbt : ∀ k w, between (fun i => T (i + 1)) (fun i => L (i + 1)) k w = between T L (k + 1) w := by
            intro k w
            induction w with
            | zero => rfl
            | succ w ih =>
                funext x y
                simp only [between, ih]
                rw [show k + w + 1 + 1 = k + 1 + w + 1 by ring]
          obtain ⟨i1, i2⟩ := errors_fade hu hu1 hC hF n (T := fun i => T (i + 1)) (L := fun i => L (i + 1)) (w := w) (r := r) (fun i => hT _) (fun i => hL _) (fun k => by rw [hbt]; exact hmix _)
            (a := fun k => a (k + 1)) hc1 hb1 (fun k hk => hs (k + 1) (by omega)) (by rw [hsh]; exact hpos')
          refine ⟨i1, ?_⟩
          rw [hsh] at i2
          rw [Finset.sum_range_succ]
          calc ∑ x, |a (n + 1) x * F x / (∑ x, a (n + 1) x * F x) - predict T L b (n + 1) x * F x / ∑ x, predict T L b (n + 1) x * F x|
              ≤ ∑ x, (|a (n + 1) x * F x / (∑ x, a (n + 1) x * F x) - predict T L (a 0) (n + 1) x * F x / ∑ x, predict T L (a 0) (n + 1) x * F x| +
                |predict T L (a 0) (n + 1) x * F x / (∑ x, predict T L (a 0) (n + 1) x * F x) - predict T L b (n + 1) x * F x / ∑ x, predict T L b (n + 1) x * F x|) :=
                Finset.sum_le_sum fun x _ => abs_sub_le _ _ _
            _ ≤ _ := by
                rw [Finset.sum_add_distrib]
                linarith

/-- a geometric series with repeated terms -/
theorem windows_sum {C : K} (hC : 1 ≤ C) (w n : ℕ) : ∑ k ∈ Finset.range n, (1 - 1 / C) ^ (k / (w + 1)) ≤ (w + 1) * C := by
  have hC0 : 0 < C := zero_lt_one.trans_le hC
  have hq : 0 ≤ 1 - 1 / C := by rw [sub_nonneg, div_le_one hC0]; exact hC
  have h : ∀ j, ∑ k ∈ Finset.range (j * (w + 1)), (1 - 1 / C) ^ (k / (w + 1)) = (w + 1) * C * (1 - (1 - 1 / C) ^ j) := by
    intro j
    induction j with
    | zero => simp
    | succ j ih =>
        rw [Nat.add_one_mul j, Finset.sum_range_add, ih]
        have : ∀ i ∈ Finset.range (w + 1), (1 - 1 / C) ^ ((j * (w + 1) + i) / (w + 1)) = (1 - 1 / C) ^ j := by
          intro i hi
          rw [Nat.mul_comm, Nat.mul_add_div (Nat.succ_pos w), Nat.div_eq_of_lt (Finset.mem_range.1 hi), add_zero]
        rw [Finset.sum_congr rfl this, Finset.sum_const, Finset.card_range, nsmul_eq_mul, pow_succ]
        push_cast
        field_simp
        ring
  calc ∑ k ∈ Finset.range n, (1 - 1 / C) ^ (k / (w + 1)) ≤ ∑ k ∈ Finset.range (n * (w + 1)), (1 - 1 / C) ^ (k / (w + 1)) :=
        Finset.sum_le_sum_of_subset_of_nonneg (Finset.range_mono (Nat.le_mul_of_pos_right n (Nat.succ_pos w))) fun _ _ _ => pow_nonneg hq _
    _ = (w + 1) * C * (1 - (1 - 1 / C) ^ n) := h n
    _ ≤ (w + 1) * C * 1 := mul_le_mul_of_nonneg_left (by linarith [pow_nonneg hq n]) (by positivity)
    _ = (w + 1) * C := mul_one _

/-- **Errors do not add up.** -/
theorem errors_bounded {u : K} (hu : 0 ≤ u) (hu1 : u < 1) {C : K} (hC : 1 ≤ C) {w r : ℕ} {F : ι → K} (hF : ∀ x, 0 ≤ F x) (n : ℕ) (hT : ∀ i x y, 0 ≤ T i x y) (hL : ∀ i x, 0 ≤ L i x)
    (hmix : ∀ k, Mixes (between T L k w) C) {eP : ℕ} {a : ℕ → ι → K} {b : ι → K} {c : K} (hc : 0 < c) (hb : ∀ x, Acc u eP (b x) (c * a 0 x))
    (hs : ∀ k < n, ∃ c, 0 < c ∧ ∀ x, Acc u r (advance (T k) (L k) (a k) x) (c * a (k + 1) x)) (hpos : 0 < ∑ x, predict T L b n x * F x) :
    0 < ∑ x, a n x * F x ∧ ∑ x, |a n x * F x / (∑ x, a n x * F x) - predict T L b n x * F x / ∑ x, predict T L b n x * F x|
      ≤ (1 / (1 - u) ^ (2 * eP) - 1) + (w + 1) * C * (1 / (1 - u) ^ (2 * r) - 1) := by
  obtain ⟨h1, h2⟩ := errors_fade hu hu1 hC hF n hT hL hmix hc hb hs hpos
  refine ⟨h1, h2.trans (add_le_add ?_ ?_)⟩
  · have hC0 : 0 < C := zero_lt_one.trans_le hC
    have hq : 0 ≤ 1 - 1 / C := by rw [sub_nonneg, div_le_one hC0]; exact hC
    have hq1 : 1 - 1 / C ≤ 1 := by have : 0 ≤ 1 / C := by positivity
                                   linarith
    exact mul_le_of_le_one_left (one_le_inv_pow hu hu1 _) (pow_le_one₀ hq hq1)
  · rw [← Finset.sum_mul]
    exact mul_le_mul_of_nonneg_right (windows_sum hC w n) (one_le_inv_pow hu hu1 _)

theorem predict_congr {T T' : ℕ → ι → ι → K} {L L' : ℕ → ι → K} {π : ι → K} : ∀ {n : ℕ}, (∀ i < n, T i = T' i) → (∀ i < n, L i = L' i) → predict T L π n = predict T' L' π n
  | 0, _, _ => rfl
  | n + 1, hT, hL => by
      rw [predict, predict, hT n (Nat.lt_succ_self n), hL n (Nat.lt_succ_self n), predict_congr (fun i hi => hT i (hi.trans (Nat.lt_succ_self n))) fun i hi => hL i (hi.trans (Nat.lt_succ_self n))]

/-- for symmetric kernels the future looks like the past -/
theorem future_mirror : ∀ (n : ℕ) (T : ℕ → ι → ι → K) (L : ℕ → ι → K) (_ : ∀ i x y, T i x y = T i y x) (x : ι),
    future (fun j : Fin n => T j) (fun j : Fin (n + 1) => L j) x = predict (fun j => T (n - 1 - j)) (fun j => L (n - j)) (fun _ => 1) n x
  | 0, _, _, _, _ => rfl
  | n + 1, T, L, hS, x => by
      have ih := future_mirror n (fun i => T (i + 1)) (fun i => L (i + 1)) (fun i => hS _)
      rw [future_succ]
      change ∑ y, T 0 x y * L 1 y * future (fun j : Fin n => T (j + 1)) (fun j : Fin (n + 1) => L (j + 1)) y = _
      simp only [ih]
      rw [predict, advance]
      refine Finset.sum_congr rfl fun y _ => ?_
      have e : predict (fun j => T (n + 1 - 1 - j)) (fun j => L (n + 1 - j)) (fun _ => 1) n = predict (fun j => T (n - 1 - j + 1)) (fun j => L (n - j + 1)) (fun _ => 1) n :=
        predict_congr (fun i hi => by rw [show n + 1 - 1 - i = n - 1 - i + 1 by omega]) fun i hi => by rw [show n + 1 - i = n - i + 1 by omega]
      rw [e, show n + 1 - 1 - n = 0 by omega, show n + 1 - n = 1 by omega, hS 0 x y]
      ring

/-- weight of the paths through `x` at time `i`, past and future -/
theorem marginal_mirror : ∀ {n : ℕ} (T : ℕ → ι → ι → K) (L : ℕ → ι → K) (_ : ∀ i x y, T i x y = T i y x) (i : Fin (n + 1)) (π : ι → K) (x : ι),
    marginal π (fun j : Fin n => T j) (fun j : Fin (n + 1) => L j) i x = predict T L π i x * (L i x * predict (fun j => T (n - 1 - j)) (fun j => L (n - j)) (fun _ => 1) (n - i) x)
  | n, T, L, hS, ⟨0, h0⟩, π, x => by
      rw [show (⟨0, h0⟩ : Fin (n + 1)) = 0 from rfl, marginal_zero, future_mirror n T L hS]
      simp [predict, mul_assoc]
  | 0, T, L, hS, ⟨i + 1, h⟩, π, x => by omega
  | n + 1, T, L, hS, ⟨i + 1, h⟩, π, x => by
      have ih := marginal_mirror (n := n) (fun i => T (i + 1)) (fun i => L (i + 1)) (fun i => hS _) ⟨i, by omega⟩ (advance (T 0) (L 0) π) x
      rw [show (⟨i + 1, h⟩ : Fin (n + 2)) = Fin.succ ⟨i, by omega⟩ from rfl, marginal_succ]
      refine ih.trans ?_
      have e : predict (fun j => T (n + 1 - 1 - j)) (fun j => L (n + 1 - j)) (fun _ => 1) (n - i) = predict (fun j => T (n - 1 - j + 1)) (fun j => L (n - j + 1)) (fun _ => 1) (n - i) :=
        predict_congr (fun k hk => by rw [show n + 1 - 1 - k = n - 1 - k + 1 by omega]) fun k hk => by rw [show n + 1 - k = n - k + 1 by omega]
      dsimp only [Fin.val_succ]
      rw [predict_shift, show n + 1 - (i + 1) = n - i by omega, e]

end Spec

namespace BL
open Spec
variable {K : Type} [Field K] [LinearOrder K] [IsStrictOrderedRing K] {d : ℕ} {gs : Fin d → ℕ} {u : K}

/-- the exact transition step of any array -/
theorem fwd_push {E : Env K gs} (hE : Regular E) {tm : TM K} (hL : Linear E tm) (hR : ResetFree tm) (ρ : Idx gs → K) (t : K) {p : Idx gs → K} (hp : 0 < ∑ x, p x) :
    tm.fwd E 0 (some p) t = .ok (some fun y => ∑ x, p x * kernel E ρ tm t x y) := by
  have := fwd_linear (E := E) (R := 0) (ρ := ρ) hE.lattice_pos hE.gauss tm hL (Or.inl hR) 0 p t _ rfl hp
  rw [massOut_resetFree tm hR, div_self hp.ne'] at this
  simpa only [one_mul, push] using this

/-- what a step of the forward loop does to the array `a`, with exact likelihood `L` -/
structure StepAcc (E : Env K gs) (tm : TM K) (u : K) (eL k : ℕ) (L : Idx gs → K) (t : K) (a a' : Idx gs → K) (s : Step K gs) : Prop where
  nonneg : ∀ x, 0 ≤ a x
  pos : 0 < ∑ x, a x * L x
  alpha : ∃ c, 0 < c ∧ ∀ x, Acc u (eL + 2) (a x * L x) (c * s.alpha x)
  filt : ∀ x, Acc u (2 * eL + 3 + Fintype.card (Idx gs)) (a x * L x / ∑ x, a x * L x) (s.alpha x)
  next : ∃ c, 0 < c ∧ ∀ x, Acc u (eL + 2 + k) (advance (kernel E (fun _ => 0) tm t) L a x) (c * a' x)
  lik : ∀ x, Acc u eL (L x) (s.lik x)
  time : s.t = t

/-- the arrays of the forward loop -/
theorem RFwd.trace {E E' : Env K gs} (hE : Regular E) (hE' : Twin E E') (hu : 0 ≤ u) (hu1 : u < 1) {e eL : ℕ} {tm : TM K} (hL : Linear E tm) (hR : ResetFree tm) {Ls' : List (Idx gs → K)} {ts : List K}
    {a' : Idx gs → K} {ss : List (Step K gs)} {st : Bool} (h' : RFwd E' tm u e a' Ls' ts ss st) : ∀ {L : ℕ → Idx gs → K} {τ : ℕ → K}, (∀ i L', Ls'[i]? = some L' → ∀ x, Acc u eL (L i x) (L' x)) →
      (∀ i t, ts[i]? = some t → τ i = t) → (∀ x, 0 ≤ a' x) →
      ∃ a : ℕ → Idx gs → K, a 0 = a' ∧ ∀ i s, ss[i]? = some s → StepAcc E tm u eL (elements tm * e) (L i) (τ i) (a i) (a (i + 1)) s := by
  induction h' with
  | done a' ts => exact fun _ _ _ => ⟨fun _ => a', rfl, fun i s h => by simp at h⟩
  | stop h1 h2 h3 => exact fun _ _ _ => ⟨fun _ => _, rfl, fun i s h => by simp at h⟩
  | @step a' b α' b' L' Ls' t ts norm ss st h1 h2 h3 h4 h5 _ ih =>
      intro L τ hLs hτ ha
      have hL0 := hLs 0 L' rfl
      have ht : τ 0 = t := hτ 0 t rfl
      obtain ⟨k1, k2, k3⟩ := step_acc (b' := α') (N := 0) (eL := eL) (Z := 1) (Z' := 1) hu hu1 one_pos one_pos (a := a') (fun x => by rw [one_mul]; exact Acc.refl hu hu1 (ha x) 0) hL0 h1 h2
      have k4 := k3 h3 h4
      simp only [one_mul, zero_add] at k1 k2 k4
      have hp : 0 < ∑ x, a' x * L 0 x := k2.symm.pos hu1 h3
      have hq := fwd_push hE hL hR (fun _ => 0) t hp
      obtain ⟨q0, hq1, hq2⟩ := fwd_passes hE' hu hu1 e tm hL (Or.inl hR) 0 t _ α' b' _ hq h5
      rw [Option.some.injEq] at hq1
      subst hq1
      have hnx : ∃ c, 0 < c ∧ ∀ x, Acc u (eL + 2 + elements tm * e) (advance (kernel E (fun _ => 0) tm t) (L 0) a' x) (c * b' x) := by
        rcases hq2 with hq2 | hq2
        · exact ⟨1, one_pos, fun x => by rw [one_mul]; exact (hq2 x).mono hu hu1 (by omega)⟩
        · exact ⟨norm, h3, fun x => hq2 norm (eL + 2) h3.le k4 x⟩
      have hb' : ∀ x, 0 ≤ b' x := by
        obtain ⟨c, hc, h⟩ := hnx
        exact fun x => nonneg_of_mul_nonneg_right (h x).right hc
      obtain ⟨a, ha0, hs⟩ := ih (L := fun i => L (i + 1)) (τ := fun i => τ (i + 1)) (fun i L' h => hLs (i + 1) L' h) (fun i t h => hτ (i + 1) t h) hb'
      refine ⟨fun i => match i with | 0 => a' | i + 1 => a i, rfl, fun i s h => ?_⟩
      match i with
      | i + 1 => exact hs i s (by simpa using h)
      | 0 =>
          simp only [List.getElem?_cons_zero, Option.some.injEq] at h
          subst h
          rw [ht]
          refine ⟨ha, hp, ⟨norm, h3, k4⟩, fun x => ?_, by dsimp only; rw [ha0]; exact hnx, hL0, rfl⟩
          have := (k4 x).div hu1 k2 hp h3
          rw [mul_div_cancel_left₀ _ h3.ne'] at this
          exact this.mono hu hu1 (by omega)

/-- the arrays of the backward loop, counted from the last time step -/
theorem RBwd.trace {E E' : Env K gs} (hE : Regular E) (hE' : Twin E E') (hu : 0 ≤ u) (hu1 : u < 1) {e eL : ℕ} {tm : TM K} (hL : Linear E tm) (hR : ResetFree tm) {L : ℕ → Idx gs → K} {τ : ℕ → K}
    (hL0 : ∀ j x, 0 < L j x) {ss : List (Step K gs)} {posts : List (Idx gs → K)} {β : Idx gs → K} (h' : RBwd E' tm u e ss posts β) :
    (∀ i s, ss[i]? = some s → (∀ x, Acc u eL (L (ss.length - 1 - i) x) (s.lik x)) ∧ (∀ x, 0 ≤ s.alpha x) ∧ s.t - 1 = τ (ss.length - 1 - i)) →
      ∃ b : ℕ → Idx gs → K, b ss.length = β ∧ (∃ c, 0 < c ∧ ∀ x, Acc u 1 1 (c * b 0 x)) ∧ posts.length = ss.length ∧ (∀ j ≤ ss.length, ∀ x, 0 ≤ b j x) ∧
        (∀ j < ss.length, ∃ c, 0 < c ∧ ∀ x, Acc u (eL + 2 + elements tm * e) (advance (kernel E (fun _ => 0) tm (τ j)) (L j) (b j) x) (c * b (j + 1) x)) ∧
        ∀ i s p, ss[i]? = some s → posts[i]? = some p → 0 < ∑ x, s.alpha x * b (ss.length - 1 - i) x ∧
          ∀ x, Acc u (3 + Fintype.card (Idx gs)) (s.alpha x * b (ss.length - 1 - i) x / ∑ x, s.alpha x * b (ss.length - 1 - i) x) (p x) := by
  have := hE.nonempty
  induction h' with
  | @start β s h1 h2 =>
      intro _
      have hG : (0 : K) < Fintype.card (Idx gs) := card_pos_K
      have h3 := h1.acc hu hu1 fun _ => zero_le_one
      have hs1 : ∑ _x : Idx gs, (1 : K) = Fintype.card (Idx gs) := by rw [sum_const_card, mul_one]
      rw [hs1] at h3
      have hsp : 0 < s := h3.pos hu1 hG
      have h4 : ∀ x, Acc u 1 (1 / s) (β x) := fun x => (h2 x).acc hu hu1 (by positivity)
      refine ⟨fun _ => β, rfl, ⟨s, hsp, fun x => ?_⟩, rfl, fun _ _ x => (h4 x).right, fun j hj => by simp at hj, fun i s p h => by simp at h⟩
      have := (h4 x).weight hsp.le
      rwa [mul_one_div_cancel hsp.ne'] at this
  | @step β q post l b' β' s ss posts norm norm' _ h1 h2 h3 h4 h5 h6 h7 h8 ih =>
      intro hs
      obtain ⟨b, i1, i2, i3, i4, i5, i6⟩ := ih (fun i s1 hi => by
        have := hs (i + 1) s1 (by simpa using hi)
        rwa [show (s :: ss).length - 1 - (i + 1) = ss.length - 1 - i by rw [List.length_cons]; omega] at this)
      have hs0 := hs 0 s rfl
      rw [show (s :: ss).length - 1 - 0 = ss.length by rw [List.length_cons]; omega] at hs0
      obtain ⟨j1, j2, j3⟩ := hs0
      have hβ : ∀ x, 0 ≤ β x := by rw [← i1]; exact i4 _ le_rfl
      -- posterior
      have hq : ∀ x, Acc u 1 (s.alpha x * β x) (q x) := fun x => (h1 x).acc hu hu1 (mul_nonneg (j2 x) (hβ x))
      have hn : Acc u (1 + Fintype.card (Idx gs)) (∑ x, s.alpha x * β x) norm := (Acc.sum Finset.univ fun x _ => hq x).trans hu1 (h2.acc hu hu1 fun x => (hq x).right)
      have hn0 : 0 < ∑ x, s.alpha x * β x := hn.symm.pos hu1 h3
      have hpost : ∀ x, Acc u (3 + Fintype.card (Idx gs)) (s.alpha x * β x / ∑ x, s.alpha x * β x) (post x) := fun x => by
        have := ((hq x).div hu1 hn hn0 h3).trans hu1 ((h4 x).acc hu hu1 (div_nonneg (hq x).right h3.le))
        exact this.mono hu hu1 (by omega)
      -- next array
      have hbL : 0 < ∑ x, β x * L ss.length x := by
        obtain ⟨x, -, hx⟩ := Finset.exists_lt_of_sum_lt (s := Finset.univ) (f := fun _ : Idx gs => (0 : K)) (g := fun x => s.alpha x * β x) (by simpa using hn0)
        refine Finset.sum_pos' (fun x _ => mul_nonneg (hβ x) (hL0 _ x).le) ⟨x, Finset.mem_univ x, mul_pos ?_ (hL0 _ x)⟩
        exact pos_of_mul_pos_right hx (j2 x)
      have hpush := fwd_push hE hL hR (fun _ => 0) (s.t - 1) hbL
      obtain ⟨q0, hq1, hq2⟩ := fwd_passes hE' hu hu1 e tm hL (Or.inl hR) 0 (s.t - 1) _ l b' _ hpush h6
      rw [Option.some.injEq] at hq1
      have hsum : ∑ x, q0 x = ∑ x, β x * L ss.length x := by
        rw [← hq1, Finset.sum_comm]
        refine Finset.sum_congr rfl fun x _ => ?_
        rw [← Finset.mul_sum, kernel_sum hE.gauss tm hL (Or.inl hR), mul_one]
      obtain ⟨c', hc', hnx⟩ := back_acc (M := 0) (c := 1) hu hu1 one_pos (b := β) (β := β) (fun x => by rw [one_mul]; exact Acc.refl hu hu1 (hβ x) 0) j1 h5 hq2 h7 h8 (by rw [hsum]; exact hbL.ne')
      have hnx' : ∀ x, Acc u (eL + 2 + elements tm * e) (advance (kernel E (fun _ => 0) tm (τ ss.length)) (L ss.length) β x) ((∑ x, q0 x) * c' * β' x) := by
        intro x
        have hS : 0 < ∑ x, q0 x := by rw [hsum]; exact hbL
        have := (hnx x).weight hS.le
        rw [mul_div_cancel₀ _ hS.ne', zero_add, ← mul_assoc] at this
        have e1 : advance (kernel E (fun _ => 0) tm (τ ss.length)) (L ss.length) β x = q0 x := by rw [← hq1, ← j3]; rfl
        rwa [e1]
      have hS : 0 < ∑ x, q0 x := by rw [hsum]; exact hbL
      have hβ' : ∀ x, 0 ≤ β' x := fun x => nonneg_of_mul_nonneg_right (hnx' x).right (mul_pos hS hc')
      have hlt : ∀ j, j ≤ ss.length → (if j ≤ ss.length then b j else β') = b j := fun j hj => if_pos hj
      refine ⟨fun j => if j ≤ ss.length then b j else β', ?_, ?_, ?_, ?_, ?_, ?_⟩
      · rw [List.length_cons]
        exact if_neg (by omega)
      · obtain ⟨c, hc, h⟩ := i2
        exact ⟨c, hc, fun x => by dsimp only; rw [hlt 0 (Nat.zero_le _)]; exact h x⟩
      · rw [List.length_cons, List.length_cons, i3]
      · intro j hj x
        dsimp only
        split
        · next h => exact i4 j h x
        · exact hβ' x
      · intro j hj
        rw [List.length_cons] at hj
        dsimp only
        rcases Nat.lt_or_ge j ss.length with h | h
        · rw [hlt j h.le, hlt (j + 1) h]
          exact i5 j h
        · have : j = ss.length := by omega
          subst this
          rw [hlt _ le_rfl, if_neg (by omega), i1]
          exact ⟨_, mul_pos hS hc', hnx'⟩
      · intro i s1 p hi hp
        dsimp only
        match i with
        | 0 =>
            simp only [List.getElem?_cons_zero, Option.some.injEq] at hi hp
            subst hi hp
            rw [show (s :: ss).length - 1 - 0 = ss.length by rw [List.length_cons]; omega, hlt _ le_rfl, i1]
            exact ⟨hn0, hpost⟩
        | i + 1 =>
            rw [List.getElem?_cons_succ] at hi hp
            rw [show (s :: ss).length - 1 - (i + 1) = ss.length - 1 - i by rw [List.length_cons]; omega, hlt _ (by omega)]
            exact i6 i s1 p hi hp

end BL
