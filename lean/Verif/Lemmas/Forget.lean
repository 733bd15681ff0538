import Verif.Lemmas.Paths
import Mathlib.Algebra.Order.BigOperators.Ring.Finset
import Mathlib.Algebra.BigOperators.Field
import Mathlib.Algebra.BigOperators.Ring.Finset
import Mathlib.Data.Fintype.Lattice
import Mathlib.Tactic.Positivity
import Mathlib.Tactic.FieldSimp
import Mathlib.Tactic.Linarith
import Mathlib.Tactic.Ring

/-! # The path model forgets its initial distribution -/

set_option linter.unusedSectionVars false

namespace Spec

variable {ι K : Type} [Fintype ι] [DecidableEq ι] [Field K]

/-- distribution before seeing data point `k`, up to a factor -/
def predict (T : ℕ → ι → ι → K) (L : ℕ → ι → K) (π : ι → K) : ℕ → ι → K
  | 0 => π
  | k + 1 => advance (T k) (L k) (predict T L π k)

theorem predict_shift (T : ℕ → ι → ι → K) (L : ℕ → ι → K) (π : ι → K) : ∀ k, predict (fun i => T (i + 1)) (fun i => L (i + 1)) (advance (T 0) (L 0) π) k = predict T L π (k + 1)
  | 0 => rfl
  | k + 1 => by rw [predict, predict_shift T L π k]; rfl

/-- probability of going from `x` (time `k`) to `y` (time `k + w + 1`) and seeing the data in between -/
def between (T : ℕ → ι → ι → K) (L : ℕ → ι → K) (k : ℕ) : ℕ → ι → ι → K
  | 0 => T k
  | w + 1 => fun x y => ∑ z, between T L k w x z * L (k + w + 1) z * T (k + w + 1) z y

theorem predict_between (T : ℕ → ι → ι → K) (L : ℕ → ι → K) (π : ι → K) (k : ℕ) : ∀ w y, predict T L π (k + w + 1) y = ∑ x, predict T L π k x * L k x * between T L k w x y
  | 0, y => rfl
  | w + 1, y => by
      change advance (T (k + w + 1)) (L (k + w + 1)) (predict T L π (k + w + 1)) y = _
      simp only [advance, predict_between T L π k w, between, Finset.sum_mul, Finset.mul_sum]
      rw [Finset.sum_comm]
      exact Finset.sum_congr rfl fun x _ => Finset.sum_congr rfl fun z _ => by ring

section order
variable [LinearOrder K] [IsStrictOrderedRing K] {T : ℕ → ι → ι → K} {L : ℕ → ι → K}

theorem future_nonneg' {n : ℕ} {T : Fin n → ι → ι → K} {L : Fin (n + 1) → ι → K} (hT : ∀ i x y, 0 ≤ T i x y) (hL : ∀ i x, 0 ≤ L i x) (x : ι) : 0 ≤ future T L x := by
  match n, T, L, hT, hL with
  | 0, _, _, _, _ => exact zero_le_one
  | _ + 1, T, L, hT, hL => exact evidence_nonneg (fun y => hT _ _ _) (fun i => hT _) fun i => hL _

/-- weight of the paths through `x` at time `i`: the initial distribution enters through `predict` only -/
theorem marginal_predict : ∀ {n : ℕ} (T : ℕ → ι → ι → K) (L : ℕ → ι → K) (_ : ∀ i < n, ∀ x y, 0 ≤ T i x y) (_ : ∀ i ≤ n, ∀ x, 0 ≤ L i x) (i : Fin (n + 1)),
    ∃ F : ι → K, (∀ x, 0 ≤ F x) ∧ ∀ π x, marginal π (fun j : Fin n => T j) (fun j : Fin (n + 1) => L j) i x = predict T L π i x * F x
  | n, T, L, hT, hL, ⟨0, h0⟩ => by
      refine ⟨fun x => L 0 x * future (fun j : Fin n => T j) (fun j : Fin (n + 1) => L j) x, fun x => mul_nonneg (hL 0 (Nat.zero_le _) x) (future_nonneg' (fun i => hT i i.isLt) (fun i => hL i (by omega)) x), fun π x => ?_⟩
      rw [show (⟨0, h0⟩ : Fin (n + 1)) = 0 from rfl, marginal_zero]
      simp [predict, mul_assoc]
  | 0, T, L, hT, hL, ⟨i + 1, hi⟩ => absurd hi (by omega)
  | n + 1, T, L, hT, hL, ⟨i + 1, hi⟩ => by
      obtain ⟨F, h0, h⟩ := marginal_predict (n := n) (fun i => T (i + 1)) (fun i => L (i + 1)) (fun i hi => hT (i + 1) (by omega)) (fun i hi => hL (i + 1) (by omega)) ⟨i, by omega⟩
      refine ⟨F, h0, fun π x => ?_⟩
      rw [show (⟨i + 1, hi⟩ : Fin (n + 2)) = Fin.succ ⟨i, by omega⟩ from rfl, marginal_succ]
      have e := h (advance (T 0) (L 0) π) x
      rw [predict_shift] at e
      exact e

theorem predict_nonneg {π : ι → K} (hπ : ∀ x, 0 ≤ π x) : ∀ {k : ℕ}, (∀ i < k, ∀ x y, 0 ≤ T i x y) → (∀ i < k, ∀ x, 0 ≤ L i x) → ∀ x, 0 ≤ predict T L π k x
  | 0, _, _, x => hπ x
  | k + 1, hT, hL, x => Finset.sum_nonneg fun z _ => mul_nonneg (mul_nonneg (predict_nonneg hπ (fun i hi => hT i (by omega)) (fun i hi => hL i (by omega)) z) (hL k (by omega) z)) (hT k (by omega) z x)

/-- bounds for the ratio of two distributions are kept -/
theorem within_step {π π' : ι → K} {m M : K} {k : ℕ} (hT : ∀ x y, 0 ≤ T k x y) (hL : ∀ x, 0 ≤ L k x) (h : ∀ x, m * predict T L π k x ≤ predict T L π' k x ∧ predict T L π' k x ≤ M * predict T L π k x) (x : ι) :
    m * predict T L π (k + 1) x ≤ predict T L π' (k + 1) x ∧ predict T L π' (k + 1) x ≤ M * predict T L π (k + 1) x := by
  simp only [predict, advance, Finset.mul_sum]
  refine ⟨Finset.sum_le_sum fun z _ => ?_, Finset.sum_le_sum fun z _ => ?_⟩
  · rw [← mul_assoc, ← mul_assoc]
    exact mul_le_mul_of_nonneg_right (mul_le_mul_of_nonneg_right (h z).1 (hL z)) (hT z x)
  · rw [← mul_assoc, ← mul_assoc]
    exact mul_le_mul_of_nonneg_right (mul_le_mul_of_nonneg_right (h z).2 (hL z)) (hT z x)

theorem within_steps {π π' : ι → K} {m M : K} {k : ℕ} (h : ∀ x, m * predict T L π k x ≤ predict T L π' k x ∧ predict T L π' k x ≤ M * predict T L π k x) :
    ∀ {s : ℕ}, (∀ i < k + s, ∀ x y, 0 ≤ T i x y) → (∀ i < k + s, ∀ x, 0 ≤ L i x) → ∀ x, m * predict T L π (k + s) x ≤ predict T L π' (k + s) x ∧ predict T L π' (k + s) x ≤ M * predict T L π (k + s) x
  | 0, _, _ => h
  | s + 1, hT, hL => within_step (hT (k + s) (by omega)) (hL (k + s) (by omega)) (within_steps h (fun i hi => hT i (by omega)) fun i hi => hL i (by omega))

/-- a kernel that does not depend much on the starting point -/
def Mixes (g : ι → ι → K) (C : K) : Prop := (∀ x y, 0 ≤ g x y) ∧ ∀ x x' y, g x y ≤ C * g x' y

/-- one such step makes any two distributions comparable -/
theorem mixes_compare {g : ι → ι → K} {C : K} (hg : Mixes g C) {a b : ι → K} (ha : ∀ x, 0 ≤ a x) (hb : ∀ x, 0 ≤ b x) (y : ι) : (∑ x, a x) * ∑ x, b x * g x y ≤ C * ((∑ x, b x) * ∑ x, a x * g x y) := by
  rw [Finset.sum_mul_sum, Finset.sum_mul_sum, Finset.mul_sum, Finset.sum_comm]
  refine Finset.sum_le_sum fun x _ => ?_
  rw [Finset.mul_sum]
  refine Finset.sum_le_sum fun x' _ => ?_
  have := mul_le_mul_of_nonneg_left (hg.2 x x' y) (mul_nonneg (ha x') (hb x))
  nlinarith

/-- one such step brings the ratio of two distributions closer to a constant -/
theorem mixes_contract {g : ι → ι → K} {C : K} (hC : 1 ≤ C) (hg : Mixes g C) {a b : ι → K} {m M : K} (ha : ∀ x, 0 ≤ a x) (hmM : m ≤ M) (h : ∀ x, m * a x ≤ b x ∧ b x ≤ M * a x) :
    ∃ m' M', m ≤ m' ∧ m' ≤ M' ∧ M' ≤ M ∧ M' - m' = (1 - 1 / C) * (M - m) ∧ ∀ y, m' * ∑ x, a x * g x y ≤ ∑ x, b x * g x y ∧ ∑ x, b x * g x y ≤ M' * ∑ x, a x * g x y := by
  have hC0 : 0 < C := zero_lt_one.trans_le hC
  have hP0 : 0 ≤ ∑ x, a x := Finset.sum_nonneg fun x _ => ha x
  have hQ : m * ∑ x, a x ≤ ∑ x, b x ∧ ∑ x, b x ≤ M * ∑ x, a x := by
    rw [Finset.mul_sum, Finset.mul_sum]
    exact ⟨Finset.sum_le_sum fun x _ => (h x).1, Finset.sum_le_sum fun x _ => (h x).2⟩
  rcases hP0.eq_or_lt with hP | hP
  · have ha0 : ∀ x, a x = 0 := fun x => (Finset.sum_eq_zero_iff_of_nonneg fun x _ => ha x).1 hP.symm x (Finset.mem_univ x)
    have hb0 : ∀ x, b x = 0 := fun x => le_antisymm (by simpa [ha0] using (h x).2) (by simpa [ha0] using (h x).1)
    have h1 : 0 ≤ 1 - 1 / C := by rw [sub_nonneg, div_le_one hC0]; exact hC
    have h2 : 0 ≤ 1 / C := by positivity
    refine ⟨m, m + (1 - 1 / C) * (M - m), le_rfl, by nlinarith, by nlinarith, by ring, fun y => by simp [ha0, hb0]⟩
  · obtain ⟨r, hr⟩ : ∃ r, r = (∑ x, b x) / ∑ x, a x := ⟨_, rfl⟩
    have hr1 : m ≤ r := by rw [hr, le_div_iff₀ hP]; exact hQ.1
    have hr2 : r ≤ M := by rw [hr, div_le_iff₀ hP]; exact hQ.2
    have e : ∀ (c : K) y, ∑ x, (b x - c * a x) * g x y = ∑ x, b x * g x y - c * ∑ x, a x * g x y := fun c y => by
      rw [Finset.mul_sum, ← Finset.sum_sub_distrib]
      exact Finset.sum_congr rfl fun x _ => by ring
    have es : ∀ c : K, ∑ x, (b x - c * a x) = (r - c) * ∑ x, a x := fun c => by
      rw [Finset.sum_sub_distrib, ← Finset.mul_sum, hr, sub_mul, div_mul_cancel₀ _ hP.ne']
    refine ⟨m + (r - m) / C, M - (M - r) / C, le_add_of_nonneg_right (div_nonneg (sub_nonneg.2 hr1) hC0.le), ?_, sub_le_self _ (div_nonneg (sub_nonneg.2 hr2) hC0.le), ?_, fun y => ?_⟩
    · have : (r - m) / C ≤ r - m := div_le_self (sub_nonneg.2 hr1) hC
      have : (M - r) / C ≤ M - r := div_le_self (sub_nonneg.2 hr2) hC
      linarith
    · field_simp
      ring
    · have k1 := mixes_compare hg (a := fun x => b x - m * a x) (b := a) (fun x => sub_nonneg.2 (h x).1) ha y
      have k2 := mixes_compare hg (a := fun x => M * a x - b x) (b := a) (fun x => sub_nonneg.2 (h x).2) ha y
      rw [es m, e m] at k1
      have e3 : ∑ x, (M * a x - b x) = (M - r) * ∑ x, a x := by
        have := es M
        rw [← neg_inj, ← Finset.sum_neg_distrib, ← neg_mul, neg_sub, ← this]
        exact Finset.sum_congr rfl fun x _ => by ring
      have e4 : ∑ x, (M * a x - b x) * g x y = M * ∑ x, a x * g x y - ∑ x, b x * g x y := by
        rw [← neg_inj, neg_sub, ← e M y, ← Finset.sum_neg_distrib]
        exact Finset.sum_congr rfl fun x _ => by ring
      rw [e3, e4] at k2
      have k1' : (r - m) * ∑ x, a x * g x y ≤ C * (∑ x, b x * g x y - m * ∑ x, a x * g x y) := by
        refine le_of_mul_le_mul_left ?_ hP
        linarith [k1]
      have k2' : (M - r) * ∑ x, a x * g x y ≤ C * (M * ∑ x, a x * g x y - ∑ x, b x * g x y) := by
        refine le_of_mul_le_mul_left ?_ hP
        linarith [k2]
      constructor
      · have : (r - m) / C * ∑ x, a x * g x y ≤ ∑ x, b x * g x y - m * ∑ x, a x * g x y := by
          rw [div_mul_eq_mul_div, div_le_iff₀ hC0, mul_comm _ C]
          exact k1'
        linarith
      · have : (M - r) / C * ∑ x, a x * g x y ≤ M * ∑ x, a x * g x y - ∑ x, b x * g x y := by
          rw [div_mul_eq_mul_div, div_le_iff₀ hC0, mul_comm _ C]
          exact k2'
        linarith

/-- windows of `w + 1` steps that mix: after `j + 1` windows -/
theorem windows {C : K} (hC : 1 ≤ C) {w : ℕ} {π π' : ι → K} (hπ : ∀ x, 0 ≤ π x) (hπ' : ∀ x, 0 ≤ π' x) (hs : 0 < ∑ x, π x * L 0 x) (hs' : 0 < ∑ x, π' x * L 0 x) :
    ∀ (j : ℕ), (∀ i < (j + 1) * (w + 1), ∀ x y, 0 ≤ T i x y) → (∀ i < (j + 1) * (w + 1), ∀ x, 0 ≤ L i x) → (∀ i ≤ j, Mixes (between T L (i * (w + 1)) w) C) →
      ∃ m M, 0 < m ∧ m ≤ M ∧ M - m ≤ (1 - 1 / C) ^ j * (C ^ 2 - 1) * m ∧
        ∀ x, m * predict T L π ((j + 1) * (w + 1)) x ≤ predict T L π' ((j + 1) * (w + 1)) x ∧ predict T L π' ((j + 1) * (w + 1)) x ≤ M * predict T L π ((j + 1) * (w + 1)) x
  | 0, hT, hL, hmix => by
      have hC0 : 0 < C := zero_lt_one.trans_le hC
      have hg := hmix 0 le_rfl
      simp only [Nat.zero_mul] at hg
      have hL0 := hL 0 (by simp)
      have e : ∀ (π : ι → K) y, predict T L π ((0 + 1) * (w + 1)) y = ∑ x, π x * L 0 x * between T L 0 w x y := fun π y => by
        rw [show (0 + 1) * (w + 1) = 0 + w + 1 by ring, predict_between]
        rfl
      obtain ⟨r, hr⟩ : ∃ r, r = (∑ x, π' x * L 0 x) / ∑ x, π x * L 0 x := ⟨_, rfl⟩
      have hr0 : 0 < r := by rw [hr]; exact div_pos hs' hs
      refine ⟨r / C, r * C, div_pos hr0 hC0, ?_, ?_, fun y => ?_⟩
      · exact (div_le_self hr0.le hC).trans (le_mul_of_one_le_right hr0.le hC)
      · rw [pow_zero, one_mul]
        refine le_of_eq ?_
        field_simp
      · have ha : ∀ x, 0 ≤ π x * L 0 x := fun x => mul_nonneg (hπ x) (hL0 x)
        have hb : ∀ x, 0 ≤ π' x * L 0 x := fun x => mul_nonneg (hπ' x) (hL0 x)
        have k1 := mixes_compare hg ha hb y
        have k2 := mixes_compare hg hb ha y
        rw [e, e]
        constructor
        · rw [hr, div_div, div_mul_eq_mul_div, div_le_iff₀ (mul_pos hs hC0)]
          linarith
        · rw [hr, div_mul_eq_mul_div, div_mul_eq_mul_div, le_div_iff₀ hs]
          linarith
  | j + 1, hT, hL, hmix => by
      have hlt : (j + 1) * (w + 1) < (j + 1 + 1) * (w + 1) := Nat.mul_lt_mul_of_pos_right (Nat.lt_succ_self _) (Nat.succ_pos _)
      obtain ⟨m, M, hm, hmM, hd, h⟩ := windows hC (w := w) hπ hπ' hs hs' j (fun i hi => hT i (hi.trans hlt)) (fun i hi => hL i (hi.trans hlt)) fun i hi => hmix i (by omega)
      have hLk := hL _ hlt
      have hp := predict_nonneg (k := (j + 1) * (w + 1)) hπ (fun i hi => hT i (hi.trans hlt)) fun i hi => hL i (hi.trans hlt)
      obtain ⟨m', M', k1, k2, k3, k4, k5⟩ := mixes_contract hC (hmix (j + 1) le_rfl) (a := fun x => predict T L π ((j + 1) * (w + 1)) x * L ((j + 1) * (w + 1)) x)
        (b := fun x => predict T L π' ((j + 1) * (w + 1)) x * L ((j + 1) * (w + 1)) x) (fun x => mul_nonneg (hp x) (hLk x)) hmM fun x => by
          rw [← mul_assoc, ← mul_assoc]
          exact ⟨mul_le_mul_of_nonneg_right (h x).1 (hLk x), mul_le_mul_of_nonneg_right (h x).2 (hLk x)⟩
      have hC0 : 0 < C := zero_lt_one.trans_le hC
      have h1 : 0 ≤ 1 - 1 / C := by rw [sub_nonneg, div_le_one hC0]; exact hC
      refine ⟨m', M', hm.trans_le k1, k2, ?_, fun y => ?_⟩
      · rw [k4]
        calc (1 - 1 / C) * (M - m) ≤ (1 - 1 / C) * ((1 - 1 / C) ^ j * (C ^ 2 - 1) * m) := mul_le_mul_of_nonneg_left hd h1
          _ = (1 - 1 / C) ^ (j + 1) * (C ^ 2 - 1) * m := by ring
          _ ≤ (1 - 1 / C) ^ (j + 1) * (C ^ 2 - 1) * m' := mul_le_mul_of_nonneg_left k1 (mul_nonneg (pow_nonneg h1 _) (by nlinarith))
      · have e : (j + 1 + 1) * (w + 1) = (j + 1) * (w + 1) + w + 1 := by ring
        rw [e, predict_between, predict_between]
        exact k5 y

/-- distributions with bounded ratio are close to each other -/
theorem close_of_within {p q F : ι → K} {m M : K} (hF : ∀ x, 0 ≤ F x) (hp : ∀ x, 0 ≤ p x) (hm : 0 < m) (hmM : m ≤ M) (h : ∀ x, m * p x ≤ q x ∧ q x ≤ M * p x) (hpos : 0 < ∑ x, p x * F x) :
    ∑ x, |q x * F x / (∑ x, q x * F x) - p x * F x / ∑ x, p x * F x| ≤ (M - m) / m := by
  have hM : 0 < M := hm.trans_le hmM
  have h1 : m * ∑ x, p x * F x ≤ ∑ x, q x * F x := by
    rw [Finset.mul_sum]
    refine Finset.sum_le_sum fun x _ => ?_
    rw [← mul_assoc]
    exact mul_le_mul_of_nonneg_right (h x).1 (hF x)
  have h2 : ∑ x, q x * F x ≤ M * ∑ x, p x * F x := by
    rw [Finset.mul_sum]
    refine Finset.sum_le_sum fun x _ => ?_
    rw [← mul_assoc]
    exact mul_le_mul_of_nonneg_right (h x).2 (hF x)
  have hpos' : 0 < ∑ x, q x * F x := (mul_pos hm hpos).trans_le h1
  have hx : ∀ x, |q x * F x / (∑ x, q x * F x) - p x * F x / ∑ x, p x * F x| ≤ (M - m) / m * (p x * F x / ∑ x, p x * F x) := fun x => by
    have hpF : 0 ≤ p x * F x := mul_nonneg (hp x) (hF x)
    have u1 : q x * F x / (∑ x, q x * F x) ≤ M * (p x * F x) / (m * ∑ x, p x * F x) := by
      refine div_le_div₀ (by positivity) ?_ (by positivity) h1
      rw [← mul_assoc]
      exact mul_le_mul_of_nonneg_right (h x).2 (hF x)
    have u2 : m * (p x * F x) / (M * ∑ x, p x * F x) ≤ q x * F x / ∑ x, q x * F x := by
      refine div_le_div₀ ((by positivity : (0 : K) ≤ m * (p x * F x)).trans ?_) ?_ hpos' h2
      all_goals
        rw [← mul_assoc]
        exact mul_le_mul_of_nonneg_right (h x).1 (hF x)
    rw [mul_div_mul_comm] at u1 u2
    have hr : 0 ≤ p x * F x / ∑ x, p x * F x := by positivity
    obtain ⟨r, hrr⟩ : ∃ r, r = p x * F x / ∑ x, p x * F x := ⟨_, rfl⟩
    rw [← hrr] at u1 u2 hr ⊢
    rw [abs_le]
    constructor
    · have : m / M ≥ 1 - (M - m) / m := by
        rw [ge_iff_le, sub_le_iff_le_add, div_add_div _ _ hM.ne' hm.ne', le_div_iff₀ (mul_pos hM hm)]
        nlinarith [mul_nonneg (sub_nonneg.2 hmM) (sub_nonneg.2 hmM)]
      nlinarith
    · have : M / m = 1 + (M - m) / m := by field_simp; ring
      rw [this] at u1
      linarith
  calc ∑ x, |q x * F x / (∑ x, q x * F x) - p x * F x / ∑ x, p x * F x| ≤ ∑ x, (M - m) / m * (p x * F x / ∑ x, p x * F x) := Finset.sum_le_sum fun x _ => hx x
    _ = (M - m) / m := by rw [← Finset.mul_sum, ← Finset.sum_div, div_self hpos.ne', mul_one]

/-- products of transition probabilities -/
def steps (T : ℕ → ι → ι → K) (k : ℕ) : ℕ → ι → ι → K
  | 0 => T k
  | w + 1 => fun x y => ∑ z, steps T k w x z * T (k + w + 1) z y

theorem steps_nonneg (hT : ∀ i x y, 0 ≤ T i x y) (k : ℕ) : ∀ w x y, 0 ≤ steps T k w x y
  | 0, x, y => hT k x y
  | w + 1, x, y => Finset.sum_nonneg fun z _ => mul_nonneg (steps_nonneg hT k w x z) (hT _ z y)

/-- bounded likelihoods in between -/
theorem between_bounds [Nonempty ι] {c : K} (hc : 1 ≤ c) (hT : ∀ i x y, 0 ≤ T i x y) (hL : ∀ i x, 0 ≤ L i x) (hb : ∀ i x x', L i x ≤ c * L i x') (k : ℕ) :
    ∀ w, ∃ l, 0 ≤ l ∧ ∀ x y, l * steps T k w x y ≤ between T L k w x y ∧ between T L k w x y ≤ c ^ w * l * steps T k w x y
  | 0 => ⟨1, zero_le_one, fun x y => by simp [steps, between]⟩
  | w + 1 => by
      obtain ⟨l, hl, h⟩ := between_bounds hc hT hL hb k w
      obtain ⟨x0, hx0⟩ := Finite.exists_min (L (k + w + 1))
      have hc0 : 0 ≤ c := zero_le_one.trans hc
      refine ⟨l * L (k + w + 1) x0, mul_nonneg hl (hL _ _), fun x y => ⟨?_, ?_⟩⟩
      · simp only [steps, between, Finset.mul_sum]
        refine Finset.sum_le_sum fun z _ => ?_
        rw [← mul_assoc]
        refine mul_le_mul_of_nonneg_right ?_ (hT _ z y)
        calc l * L (k + w + 1) x0 * steps T k w x z = l * steps T k w x z * L (k + w + 1) x0 := by ring
          _ ≤ between T L k w x z * L (k + w + 1) z := mul_le_mul (h x z).1 (hx0 z) (hL _ _) ((mul_nonneg hl (steps_nonneg hT k w x z)).trans (h x z).1)
      · simp only [steps, between, Finset.mul_sum]
        refine Finset.sum_le_sum fun z _ => ?_
        rw [← mul_assoc]
        refine mul_le_mul_of_nonneg_right ?_ (hT _ z y)
        calc between T L k w x z * L (k + w + 1) z ≤ (c ^ w * l * steps T k w x z) * (c * L (k + w + 1) x0) :=
              mul_le_mul (h x z).2 (hb _ z x0) (hL _ _) (mul_nonneg (mul_nonneg (pow_nonneg hc0 _) hl) (steps_nonneg hT k w x z))
          _ = c ^ (w + 1) * (l * L (k + w + 1) x0) * steps T k w x z := by ring

theorem between_nonneg (hT : ∀ i x y, 0 ≤ T i x y) (hL : ∀ i x, 0 ≤ L i x) (k : ℕ) : ∀ w x y, 0 ≤ between T L k w x y
  | 0, x, y => hT k x y
  | w + 1, x, y => Finset.sum_nonneg fun z _ => mul_nonneg (mul_nonneg (between_nonneg hT hL k w x z) (hL _ z)) (hT _ z y)

theorem between_mixes [Nonempty ι] {c κ : K} (hc : 1 ≤ c) (hκ : 0 < κ) (hT : ∀ i x y, 0 ≤ T i x y) (hL : ∀ i x, 0 ≤ L i x) (hb : ∀ i x x', L i x ≤ c * L i x') (k w : ℕ)
    (h1 : ∀ x y, steps T k w x y ≤ 1) (h2 : ∀ x y, κ ≤ steps T k w x y) : Mixes (between T L k w) (c ^ w / κ) := by
  obtain ⟨l, hl, h⟩ := between_bounds hc hT hL hb k w
  refine ⟨between_nonneg hT hL k w, fun x x' y => ?_⟩
  have hc0 : 0 ≤ c := zero_le_one.trans hc
  calc between T L k w x y ≤ c ^ w * l * steps T k w x y := (h x y).2
    _ ≤ c ^ w * l * 1 := mul_le_mul_of_nonneg_left (h1 x y) (mul_nonneg (pow_nonneg hc0 _) hl)
    _ = c ^ w / κ * (l * κ) := by field_simp
    _ ≤ c ^ w / κ * between T L k w x' y := by
        refine mul_le_mul_of_nonneg_left ((mul_le_mul_of_nonneg_left (h2 x' y) hl).trans (h x' y).1) (div_nonneg (pow_nonneg hc0 _) hκ.le)

end order

end Spec

namespace Spec
variable {ι K : Type} [Fintype ι] [DecidableEq ι] [Field K] [LinearOrder K] [IsStrictOrderedRing K] {T : ℕ → ι → ι → K} {L : ℕ → ι → K}

theorem Mixes.mono {g : ι → ι → K} {C C' : K} (h : Mixes g C) (hC : C ≤ C') : Mixes g C' :=
  ⟨h.1, fun x x' y => (h.2 x x' y).trans (mul_le_mul_of_nonneg_right hC (h.1 x' y))⟩

/-- **Forgetting.** If the kernels of all windows of `w + 1` time steps mix, the posteriors of two initial distributions approach each other geometrically. -/
theorem prior_forgotten {C : K} (hC : 2 ≤ C) {w : ℕ} (hT : ∀ i x y, 0 ≤ T i x y) (hL : ∀ i x, 0 ≤ L i x) (hmix : ∀ k, Mixes (between T L k w) C)
    {π π' : ι → K} (hπ : ∀ x, 0 ≤ π x) (hπ' : ∀ x, 0 ≤ π' x) {n : ℕ} (he : evidence π (fun j : Fin n => T j) (fun j : Fin (n + 1) => L j) ≠ 0)
    (he' : evidence π' (fun j : Fin n => T j) (fun j : Fin (n + 1) => L j) ≠ 0) (i : Fin (n + 1)) :
    ∑ x, |posterior π' (fun j : Fin n => T j) (fun j : Fin (n + 1) => L j) i x - posterior π (fun j : Fin n => T j) (fun j : Fin (n + 1) => L j) i x|
      ≤ 2 * C ^ 2 * (1 - 1 / C) ^ (i.val / (w + 1)) := by
  have hC0 : 0 < C := by linarith
  have hC1 : 1 ≤ C := by linarith
  have hs : ∀ π : ι → K, (∀ x, 0 ≤ π x) → evidence π (fun j : Fin n => T j) (fun j : Fin (n + 1) => L j) ≠ 0 → 0 < ∑ x, π x * L 0 x := fun π hπ he => by
    refine lt_of_le_of_ne (Finset.sum_nonneg fun x _ => mul_nonneg (hπ x) (hL 0 x)) fun h => he ?_
    rw [evidence_eq_sum_marginal _ _ _ 0]
    refine Finset.sum_eq_zero fun x _ => ?_
    have := (Finset.sum_eq_zero_iff_of_nonneg fun x _ => mul_nonneg (hπ x) (hL 0 x)).1 h.symm x (Finset.mem_univ x)
    rw [marginal_zero]
    simp only [Fin.val_zero, this, zero_mul]
  obtain ⟨F, hF, hm⟩ := marginal_predict (n := n) T L (fun i _ => hT i) (fun i _ => hL i) i
  have hev : ∀ π, evidence π (fun j : Fin n => T j) (fun j : Fin (n + 1) => L j) = ∑ x, predict T L π i x * F x := fun π => by
    rw [evidence_eq_sum_marginal _ _ _ i]
    exact Finset.sum_congr rfl fun x _ => hm π x
  have hp : ∀ π : ι → K, (∀ x, 0 ≤ π x) → ∀ x, 0 ≤ predict T L π i x := fun π hπ => predict_nonneg hπ (fun i _ => hT i) fun i _ => hL i
  simp only [posterior, hm, hev]
  have hs1 := hs π hπ he
  have hs2 := hs π' hπ' he'
  rw [hev] at he he'
  have hpos : ∀ π : ι → K, (∀ x, 0 ≤ π x) → ∑ x, predict T L π i x * F x ≠ 0 → 0 < ∑ x, predict T L π i x * F x := fun π hπ h =>
    lt_of_le_of_ne (Finset.sum_nonneg fun x _ => mul_nonneg (hp π hπ x) (hF x)) h.symm
  have h1 := hpos π hπ he
  have h2 := hpos π' hπ' he'
  have hq0 : 0 ≤ 1 - 1 / C := by rw [sub_nonneg, div_le_one hC0]; exact hC1
  rcases Nat.eq_zero_or_pos (i.val / (w + 1)) with h0 | h0
  · rw [h0, pow_zero, mul_one]
    calc _ ≤ ∑ x, (predict T L π' i x * F x / (∑ x, predict T L π' i x * F x) + predict T L π i x * F x / ∑ x, predict T L π i x * F x) := by
          refine Finset.sum_le_sum fun x _ => (abs_sub _ _).trans (le_of_eq ?_)
          rw [abs_of_nonneg (div_nonneg (mul_nonneg (hp π' hπ' x) (hF x)) h2.le), abs_of_nonneg (div_nonneg (mul_nonneg (hp π hπ x) (hF x)) h1.le)]
      _ = 2 := by
          rw [Finset.sum_add_distrib, ← Finset.sum_div, ← Finset.sum_div, div_self he, div_self he']
          norm_num
      _ ≤ 2 * C ^ 2 := by nlinarith
  · obtain ⟨j, hj⟩ : ∃ j, i.val / (w + 1) = j + 1 := ⟨i.val / (w + 1) - 1, by omega⟩
    obtain ⟨m, M, k1, k2, k3, k4⟩ := windows (T := T) (L := L) hC1 (w := w) hπ hπ' hs1 hs2 j (fun i _ => hT i) (fun i _ => hL i) fun i _ => hmix _
    obtain ⟨s, hs⟩ : ∃ s, i.val = (j + 1) * (w + 1) + s := ⟨i.val % (w + 1), by rw [← hj, Nat.mul_comm]; exact (Nat.div_add_mod _ _).symm⟩
    have k5 := within_steps k4 (s := s) (fun i _ => hT i) fun i _ => hL i
    rw [← hs] at k5
    refine (close_of_within hF (hp π hπ) k1 k2 k5 h1).trans ?_
    rw [div_le_iff₀ k1, hj]
    refine k3.trans (mul_le_mul_of_nonneg_right ?_ k1.le)
    have hq : 1 ≤ 2 * (1 - 1 / C) := by
      have : 1 / C ≤ 1 / 2 := one_div_le_one_div_of_le two_pos hC
      linarith
    have hj0 : 0 ≤ (1 - 1 / C) ^ j := pow_nonneg hq0 j
    rw [pow_succ (1 - 1 / C) j]
    calc (1 - 1 / C) ^ j * (C ^ 2 - 1) ≤ (1 - 1 / C) ^ j * C ^ 2 := mul_le_mul_of_nonneg_left (by linarith) hj0
      _ = (1 - 1 / C) ^ j * C ^ 2 * 1 := by ring
      _ ≤ (1 - 1 / C) ^ j * C ^ 2 * (2 * (1 - 1 / C)) := mul_le_mul_of_nonneg_left hq (mul_nonneg hj0 (by positivity))
      _ = _ := by ring

theorem steps_sum (hT1 : ∀ i x, ∑ y, T i x y = 1) (k : ℕ) : ∀ w x, ∑ y, steps T k w x y = 1
  | 0, x => hT1 k x
  | w + 1, x => by
      simp only [steps]
      rw [Finset.sum_comm]
      simp only [← Finset.mul_sum, hT1, mul_one]
      exact steps_sum hT1 k w x

theorem steps_le_one (hT : ∀ i x y, 0 ≤ T i x y) (hT1 : ∀ i x, ∑ y, T i x y = 1) (k w : ℕ) (x y : ι) : steps T k w x y ≤ 1 := by
  rw [← steps_sum hT1 k w x]
  exact Finset.single_le_sum (fun z _ => steps_nonneg hT k w x z) (Finset.mem_univ y)

end Spec
