import Verif.Lemmas.SoftMax

/-! # Rounding errors of the averages of a hyper-study -/

set_option linter.unusedSectionVars false

namespace BL
open Spec
variable {ι : Type} [Fintype ι]

/-- `np.exp(l - m)` -/
theorem shift_close {κ τ m A M E g v : ℝ} (h0 : 0 ≤ κ) (hκ : κ ≤ 1 / 10) (hτ : 0 ≤ τ) (hM : 1 ≤ M) (hA : |A| ≤ M) (hm : |m| ≤ M) (hg : 0 < g) (hE : |A - Real.log g| ≤ E) (h : RShift κ τ m (some A) v)
    {a : ℝ} (ha : E + 5 * κ * M ≤ a) : 0 ≤ v ∧ v ≤ Real.exp a * (g / Real.exp m) + τ ∧ g / Real.exp m ≤ Real.exp a * (v + τ) := by
  obtain ⟨D, hD, hv0, hv⟩ := h
  have hκM : κ ≤ κ * M := le_mul_of_one_le_right h0 hM
  have h1 : |D - (A - m)| ≤ 3 * (κ * M) := by
    refine hD.trans ?_
    have := abs_sub A m
    nlinarith
  have hgm : g / Real.exp m = Real.exp (Real.log g - m) := by rw [Real.exp_sub, Real.exp_log hg]
  have h2 : |D - (Real.log g - m)| ≤ E + 3 * (κ * M) := by
    calc |D - (Real.log g - m)| = |(D - (A - m)) + (A - Real.log g)| := by ring_nf
      _ ≤ _ := (abs_add_le _ _).trans (by linarith)
  rw [hgm]
  have h3 := exp_close h2
  have h4 : Real.exp (Real.log g - m) ≤ Real.exp (E + 3 * (κ * M)) * Real.exp D := exp_close (by rwa [abs_sub_comm])
  rw [abs_le] at hv
  have hsplit : Real.exp (E + 5 * κ * M) = Real.exp (E + 3 * (κ * M)) * Real.exp (2 * (κ * M)) := by rw [← Real.exp_add]; congr 1; ring
  have ha' : Real.exp (E + 3 * (κ * M)) * Real.exp (2 * (κ * M)) ≤ Real.exp a := by rw [← hsplit]; exact Real.exp_le_exp.2 ha
  have hg0 := Real.exp_pos (Real.log g - m)
  refine ⟨hv0, ?_, ?_⟩
  · have e1 : v ≤ Real.exp (2 * (κ * M)) * Real.exp D + τ := by
      have := mul_le_mul_of_nonneg_right (by linarith [Real.add_one_le_exp (2 * (κ * M))] : 1 + κ ≤ Real.exp (2 * (κ * M))) (Real.exp_nonneg D)
      linarith
    have e2 := mul_le_mul_of_nonneg_left h3 (Real.exp_nonneg (2 * (κ * M)))
    have e3 := mul_le_mul_of_nonneg_right ha' hg0.le
    linarith
  · have e1 := one_sub_ge h0 (by linarith : κ ≤ 1 / 2)
    have e2 : Real.exp (-(2 * κ)) * Real.exp D ≤ v + τ := by
      have := mul_le_mul_of_nonneg_right e1 (Real.exp_nonneg D)
      linarith
    rw [Real.exp_neg, inv_mul_le_iff₀ (Real.exp_pos _)] at e2
    have e3 : Real.exp D ≤ Real.exp (2 * (κ * M)) * (v + τ) := e2.trans (mul_le_mul_of_nonneg_right (Real.exp_le_exp.2 (by linarith)) (by linarith))
    have e4 := mul_le_mul_of_nonneg_left e3 (Real.exp_nonneg (E + 3 * (κ * M)))
    have e5 := mul_le_mul_of_nonneg_right ha' (by linarith : 0 ≤ v + τ)
    linarith

/-- a log-space number `l` approximates the logarithm of `g` -/
def LogApprox (E M : ℝ) (l : Option ℝ) (g : ℝ) : Prop := (l = none ∧ g = 0) ∨ ∃ A, l = some A ∧ 0 < g ∧ |A - Real.log g| ≤ E ∧ |A| ≤ M

theorem LogApprox.nonneg {E M g : ℝ} {l : Option ℝ} (h : LogApprox E M l g) : 0 ≤ g := by
  rcases h with ⟨-, h⟩ | ⟨A, -, h, -⟩
  · exact h.ge
  · exact h.le

theorem LogApprox.shift {κ τ m M E g v a : ℝ} {l : Option ℝ} (h0 : 0 ≤ κ) (hκ : κ ≤ 1 / 10) (hτ : 0 ≤ τ) (hM : 1 ≤ M) (hm : |m| ≤ M) (hl : LogApprox E M l g) (h : RShift κ τ m l v)
    (ha : E + 5 * κ * M ≤ a) : 0 ≤ v ∧ v ≤ Real.exp a * (g / Real.exp m) + τ ∧ g / Real.exp m ≤ Real.exp a * (v + τ) := by
  rcases hl with ⟨rfl, rfl⟩ | ⟨A, rfl, h1, h2, h3⟩
  · have : v = 0 := h
    subst this
    simp [hτ, mul_nonneg, Real.exp_nonneg]
  · exact shift_close h0 hκ hτ hM h3 hm h1 h2 h ha

/-- normalised distributions -/
theorem soft_close {κ τ m M E a : ℝ} {l : ι → Option ℝ} {v q g : ι → ℝ} {s : ℝ} {N : ℕ} (hN : N = Fintype.card ι) (h0 : 0 ≤ κ) (hκ : κ ≤ 1 / 10) (hκN : κ * N ≤ 1 / 16) (hτ : 0 ≤ τ) (hτN : N * τ ≤ 1 / 64) (hM : 1 ≤ M)
    (hm : |m| ≤ M) (hE : 0 ≤ E) (ha : E + 5 * κ * M ≤ a) (ha' : a ≤ 1 / 4) (hl : ∀ x, LogApprox E M (l x) (g x)) (hg : Real.exp m / 4 ≤ ∑ x, g x) (h : RSoft κ τ m l v s q) :
    (∀ x, 0 ≤ v x ∧ v x ≤ Real.exp a * (g x / Real.exp m) + τ) ∧ (s ≤ Real.exp (sumAcc κ τ a N) * ((∑ x, g x) / Real.exp m) ∧ (∑ x, g x) / Real.exp m ≤ Real.exp (sumAcc κ τ a N) * s ∧ 0 < s) ∧
      ∀ x, |q x - g x / ∑ y, g y| ≤ (Real.exp (quotAcc κ τ a N) - 1) * (g x / ∑ y, g y) + 16 * τ := by
  have ha0 : 0 ≤ a := le_trans (by positivity) ha
  have hem := Real.exp_pos m
  have hsh := fun x => (hl x).shift h0 hκ hτ hM hm (h.shift x) ha
  have hW : 1 / 4 ≤ ∑ x, g x / Real.exp m := by
    rw [← Finset.sum_div, le_div_iff₀ hem]; linarith
  have hs := sum_close hN h0 hκ hτ hτN ha0 ha' (fun x => (hsh x).1) (fun x => (hsh x).2.1) (fun x => (hsh x).2.2) hW h.sum
  refine ⟨fun x => ⟨(hsh x).1, (hsh x).2.1⟩, by rwa [← Finset.sum_div] at hs, fun x => ?_⟩
  have hσ : sumAcc κ τ a N ≤ 9 / 16 := by
    rw [sumAcc]
    have : 12 * N * τ = 12 * (N * τ) := by ring
    have : 2 * κ * N = 2 * (κ * N) := by ring
    linarith
  have := quot_close h0 hκ hτ hσ (div_nonneg (hl x).nonneg hem.le) (hsh x).2.1 (hsh x).2.2 (hsh x).1 hW hs.1 hs.2.1 hs.2.2 (h.quot x)
  rw [← Finset.sum_div, div_div_div_cancel_right₀ hem.ne'] at this
  exact this

/-! ## Average posterior -/

variable {d : ℕ} {gs : Fin d → ℕ}

theorem log_max_close {ε p p' η : ℝ} (hε : 0 < ε) (hη : 0 ≤ η) (h1 : p' ≤ Real.exp η * p) (h2 : p ≤ Real.exp η * p') : |Real.log (max ε p') - Real.log (max ε p)| ≤ η := by
  have he : 1 ≤ Real.exp η := Real.one_le_exp hη
  have hm : 0 < max ε p := lt_max_of_lt_left hε
  have hm' : 0 < max ε p' := lt_max_of_lt_left hε
  apply log_close hm' hm
  · apply max_le
    · exact (le_max_left ε p).trans (le_mul_of_one_le_left hm.le he)
    · exact h1.trans (mul_le_mul_of_nonneg_left (le_max_right _ _) (by linarith))
  · apply max_le
    · exact (le_max_left ε p').trans (le_mul_of_one_le_left hm'.le he)
    · exact h2.trans (mul_le_mul_of_nonneg_left (le_max_right _ _) (by linarith))

theorem abs_log_max {ε p : ℝ} (hε : 0 < ε) (hε1 : ε ≤ 1) (hp : p ≤ 1) : |Real.log (max ε p)| ≤ |Real.log ε| := by
  have h1 := Real.log_le_log hε (le_max_left ε p)
  have h2 := Real.log_nonpos (lt_max_of_lt_left hε).le (max_le hε1 hp)
  rw [abs_of_nonpos h2, abs_of_nonpos (h1.trans h2)]
  linarith

/-- one summand -/
theorem term_close {κ ε M η p p' pr hp ev ℓ : ℝ} {le r : Option ℝ} (h0 : 0 ≤ κ) (hκ : κ ≤ 1 / 10) (hε : 0 < ε) (hε1 : ε ≤ 1) (hη : 0 ≤ η) (hs : 3 * η + 5 * κ * M ≤ 1 / 2)
    (hle : EvApprox η ev le) (hhp : ValApprox η pr hp) (hp1 : ev ≠ 0 → p ≤ 1) (hpp : ev ≠ 0 → p' ≤ Real.exp η * p ∧ p ≤ Real.exp η * p') (hℓ : 0 ≤ ℓ)
    (hM : ev ≠ 0 → pr ≠ 0 → 2 + |Real.log ε| + |Real.log ev| + |Real.log pr| + ℓ ≤ M) (h : RAvgTerm κ ε p' hp le r) :
    (∀ a, r = some a → 1 + |a| + ℓ ≤ M) ∧ expO r ≤ Real.exp (3 * η + 5 * κ * M) * (ev * pr * max ε p) ∧ ev * pr * max ε p ≤ Real.exp (3 * η + 5 * κ * M) * expO r := by
  rcases hle with ⟨rfl, rfl⟩ | ⟨A, rfl, hev, hA⟩
  · have : r = none := h
    subst this
    simp [expO]
  · rcases hhp with ⟨rfl, rfl⟩ | ⟨hp0, hpr, hhp⟩
    · have : r = none := by simpa [RAvgTerm] using h
      subst this
      simp [expO]
    · simp only [RAvgTerm, if_neg hp0.ne'] at h
      obtain ⟨a, b, c, l, k1, k2, k3, k4, rfl⟩ := h
      have hM' := hM hev.ne' hpr.ne'
      have hm : 0 < max ε p := lt_max_of_lt_left hε
      have c1 := log_max_close hε hη (hpp hev.ne').1 (hpp hev.ne').2
      have c2 := abs_log_max hε hε1 (hp1 hev.ne')
      have b1 := abs_sub_abs_le_abs_sub (Real.log (max ε p')) (Real.log (max ε p))
      have b2 := abs_sub_abs_le_abs_sub A (Real.log ev)
      have b3 := abs_sub_abs_le_abs_sub (Real.log hp) (Real.log pr)
      have hκM : 0 ≤ κ * M := mul_nonneg h0 (by linarith [abs_nonneg (Real.log ε), abs_nonneg (Real.log ev), abs_nonneg (Real.log pr)])
      have k5 := near_three h0 hκ (x := Real.log (max ε p')) (y := A) (z := Real.log hp) (M := M) (by linarith) k1 k2 k3 k4
      have htrue : Real.log (ev * pr * max ε p) = Real.log (max ε p) + Real.log ev + Real.log pr := by
        rw [Real.log_mul (mul_pos hev hpr).ne' hm.ne', Real.log_mul hev.ne' hpr.ne']; ring
      have k6 : |l - Real.log (ev * pr * max ε p)| ≤ 3 * η + 5 * κ * M := by
        rw [htrue]
        calc |l - (Real.log (max ε p) + Real.log ev + Real.log pr)|
            = |(l - (Real.log (max ε p') + A + Real.log hp)) + (Real.log (max ε p') - Real.log (max ε p)) + ((A - Real.log ev) + (Real.log hp - Real.log pr))| := by ring_nf
          _ ≤ |l - (Real.log (max ε p') + A + Real.log hp)| + |Real.log (max ε p') - Real.log (max ε p)| + |(A - Real.log ev) + (Real.log hp - Real.log pr)| := abs_add_three _ _ _
          _ ≤ _ := by linarith [abs_add_le (A - Real.log ev) (Real.log hp - Real.log pr)]
      have hgpos : 0 < ev * pr * max ε p := mul_pos (mul_pos hev hpr) hm
      refine ⟨?_, exp_le_of_log hgpos k6⟩
      rintro a' ha'
      cases ha'
      have := abs_sub_abs_le_abs_sub l (Real.log (ev * pr * max ε p))
      have h3 : |Real.log (ev * pr * max ε p)| ≤ |Real.log ε| + |Real.log ev| + |Real.log pr| := by
        rw [htrue]
        exact (abs_add_three _ _ _).trans (by linarith)
      linarith

/-- log-space average at one grid point -/
theorem avg_log_close {κ M δ : ℝ} {n : ℕ} (h0 : 0 ≤ κ) (hM1 : 1 ≤ M) (hn : δ + 2 * κ * M * n ≤ 1 / 2) (hδ : 0 ≤ δ) {term : Fin n → Option ℝ} {g : Fin n → ℝ} {r : Option ℝ} (hr : RLogAdd κ (Finset.univ.val.map term) r)
    (h1 : ∀ i a, term i = some a → 1 + |a| + Real.log n ≤ M) (h2 : ∀ i, expO (term i) ≤ Real.exp δ * g i) (h3 : ∀ i, g i ≤ Real.exp δ * expO (term i)) :
    LogApprox (δ + 2 * κ * M * n) M r (∑ i, g i) := by
  have hS : ((Finset.univ.val.map term).map expO).sum = ∑ i, expO (term i) := by rw [Multiset.map_map]; rfl
  have hcard : (Finset.univ.val.map term).card = n := by rw [Multiset.card_map]; simp
  have hmem : ∀ a, some a ∈ Finset.univ.val.map term → 1 + |a| + Real.log n ≤ M := by
    intro a ha
    obtain ⟨i, -, hi⟩ := Multiset.mem_map.1 ha
    exact h1 i a hi
  have key := hr.spec h0 hM1 (by linarith) hmem hcard.le
  rw [hS, hcard] at key
  have s1 : ∑ i, expO (term i) ≤ Real.exp δ * ∑ i, g i := by rw [Finset.mul_sum]; exact Finset.sum_le_sum fun i _ => h2 i
  have s2 : ∑ i, g i ≤ Real.exp δ * ∑ i, expO (term i) := by rw [Finset.mul_sum]; exact Finset.sum_le_sum fun i _ => h3 i
  have hg0 : 0 ≤ ∑ i, g i := by
    refine Finset.sum_nonneg fun i _ => ?_
    have := (expO_nonneg (term i)).trans (h2 i)
    exact nonneg_of_mul_nonneg_right this (Real.exp_pos δ)
  cases r with
  | none =>
      left
      refine ⟨rfl, le_antisymm ?_ hg0⟩
      rw [key.1 rfl, mul_zero] at s2
      exact s2
  | some A =>
      obtain ⟨k1, k2⟩ := key.2 A rfl
      have hg : 0 < ∑ i, g i := by
        by_contra hno
        have : ∑ i, g i = 0 := le_antisymm (not_lt.1 hno) hg0
        rw [this, mul_zero] at s1
        linarith
      right
      refine ⟨A, rfl, hg, ?_, ?_⟩
      · have := log_close k1 hg s1 s2
        have := abs_sub_le A (Real.log (∑ i, expO (term i))) (Real.log (∑ i, g i))
        linarith
      · have h5 := sum_exp_bounds (B := M - 1 - Real.log n) (l := Finset.univ.val.map term) (n := n) (fun a ha => by linarith [hmem a ha]) hcard.le (by rw [hS]; exact k1)
        rw [hS] at h5
        have := abs_sub_abs_le_abs_sub A (Real.log (∑ i, expO (term i)))
        linarith

/-- unnormalised average -/
noncomputable def mixAt {n : ℕ} (ε : ℝ) (P : Fin n → ℕ → Idx gs → ℝ) (ev pr : Fin n → ℝ) (t : ℕ) (x : Idx gs) : ℝ := ∑ k, ev k * pr k * max ε (P k t x)

/-- Accuracy of the average posterior. -/
theorem average_close {κ τ ε η M : ℝ} {n T N : ℕ} (hN : N = Fintype.card (Idx gs)) (h0 : 0 ≤ κ) (hκ : κ ≤ 1 / 10) (hκN : κ * N ≤ 1 / 16) (hτ : 0 ≤ τ) (hτN : N * τ ≤ 1 / 64) (hη : 0 ≤ η) (hε : 0 < ε) (hεN : N * ε ≤ 1)
    (hM1 : 1 ≤ M) (hΔ : logAcc κ η M n ≤ 1 / 4) {P post : Fin n → ℕ → Idx gs → ℝ} {ev pr hp : Fin n → ℝ} {le : Fin n → Option ℝ}
    (hle : ∀ k, EvApprox η (ev k) (le k)) (hhp : ∀ k, ValApprox η (pr k) (hp k)) (hev0 : ∀ k, 0 ≤ ev k) (hpr0 : ∀ k, 0 ≤ pr k)
    (hP : ∀ k, ev k ≠ 0 → ∀ t < T, (∀ x, 0 ≤ P k t x) ∧ ∑ x, P k t x = 1)
    (hpost : ∀ k, ev k ≠ 0 → ∀ t < T, ∀ x, post k t x ≤ Real.exp η * P k t x ∧ P k t x ≤ Real.exp η * post k t x)
    (hM : ∀ k, ev k ≠ 0 → pr k ≠ 0 → 2 + |Real.log ε| + |Real.log (ev k)| + |Real.log (pr k)| + Real.log n ≤ M)
    {lg : ℕ → Idx gs → Option ℝ} {m : ℝ} {v : ℕ → Idx gs → ℝ} {s : ℕ → ℝ} {q : ℕ → Idx gs → ℝ} (h : RAverage κ τ ε n T post le hp lg m v s q) {t : ℕ} (ht : t < T) :
    (∀ x, 0 ≤ v t x ∧ v t x ≤ 2) ∧ 1 / 10 ≤ s t ∧ s t ≤ 4 * N ∧ 0 < ∑ y, mixAt ε P ev pr t y ∧
      ∀ x, |q t x - mixAt ε P ev pr t x / ∑ y, mixAt ε P ev pr t y| ≤
        (Real.exp (quotAcc κ τ (logAcc κ η M n) N) - 1) * (mixAt ε P ev pr t x / ∑ y, mixAt ε P ev pr t y) + 16 * τ := by
  have hκM : 0 ≤ κ * M := mul_nonneg h0 (by linarith)
  have hκMn : 0 ≤ κ * M * n := by positivity
  have hΔ' : 3 * η + 5 * κ * M + 2 * κ * M * n + 5 * κ * M = logAcc κ η M n := by rw [logAcc]; ring
  obtain ⟨E, hE⟩ : ∃ E, E = 3 * η + 5 * κ * M + 2 * κ * M * n := ⟨_, rfl⟩
  have hE0 : 0 ≤ E := by rw [hE]; nlinarith
  have hEa : E + 5 * κ * M = logAcc κ η M n := by rw [hE, hΔ']
  have hE4 : E ≤ 1 / 4 := by nlinarith
  have hne : Nonempty (Idx gs) := by
    obtain ⟨t, -, x, -⟩ := h.max.1
    exact ⟨x⟩
  have hN1 : (1 : ℝ) ≤ N := by rw [hN]; exact_mod_cast Fintype.card_pos
  have hε1 : ε ≤ 1 := by nlinarith
  have hlogn : 0 ≤ Real.log n := by
    rcases Nat.eq_zero_or_pos n with h | h
    · rw [h]; simp
    · exact Real.log_nonneg (by exact_mod_cast h)
  have happ : ∀ t < T, ∀ x, LogApprox E M (lg t x) (mixAt ε P ev pr t x) := by
    intro t ht x
    obtain ⟨term, k1, k2⟩ := h.log t ht x
    have key := fun k => term_close h0 hκ hε hε1 hη (by nlinarith) (hle k) (hhp k)
      (fun he => by
        obtain ⟨p0, p1⟩ := hP k he t ht
        rw [← p1]
        exact Finset.single_le_sum (fun y _ => p0 y) (Finset.mem_univ x))
      (fun he => hpost k he t ht x) hlogn (hM k) (k1 k)
    rw [hE]
    exact avg_log_close h0 hM1 (by linarith) (by nlinarith) k2 (fun i => (key i).1) (fun i => (key i).2.1) (fun i => (key i).2.2)
  -- the maximum
  obtain ⟨⟨t', ht', x', hx'⟩, hmax⟩ := h.max
  have hm : |m| ≤ M ∧ 0 < mixAt ε P ev pr t' x' ∧ |m - Real.log (mixAt ε P ev pr t' x')| ≤ E := by
    rcases happ t' ht' x' with ⟨h1, -⟩ | ⟨A, h1, h2, h3, h4⟩
    · rw [hx'] at h1; cases h1
    · rw [hx'] at h1
      cases h1
      exact ⟨h4, h2, h3⟩
  obtain ⟨hm1, hm2, hm3⟩ := hm
  have hem := Real.exp_pos m
  -- sums over the grid
  obtain ⟨Z, hZ⟩ : ∃ Z, Z = ∑ k, ev k * pr k := ⟨_, rfl⟩
  have hsumt : ∀ t < T, Z ≤ ∑ x, mixAt ε P ev pr t x ∧ ∑ x, mixAt ε P ev pr t x ≤ 2 * Z := by
    intro t ht
    have e : ∑ x, mixAt ε P ev pr t x = ∑ k, ev k * pr k * ∑ x, max ε (P k t x) := by
      simp only [mixAt]
      rw [Finset.sum_comm]
      exact Finset.sum_congr rfl fun k _ => by rw [Finset.mul_sum]
    rw [e, hZ, Finset.mul_sum]
    constructor
    · refine Finset.sum_le_sum fun k _ => ?_
      by_cases hk : ev k = 0
      · simp [hk]
      · refine le_mul_of_one_le_right (mul_nonneg (hev0 k) (hpr0 k)) ?_
        rw [← (hP k hk t ht).2]
        exact Finset.sum_le_sum fun x _ => le_max_right _ _
    · refine Finset.sum_le_sum fun k _ => ?_
      by_cases hk : ev k = 0
      · simp [hk]
      · rw [mul_comm 2]
        refine mul_le_mul_of_nonneg_left ?_ (mul_nonneg (hev0 k) (hpr0 k))
        calc ∑ x, max ε (P k t x) ≤ ∑ x, (ε + P k t x) := Finset.sum_le_sum fun x _ => max_le (by linarith [(hP k hk t ht).1 x]) (by linarith)
          _ = N * ε + 1 := by rw [Finset.sum_add_distrib, (hP k hk t ht).2, Finset.sum_const, Finset.card_univ, nsmul_eq_mul, hN]
          _ ≤ 2 := by linarith
  have hmix0 : ∀ t x, 0 ≤ mixAt ε P ev pr t x := fun t x => Finset.sum_nonneg fun k _ => mul_nonneg (mul_nonneg (hev0 k) (hpr0 k)) (hε.le.trans (le_max_left _ _))
  have hE43 : Real.exp E ≤ 4 / 3 := (exp_le_inv (by linarith)).trans (by rw [div_le_div_iff₀ (by linarith) (by norm_num)]; linarith)
  have hmm : Real.exp m ≤ 4 / 3 * mixAt ε P ev pr t' x' := (exp_le_of_log hm2 hm3).1.trans (mul_le_mul_of_nonneg_right hE43 hm2.le)
  have hlow : Real.exp m / 4 ≤ ∑ x, mixAt ε P ev pr t x := by
    have h1 := Finset.single_le_sum (f := fun x => mixAt ε P ev pr t' x) (fun y _ => hmix0 t' y) (Finset.mem_univ x')
    have h2 := (hsumt t' ht').2
    have h3 := (hsumt t ht).1
    linarith
  have hpos : 0 < ∑ y, mixAt ε P ev pr t y := lt_of_lt_of_le (by positivity) hlow
  obtain ⟨r1, ⟨r2, r3, r4⟩, r5⟩ := soft_close hN h0 hκ hκN hτ hτN hM1 hm1 hE0 hEa.le hΔ (happ t ht) hlow (h.soft t ht)
  have hgm : ∀ x, mixAt ε P ev pr t x / Real.exp m ≤ 4 / 3 := by
    intro x
    rw [div_le_iff₀ hem]
    rcases happ t ht x with ⟨-, h2⟩ | ⟨A, h1, h2, h3, -⟩
    · rw [h2]; positivity
    · have hA : A ≤ m := hmax ⟨t, ht, x, h1⟩
      calc mixAt ε P ev pr t x ≤ Real.exp E * Real.exp A := (exp_le_of_log h2 h3).2
        _ ≤ 4 / 3 * Real.exp m := mul_le_mul hE43 (Real.exp_le_exp.2 hA) (Real.exp_nonneg _) (by norm_num)
  have hNτ : τ ≤ 1 / 64 := by nlinarith
  have hea : Real.exp (logAcc κ η M n) ≤ 4 / 3 := (exp_le_inv (by linarith)).trans (by rw [div_le_div_iff₀ (by linarith) (by norm_num)]; linarith)
  have hσ : sumAcc κ τ (logAcc κ η M n) N ≤ 9 / 16 := by
    rw [sumAcc]
    have : 12 * N * τ = 12 * (N * τ) := by ring
    have : 2 * κ * N = 2 * (κ * N) := by ring
    linarith
  have hes : Real.exp (sumAcc κ τ (logAcc κ η M n) N) ≤ 16 / 7 := (exp_le_inv (by linarith)).trans (by rw [div_le_div_iff₀ (by linarith) (by norm_num)]; linarith)
  refine ⟨fun x => ⟨(r1 x).1, ?_⟩, ?_, ?_, hpos, r5⟩
  · have hg0 : 0 ≤ mixAt ε P ev pr t x / Real.exp m := div_nonneg (hmix0 t x) hem.le
    have := mul_le_mul hea (hgm x) hg0 (by norm_num)
    linarith [(r1 x).2]
  · have : 1 / 4 ≤ (∑ x, mixAt ε P ev pr t x) / Real.exp m := by rw [le_div_iff₀ hem]; linarith
    have := r3.trans (mul_le_mul_of_nonneg_right hes r4.le)
    linarith
  · have e : (∑ x, mixAt ε P ev pr t x) / Real.exp m ≤ N * (4 / 3) := by
      rw [Finset.sum_div]
      calc ∑ x, mixAt ε P ev pr t x / Real.exp m ≤ ∑ _x : Idx gs, (4 / 3 : ℝ) := Finset.sum_le_sum fun x _ => hgm x
        _ = _ := by rw [Finset.sum_const, Finset.card_univ, nsmul_eq_mul, hN]
    have := mul_le_mul hes e (div_nonneg hpos.le hem.le) (by norm_num)
    linarith

/-! ## Hyper-parameter distribution -/

/-- one entry of the list of logarithms -/
theorem hyper_log_close {κ M η pr hp ev c lc : ℝ} {le r : Option ℝ} (h0 : 0 ≤ κ) (hκ : κ ≤ 1 / 10) (hη : 0 ≤ η) (hs : 3 * η + 5 * κ * M ≤ 1 / 2) (hc : 0 < c) (hlc : |lc - Real.log c| ≤ η)
    (hle : EvApprox η ev le) (hhp : ValApprox η pr hp) (hM : ev ≠ 0 → pr ≠ 0 → 2 + |Real.log ev| + |Real.log pr| + |Real.log c| ≤ M) (h : RLogHyper κ lc hp le r) :
    LogApprox (3 * η + 5 * κ * M) M r (ev * pr * c) := by
  rcases hle with ⟨rfl, rfl⟩ | ⟨A, rfl, hev, hA⟩
  · left; exact ⟨h, by simp⟩
  · rcases hhp with ⟨rfl, rfl⟩ | ⟨hp0, hpr, hhp⟩
    · left; exact ⟨by simpa [RLogHyper] using h, by simp⟩
    · simp only [RLogHyper, if_neg hp0.ne'] at h
      obtain ⟨a, b, l, k1, k2, k3, rfl⟩ := h
      right
      have hM' := hM hev.ne' hpr.ne'
      have b2 := abs_sub_abs_le_abs_sub A (Real.log ev)
      have b3 := abs_sub_abs_le_abs_sub (Real.log hp) (Real.log pr)
      have b4 := abs_sub_abs_le_abs_sub lc (Real.log c)
      have hκM : 0 ≤ κ * M := mul_nonneg h0 (by linarith [abs_nonneg (Real.log c), abs_nonneg (Real.log ev), abs_nonneg (Real.log pr)])
      have hz : Near κ lc lc := by
        unfold Near
        rw [sub_self, abs_zero]
        positivity
      have k5 := near_three h0 hκ (x := Real.log hp) (y := A) (z := lc) (M := M) (by linarith) k1 (by rwa [add_comm a A]) hz k3
      have htrue : Real.log (ev * pr * c) = Real.log pr + Real.log ev + Real.log c := by
        rw [Real.log_mul (mul_pos hev hpr).ne' hc.ne', Real.log_mul hev.ne' hpr.ne']; ring
      have k6 : |l - Real.log (ev * pr * c)| ≤ 3 * η + 5 * κ * M := by
        rw [htrue]
        calc |l - (Real.log pr + Real.log ev + Real.log c)|
            = |(l - (Real.log hp + A + lc)) + (Real.log hp - Real.log pr) + ((A - Real.log ev) + (lc - Real.log c))| := by ring_nf
          _ ≤ |l - (Real.log hp + A + lc)| + |Real.log hp - Real.log pr| + |(A - Real.log ev) + (lc - Real.log c)| := abs_add_three _ _ _
          _ ≤ _ := by linarith [abs_add_le (A - Real.log ev) (lc - Real.log c)]
      refine ⟨l, rfl, mul_pos (mul_pos hev hpr) hc, k6, ?_⟩
      have h3 : |Real.log (ev * pr * c)| ≤ |Real.log pr| + |Real.log ev| + |Real.log c| := by
        rw [htrue]; exact abs_add_three _ _ _
      have := abs_sub_abs_le_abs_sub l (Real.log (ev * pr * c))
      linarith

/-- division by the cell of the hyper-grid -/
theorem dens_close {κ τ η Ω p q c c' D : ℝ} (h0 : 0 ≤ κ) (hκ : κ ≤ 1 / 10) (hτ : 0 ≤ τ) (hη : 0 ≤ η) (hη12 : η ≤ 1 / 12) (hΩ0 : 0 ≤ Ω) (hp0 : 0 ≤ p) (hc : 0 < c) (hc' : 0 < c')
    (hcc : |Real.log c' - Real.log c| ≤ η) (hq0 : 0 ≤ q) (hq : |q - p| ≤ (Real.exp Ω - 1) * p + 16 * τ) (hD0 : 0 ≤ D) (hD : |D - q / c'| ≤ κ * (q / c') + τ) :
    |D - p / c| ≤ (Real.exp (Ω + η + 2 * κ) - 1) * (p / c) + (20 / c + 1) * τ := by
  have heη : Real.exp η ≤ 12 / 11 := (exp_le_inv (by linarith)).trans (by rw [div_le_div_iff₀ (by linarith) (by norm_num)]; linarith)
  have hc1 := exp_le_of_log hc (a := Real.log c') hcc
  rw [Real.exp_log hc'] at hc1
  have i1 : 1 / c' ≤ Real.exp η / c := by rw [div_le_div_iff₀ hc' hc]; linarith [hc1.2]
  have i2 : 1 / c ≤ Real.exp η / c' := by rw [div_le_div_iff₀ hc hc']; linarith [hc1.1]
  rw [abs_le] at hq hD ⊢
  have hqc : q / c' = q * (1 / c') := by ring
  have hpc : p / c = p * (1 / c) := by ring
  have hpc0 : 0 ≤ p / c := by positivity
  obtain ⟨A, hA⟩ : ∃ A, A = Real.exp Ω := ⟨_, rfl⟩
  obtain ⟨B, hB⟩ : ∃ B, B = Real.exp (η + 2 * κ) := ⟨_, rfl⟩
  have hA1 : 1 ≤ A := by rw [hA]; exact Real.one_le_exp hΩ0
  have hB1 : 1 ≤ B := by rw [hB]; exact Real.one_le_exp (by linarith)
  have hAB : Real.exp (Ω + η + 2 * κ) = A * B := by rw [hA, hB, ← Real.exp_add]; congr 1; ring
  rw [hAB]
  rw [← hA] at hq
  have hBκ : (1 + κ) * Real.exp η ≤ B := by
    rw [hB, add_comm η, Real.exp_add]
    exact mul_le_mul_of_nonneg_right (by linarith [Real.add_one_le_exp (2 * κ)]) (Real.exp_nonneg _)
  have hBκ' : Real.exp η ≤ B * (1 - κ) := by
    have := one_sub_ge h0 (by linarith : κ ≤ 1 / 2)
    rw [hB, Real.exp_add, mul_assoc]
    refine le_mul_of_one_le_right (Real.exp_nonneg _) ?_
    rw [Real.exp_neg, inv_le_iff_one_le_mul₀ (Real.exp_pos _)] at this
    linarith
  constructor
  · -- from below
    by_cases h2A : 2 ≤ A
    · have : 0 ≤ (20 / c + 1) * τ := by positivity
      have h3 : 1 ≤ A * B - 1 := by nlinarith
      have := mul_le_mul_of_nonneg_right h3 hpc0
      linarith
    · push Not at h2A
      have e1 : (2 - A) * p - 16 * τ ≤ q := by linarith
      -- lower bound of q / c'
      have e2 : (2 - A) * (p / c) ≤ Real.exp η * (q / c' + 16 * τ * (1 / c')) := by
        have h3 : (2 - A) * p ≤ q + 16 * τ := by linarith
        have h4 : 0 ≤ (2 - A) * p := mul_nonneg (by linarith) hp0
        calc (2 - A) * (p / c) = (2 - A) * p * (1 / c) := by ring
          _ ≤ (2 - A) * p * (Real.exp η / c') := mul_le_mul_of_nonneg_left i2 h4
          _ ≤ (q + 16 * τ) * (Real.exp η / c') := mul_le_mul_of_nonneg_right h3 (by positivity)
          _ = _ := by ring
      have e3 : 16 * τ * (1 / c') ≤ 18 / c * τ := by
        have := mul_le_mul_of_nonneg_left i1 (by positivity : 0 ≤ 16 * τ)
        calc 16 * τ * (1 / c') ≤ 16 * τ * (Real.exp η / c) := this
          _ = 16 * Real.exp η * (τ / c) := by ring
          _ ≤ 18 * (τ / c) := mul_le_mul_of_nonneg_right (by linarith) (by positivity)
          _ = _ := by ring
      have hqc0 : 0 ≤ q / c' := by positivity
      have e4 : (2 - A) * (p / c) ≤ B * ((1 - κ) * (q / c') + 18 / c * τ) := by
        have h5 : 0 ≤ 18 / c * τ := by positivity
        calc (2 - A) * (p / c) ≤ Real.exp η * (q / c' + 16 * τ * (1 / c')) := e2
          _ ≤ Real.exp η * (q / c' + 18 / c * τ) := mul_le_mul_of_nonneg_left (by linarith) (Real.exp_nonneg _)
          _ = Real.exp η * (q / c') + Real.exp η * (18 / c * τ) := by ring
          _ ≤ B * (1 - κ) * (q / c') + B * (18 / c * τ) := add_le_add (mul_le_mul_of_nonneg_right hBκ' hqc0) (mul_le_mul_of_nonneg_right (by nlinarith [Real.exp_nonneg η]) h5)
          _ = _ := by ring
      have e5 : (1 - κ) * (q / c') ≤ D + τ := by linarith [hD.1]
      have e6 : (2 - A) * (p / c) ≤ B * (D + (18 / c + 1) * τ) := e4.trans (mul_le_mul_of_nonneg_left (by linarith) (by linarith))
      have e7 : (2 - A * B) * B ≤ 2 - A := by nlinarith [mul_nonneg (sub_nonneg.2 hB1) (sub_nonneg.2 hA1)]
      have e8 : B * ((2 - A * B) * (p / c)) ≤ B * (D + (18 / c + 1) * τ) := by
        calc B * ((2 - A * B) * (p / c)) = (2 - A * B) * B * (p / c) := by ring
          _ ≤ (2 - A) * (p / c) := mul_le_mul_of_nonneg_right e7 hpc0
          _ ≤ _ := e6
      have e9 := le_of_mul_le_mul_left e8 (by linarith)
      have e10 : 18 / c * τ ≤ 20 / c * τ := mul_le_mul_of_nonneg_right (div_le_div_of_nonneg_right (by norm_num) hc.le) hτ
      linarith
  · have e1 : q / c' ≤ (A * p + 16 * τ) * (Real.exp η / c) := by
      rw [hqc]
      exact mul_le_mul (by linarith) i1 (by positivity) (by positivity)
    have e2 : D ≤ (1 + κ) * (q / c') + τ := by linarith [hD.2]
    have e3 : (1 + κ) * (q / c') ≤ A * B * (p / c) + 20 / c * τ := by
      calc (1 + κ) * (q / c') ≤ (1 + κ) * ((A * p + 16 * τ) * (Real.exp η / c)) := mul_le_mul_of_nonneg_left e1 (by linarith)
        _ = (1 + κ) * Real.exp η * (A * (p / c)) + (1 + κ) * Real.exp η * 16 * (τ / c) := by ring
        _ ≤ B * (A * (p / c)) + 20 * (τ / c) := by
            apply add_le_add (mul_le_mul_of_nonneg_right hBκ (by positivity))
            refine mul_le_mul_of_nonneg_right ?_ (by positivity)
            nlinarith
        _ = _ := by ring
    linarith

/-- Accuracy of hyper-parameter distribution and log-evidence. -/
theorem hyper_close {κ τ η M : ℝ} {n : ℕ} (h0 : 0 ≤ κ) (hκ : κ ≤ 1 / 10) (hκn : κ * n ≤ 1 / 16) (hτ : 0 ≤ τ) (hτn : n * τ ≤ 1 / 64) (hη : 0 ≤ η) (hM2 : 2 ≤ M) (hΔ : logAcc κ η M n ≤ 1 / 4)
    {ev pr hp : Fin n → ℝ} {le : Fin n → Option ℝ} {c lc c' : ℝ} (hc : 0 < c) (hlc : |lc - Real.log c| ≤ η) (hc' : 0 < c') (hcc : |Real.log c' - Real.log c| ≤ η)
    (hle : ∀ k, EvApprox η (ev k) (le k)) (hhp : ∀ k, ValApprox η (pr k) (hp k)) (hlogM : 2 + Real.log n ≤ M)
    (hM : ∀ k, ev k ≠ 0 → pr k ≠ 0 → 2 + |Real.log (ev k)| + |Real.log (pr k)| + |Real.log c| ≤ M)
    {l : Fin n → Option ℝ} {m : ℝ} {v : Fin n → ℝ} {s : ℝ} {q D : Fin n → ℝ} {L : ℝ} (h : RHyper κ τ n le hp lc c' l m v s q D L) :
    0 < ∑ k, ev k * pr k * c ∧ (∀ k, |q k - ev k * pr k * c / ∑ k, ev k * pr k * c| ≤
        (Real.exp (quotAcc κ τ (logAcc κ η M n) n) - 1) * (ev k * pr k * c / ∑ k, ev k * pr k * c) + 16 * τ) ∧
      (∀ k, |D k - ev k * pr k * c / (∑ k, ev k * pr k * c) / c| ≤
        (Real.exp (quotAcc κ τ (logAcc κ η M n) n + η + 2 * κ) - 1) * (ev k * pr k * c / (∑ k, ev k * pr k * c) / c) + (20 / c + 1) * τ) ∧
      |L - Real.log (∑ k, ev k * pr k * c)| ≤ sumAcc κ τ (logAcc κ η M n) n + 6 * κ * M := by
  have hκM : 0 ≤ κ * M := mul_nonneg h0 (by linarith)
  have hκMn : 0 ≤ κ * M * n := by positivity
  obtain ⟨Δ, hΔd⟩ : ∃ Δ, Δ = logAcc κ η M n := ⟨_, rfl⟩
  rw [← hΔd] at hΔ ⊢
  have hΔe : Δ = 3 * η + 10 * (κ * M) + 2 * (κ * M * n) := by rw [hΔd, logAcc]; ring
  obtain ⟨E, hE⟩ : ∃ E, E = 3 * η + 5 * κ * M := ⟨_, rfl⟩
  have hE0 : 0 ≤ E := by rw [hE]; nlinarith
  have hEa : E + 5 * κ * M ≤ Δ := by rw [hE, hΔe]; linarith
  have hE4 : E ≤ 1 / 4 := by nlinarith
  have happ : ∀ k, LogApprox E M (l k) (ev k * pr k * c) := by
    intro k
    rw [hE]
    exact hyper_log_close h0 hκ hη (by linarith) hc hlc (hle k) (hhp k) (hM k) (h.log k)
  obtain ⟨⟨k', hk'⟩, hmax⟩ := h.max
  have hm : |m| ≤ M ∧ 0 < ev k' * pr k' * c ∧ |m - Real.log (ev k' * pr k' * c)| ≤ E := by
    rcases happ k' with ⟨h1, -⟩ | ⟨A, h1, h2, h3, h4⟩
    · rw [hk'] at h1; cases h1
    · rw [hk'] at h1
      cases h1
      exact ⟨h4, h2, h3⟩
  obtain ⟨hm1, hm2, hm3⟩ := hm
  have hem := Real.exp_pos m
  have hE43 : Real.exp E ≤ 4 / 3 := (exp_le_inv (by linarith)).trans (by rw [div_le_div_iff₀ (by linarith) (by norm_num)]; linarith)
  have hmm : Real.exp m ≤ 4 / 3 * (ev k' * pr k' * c) := (exp_le_of_log hm2 hm3).1.trans (mul_le_mul_of_nonneg_right hE43 hm2.le)
  obtain ⟨G, hG⟩ : ∃ G, G = ∑ k, ev k * pr k * c := ⟨_, rfl⟩
  have hlow' : Real.exp m ≤ 4 / 3 * G := by
    have h1 := Finset.single_le_sum (f := fun k => ev k * pr k * c) (fun y _ => (happ y).nonneg) (Finset.mem_univ k')
    rw [hG]
    linarith
  have hlow : Real.exp m / 4 ≤ ∑ k, ev k * pr k * c := by rw [← hG]; linarith
  obtain ⟨r1, ⟨r2, r3, r4⟩, r5⟩ := soft_close (by simp) h0 hκ hκn hτ hτn (by linarith) hm1 hE0 hEa hΔ happ hlow h.soft
  rw [← hG] at r2 r3 hlow ⊢
  simp only [← hG] at r5
  have hGpos : 0 < G := by linarith
  have hn1 : (1 : ℝ) ≤ n := by exact_mod_cast (by have := k'.isLt; omega : 1 ≤ n)
  have hlogn := Real.log_nonneg hn1
  refine ⟨hGpos, r5, fun k => ?_, ?_⟩
  · -- density
    obtain ⟨p, hp⟩ : ∃ p, p = ev k * pr k * c / G := ⟨_, rfl⟩
    have hp0 : 0 ≤ p := by rw [hp]; exact div_nonneg (happ k).nonneg hGpos.le
    obtain ⟨Ω, hΩ⟩ : ∃ Ω, Ω = quotAcc κ τ Δ n := ⟨_, rfl⟩
    have hΩ0 : 0 ≤ Ω := by
      rw [hΩ, quotAcc, sumAcc]
      have : 0 ≤ Δ := hE0.trans (by nlinarith)
      positivity
    have hq := r5 k
    obtain ⟨hD0, hD⟩ := h.dens k
    have hq0 : 0 ≤ q k := (h.soft.quot k).1
    rw [← hp] at hq ⊢
    rw [← hΩ] at hq ⊢
    exact dens_close h0 hκ hτ hη (by nlinarith) hΩ0 hp0 hc hc' hcc hq0 hq hD0 hD
  · -- log-evidence
    obtain ⟨v', s', a, l1, l2, l3, l4⟩ := h.lse
    have hsh := fun k => (happ k).shift h0 hκ hτ (by linarith : 1 ≤ M) hm1 (l1 k) hEa
    have hW : 1 / 4 ≤ ∑ k, ev k * pr k * c / Real.exp m := by
      rw [← Finset.sum_div, le_div_iff₀ hem, ← hG]; linarith
    have hs := sum_close (N := n) (by simp) h0 hκ hτ hτn (hE0.trans (by nlinarith)) hΔ (fun x => (hsh x).1) (fun x => (hsh x).2.1) (fun x => (hsh x).2.2) hW l2
    rw [← Finset.sum_div, ← hG] at hs
    obtain ⟨σ, hσd⟩ : ∃ σ, σ = sumAcc κ τ Δ n := ⟨_, rfl⟩
    rw [← hσd] at hs ⊢
    have hσ : σ ≤ 9 / 16 := by
      rw [hσd, sumAcc]
      have : 12 * n * τ = 12 * (n * τ) := by ring
      have : 2 * κ * n = 2 * (κ * n) := by ring
      linarith
    have e1 := log_close hs.2.2 (by positivity) hs.1 hs.2.1
    have hGm : Real.log (G / Real.exp m) = Real.log G - m := by rw [Real.log_div hGpos.ne' hem.ne', Real.log_exp]
    have hup : G ≤ n * (4 / 3 * Real.exp m) := by
      rw [hG]
      calc ∑ k, ev k * pr k * c ≤ ∑ _k : Fin n, 4 / 3 * Real.exp m := by
            refine Finset.sum_le_sum fun k _ => ?_
            rcases happ k with ⟨-, h2⟩ | ⟨A, h1, h2, h3, -⟩
            · rw [h2]; positivity
            · have hA : A ≤ m := hmax ⟨k, h1⟩
              exact (exp_le_of_log h2 h3).2.trans (mul_le_mul hE43 (Real.exp_le_exp.2 hA) (Real.exp_nonneg _) (by norm_num))
        _ = _ := by simp
    have hlog43 : Real.log (4 / 3) ≤ 1 / 3 := by have := Real.log_le_sub_one_of_pos (show (0 : ℝ) < 4 / 3 by norm_num); linarith
    have b1 : Real.log G - m ≤ Real.log n + 1 / 3 := by
      have := Real.log_le_log hGpos hup
      rw [Real.log_mul (by linarith) (by positivity), Real.log_mul (by norm_num) hem.ne', Real.log_exp] at this
      linarith
    have b2 : -(1 / 3) ≤ Real.log G - m := by
      have := Real.log_le_log hem hlow'
      rw [Real.log_mul (by norm_num) hGpos.ne', Real.log_exp] at this
      linarith
    have b3 : |Real.log G - m| ≤ Real.log n + 1 / 3 := by rw [abs_le]; constructor <;> linarith
    rw [hGm] at e1
    have b4 : |Real.log s'| ≤ M - 1 := by
      have := abs_sub_abs_le_abs_sub (Real.log s') (Real.log G - m)
      linarith
    have e2 : |a - Real.log s'| ≤ κ * M := l3.trans (mul_le_mul_of_nonneg_left (by linarith) h0)
    have b5 : |a + m| ≤ M - 1 + κ * M + M := by
      have := abs_sub_abs_le_abs_sub a (Real.log s')
      have := abs_add_le a m
      linarith
    have hκM' : κ * M ≤ 1 / 10 * M := mul_le_mul_of_nonneg_right hκ (by linarith)
    have e3 : |L - (a + m)| ≤ κ * (3 * M) := l4.trans (mul_le_mul_of_nonneg_left (by linarith) h0)
    calc |L - Real.log G| = |(L - (a + m)) + (a - Real.log s') + (Real.log s' - (Real.log G - m))| := by ring_nf
      _ ≤ |L - (a + m)| + |a - Real.log s'| + |Real.log s' - (Real.log G - m)| := abs_add_three _ _ _
      _ ≤ _ := by linarith

end BL
