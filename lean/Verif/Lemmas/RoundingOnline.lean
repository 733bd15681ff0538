import Verif.Model.RoundingOnline
import Verif.Lemmas.SoftMaxHyper

/-! # Rounding errors of averages over hypotheses -/

set_option linter.unusedSectionVars false

namespace BL
open Spec
variable {d : ℕ} {gs : Fin d → ℕ}

theorem _root_.Spec.Off.upper {Ω θ a b : ℝ} (h : Off Ω θ a b) : b ≤ Real.exp Ω * a + θ := by
  have := (abs_le.1 h).2
  linarith

theorem _root_.Spec.Off.mono {Ω Ω' θ θ' a b : ℝ} (ha : 0 ≤ a) (hΩ : Ω ≤ Ω') (hθ : θ ≤ θ') (h : Off Ω θ a b) : Off Ω' θ' a b := by
  unfold Off at *
  have := mul_le_mul_of_nonneg_right (Real.exp_le_exp.2 hΩ) ha
  linarith

theorem _root_.Spec.Off.trans {Ω Ω' θ θ' a b c : ℝ} (hΩ' : 0 ≤ Ω') (h : Off Ω θ a b) (h' : Off Ω' θ' b c) : Off (Ω + Ω') (Real.exp Ω' * θ + θ') a c := by
  have hb := h.upper
  unfold Off at *
  have h1 := abs_sub_le c b a
  have h2 : (Real.exp Ω' - 1) * b ≤ (Real.exp Ω' - 1) * (Real.exp Ω * a + θ) := mul_le_mul_of_nonneg_left hb (by linarith [Real.one_le_exp hΩ'])
  rw [Real.exp_add]
  nlinarith

theorem _root_.Spec.Off.mul {Ω Ω' θ θ' a a' b b' : ℝ} (hΩ : 0 ≤ Ω) (hθ : 0 ≤ θ) (ha : 0 ≤ a) (hb' : 0 ≤ b') (h : Off Ω θ a a') (h' : Off Ω' θ' b b') :
    Off (Ω + Ω') (Real.exp Ω' * b * θ + Real.exp Ω * a * θ' + θ * θ') (a * b) (a' * b') := by
  have hu := h'.upper
  unfold Off at *
  have e1 : |a' * b' - a * b| ≤ |a' - a| * b' + a * |b' - b| := by
    calc |a' * b' - a * b| = |(a' - a) * b' + a * (b' - b)| := by ring_nf
      _ ≤ |(a' - a) * b'| + |a * (b' - b)| := abs_add_le _ _
      _ = _ := by rw [abs_mul, abs_mul, abs_of_nonneg hb', abs_of_nonneg ha]
  have hg : 0 ≤ (Real.exp Ω - 1) * a + θ := by
    have := mul_nonneg (sub_nonneg.2 (Real.one_le_exp hΩ)) ha
    linarith
  have e2 : |a' - a| * b' ≤ ((Real.exp Ω - 1) * a + θ) * (Real.exp Ω' * b + θ') := (mul_le_mul_of_nonneg_right h hb').trans (mul_le_mul_of_nonneg_left hu hg)
  have e3 := mul_le_mul_of_nonneg_left h' ha
  rw [Real.exp_add]
  nlinarith

theorem _root_.Spec.Off.sum {ι : Type} [Fintype ι] {Ω θ : ℝ} {a b : ι → ℝ} (h : ∀ i, Off Ω θ (a i) (b i)) : Off Ω (Fintype.card ι * θ) (∑ i, a i) (∑ i, b i) := by
  unfold Off at *
  rw [← Finset.sum_sub_distrib]
  refine (Finset.abs_sum_le_sum_abs _ _).trans ((Finset.sum_le_sum fun i _ => h i).trans (le_of_eq ?_))
  rw [Finset.sum_add_distrib, ← Finset.mul_sum]
  simp

theorem off_tiny {κ τ a b : ℝ} (ha : 0 ≤ a) (h : RTiny κ τ a b) : Off κ τ a b := by
  refine h.2.trans ?_
  have := mul_le_mul_of_nonneg_right (Real.add_one_le_exp κ) ha
  linarith

theorem off_exp {η a b : ℝ} (hη : 0 ≤ η) (ha : 0 ≤ a) (h1 : b ≤ Real.exp η * a) (h2 : a ≤ Real.exp η * b) : Off η 0 a b := by
  unfold Off
  have he := Real.exp_pos η
  have h1' := Real.one_le_exp hη
  have h3 : Real.exp (-η) * a ≤ b := by
    rw [Real.exp_neg, inv_mul_le_iff₀ he]; exact h2
  have h4 : 2 ≤ Real.exp η + Real.exp (-η) := by
    rw [Real.exp_neg]
    have e : Real.exp η + (Real.exp η)⁻¹ - 2 = (Real.exp η - 1) ^ 2 / Real.exp η := by field_simp; ring
    have : 0 ≤ (Real.exp η - 1) ^ 2 / Real.exp η := by positivity
    linarith
  have h5 := mul_le_mul_of_nonneg_right h4 ha
  rw [abs_le]
  constructor <;> nlinarith

theorem off_sum {ι : Type} [Fintype ι] {κ : ℝ} (h0 : 0 ≤ κ) (hκ : κ ≤ 1 / 2) {z : ι → ℝ} (hz : ∀ i, 0 ≤ z i) {s : ℝ} (h : RSum κ (Finset.univ.val.map z) s) : Off (2 * κ * Fintype.card ι) 0 (∑ i, z i) s := by
  have h1 := h.acc h0 (by linarith) (by
    intro a ha
    obtain ⟨i, -, rfl⟩ := Multiset.mem_map.1 ha
    exact hz i)
  have hS : (Finset.univ.val.map z).sum = ∑ i, z i := rfl
  have hc : (Finset.univ.val.map z).card = Fintype.card ι := by rw [Multiset.card_map]; rfl
  rw [hS, hc] at h1
  have h2 : Acc κ (Fintype.card ι) (∑ i, z i) s := h1.mono h0 (by linarith) (by omega)
  have hp := pow_one_sub_ge h0 hκ (Fintype.card ι)
  obtain ⟨N, hN⟩ : ∃ N : ℝ, N = 2 * κ * Fintype.card ι := ⟨_, rfl⟩
  rw [← hN] at hp ⊢
  have hN0 : 0 ≤ N := by rw [hN]; positivity
  have key : ∀ {x y : ℝ}, 0 ≤ x → (1 - κ) ^ Fintype.card ι * x ≤ y → x ≤ Real.exp N * y := by
    intro x y hx hxy
    have := (mul_le_mul_of_nonneg_right hp hx).trans hxy
    rw [Real.exp_neg, inv_mul_le_iff₀ (Real.exp_pos _)] at this
    exact this
  exact off_exp hN0 h2.left (key h2.right h2.upper) (key h2.left h2.lower)

/-! ## hyper-parameters of one transition model -/

theorem rolog_hyper {κ hp le : ℝ} {r : Option ℝ} (h0 : 0 ≤ κ) (h : ROLog κ hp le r) : RLogHyper κ 0 hp (some le) r := by
  unfold ROLog at h
  simp only [RLogHyper]
  split at h
  · rw [if_pos (by assumption)]; exact h
  · rw [if_neg (by assumption)]
    obtain ⟨a, l, h1, h2, h3⟩ := h
    refine ⟨a, l, l, h1, h2, ?_, h3⟩
    rw [add_zero, Near, sub_self, abs_zero]; positivity

/-- accuracy of `logsumexp` and of normalised weights for log-evidences with error `η` and prior values -/
theorem weights_close {κ τ η M : ℝ} {n : ℕ} (h0 : 0 ≤ κ) (hκn : κ * n ≤ 1 / 16) (hκ : κ ≤ 1 / 10) (hτ : 0 ≤ τ) (hτn : n * τ ≤ 1 / 64) (hη : 0 ≤ η) (hM2 : 2 ≤ M) (hΔ : logAcc κ η M n ≤ 1 / 4)
    {ev pr hp le : Fin n → ℝ} (hev : ∀ k, 0 < ev k) (hle : ∀ k, |le k - Real.log (ev k)| ≤ η) (hhp : ∀ k, ValApprox η (pr k) (hp k)) (hlogM : 2 + Real.log n ≤ M)
    (hM : ∀ k, pr k ≠ 0 → 2 + |Real.log (ev k)| + |Real.log (pr k)| ≤ M) {l : Fin n → Option ℝ} (hl : ∀ k, ROLog κ (hp k) (le k) (l k)) :
    (∀ q, RWeights κ τ l q → 0 < ∑ k, ev k * pr k ∧ ∀ k, 0 ≤ q k ∧ Off (quotAcc κ τ (logAcc κ η M n) n) (16 * τ) (ev k * pr k / ∑ k, ev k * pr k) (q k)) ∧
      ∀ L, RLogSumExp κ τ l L → 0 < ∑ k, ev k * pr k ∧ |L - Real.log (∑ k, ev k * pr k)| ≤ sumAcc κ τ (logAcc κ η M n) n + 6 * κ * M := by
  have hle' : ∀ k, EvApprox η (ev k) (some (le k)) := fun k => Or.inr ⟨_, rfl, hev k, hle k⟩
  have hM' : ∀ k, ev k ≠ 0 → pr k ≠ 0 → 2 + |Real.log (ev k)| + |Real.log (pr k)| + |Real.log 1| ≤ M := fun k _ h => by simpa using hM k h
  have key := fun {m : ℝ} {v : Fin n → ℝ} {s : ℝ} {q D : Fin n → ℝ} {L : ℝ} (h : RHyper κ τ n (fun k => some (le k)) hp 0 1 l m v s q D L) =>
    hyper_close (c := 1) (lc := 0) (c' := 1) h0 hκ hκn hτ hτn hη hM2 hΔ one_pos (by simpa using hη) one_pos (by simpa using hη) hle' hhp hlogM hM' h
  have tself : ∀ {a : ℝ}, 0 ≤ a → RTiny κ τ a a := fun ha => ⟨ha, by rw [sub_self, abs_zero]; positivity⟩
  constructor
  · rintro q ⟨m, v, s, h1, h2⟩
    have hvn : ∀ k, 0 ≤ v k := by
      intro k
      have := h2.shift k
      cases hk : l k with
      | none => rw [hk] at this; exact (show v k = 0 from this).ge
      | some a => rw [hk] at this; obtain ⟨D, -, h3, -⟩ := this; exact h3
    obtain ⟨a, ha⟩ : ∃ a, a = Real.log s := ⟨_, rfl⟩
    have hR : RHyper κ τ n (fun k => some (le k)) hp 0 1 l m v s q q (a + m) :=
      ⟨fun k => rolog_hyper h0 (hl k), h1, h2, fun k => by rw [div_one]; exact tself (h2.quot k).1,
        v, s, a, h2.shift, h2.sum, by rw [ha, Near, sub_self, abs_zero]; positivity, by rw [Near, sub_self, abs_zero]; positivity⟩
    obtain ⟨k1, k2, -⟩ := key hR
    simp only [mul_one] at k1 k2
    exact ⟨k1, fun k => ⟨(h2.quot k).1, k2 k⟩⟩
  · rintro L ⟨m, v, s, a, h1, h2, h3, h4, h5⟩
    have hsum := h3
    have hvn : ∀ k, 0 ≤ v k := by
      intro k
      have := h2 k
      cases hk : l k with
      | none => rw [hk] at this; exact (show v k = 0 from this).ge
      | some a => rw [hk] at this; obtain ⟨D, -, h3, -⟩ := this; exact h3
    have hs0 : 0 ≤ s := by
      refine (h3.acc h0 (by linarith) ?_).right
      intro a ha
      obtain ⟨i, -, rfl⟩ := Multiset.mem_map.1 ha
      exact hvn i
    have hq : ∀ k, RTiny κ τ (v k / s) (v k / s) := fun k => tself (div_nonneg (hvn k) hs0)
    have hR : RHyper κ τ n (fun k => some (le k)) hp 0 1 l m v s (fun k => v k / s) (fun k => v k / s) L :=
      ⟨fun k => rolog_hyper h0 (hl k), h1, ⟨h2, h3, hq⟩, fun k => by rw [div_one]; exact hq k, v, s, a, h2, h3, h4, h5⟩
    obtain ⟨k1, -, -, k4⟩ := key hR
    simp only [mul_one] at k1 k4
    exact ⟨k1, k4⟩

/-- a weighted average, computed with rounding errors: `z` is the array of computed products -/
theorem mix_close {n : ℕ} {κ τ Ω θ : ℝ} (h0 : 0 ≤ κ) (hκn : κ * n ≤ 1 / 16) (hκ : κ ≤ 1 / 10) (hθ : 0 ≤ θ) {a z : Fin n → ℝ} (hz : ∀ i, 0 ≤ z i) (h : ∀ i, Off Ω θ (a i) (z i)) {s : ℝ}
    (hs : RSum κ (Finset.univ.val.map z) s) (ha : ∀ i, 0 ≤ a i) : 0 ≤ s ∧ Off (Ω + 2 * κ * n) (2 * n * θ) (∑ i, a i) s := by
  have h1 := off_sum h0 (by linarith) hz hs
  have h2 := Spec.Off.sum h
  rw [Fintype.card_fin] at h1 h2
  have hN0 : 0 ≤ 2 * κ * n := by positivity
  have he : Real.exp (2 * κ * n) ≤ 2 := (exp_le_inv (by linarith)).trans (by rw [div_le_iff₀ (by linarith)]; linarith)
  have h3 := h2.trans hN0 h1
  refine ⟨?_, h3.mono (Finset.sum_nonneg fun i _ => ha i) le_rfl ?_⟩
  · refine (hs.acc h0 (by linarith) ?_).right
    intro a ha
    obtain ⟨i, -, rfl⟩ := Multiset.mem_map.1 ha
    exact hz i
  · have := mul_le_mul_of_nonneg_right he (show 0 ≤ n * θ by positivity)
    linarith

/-- hyper-parameter distribution, evidence and posterior of one transition model -/
theorem model_close {κ τ η M : ℝ} {n : ℕ} (h0 : 0 ≤ κ) (hκn : κ * n ≤ 1 / 16) (hκ : κ ≤ 1 / 10) (hτ : 0 ≤ τ) (hτn : n * τ ≤ 1 / 64) (hη : 0 ≤ η) (hM2 : 2 ≤ M) (hΔ : logAcc κ η M n ≤ 1 / 4)
    {ev pr hp le : Fin n → ℝ} (hev : ∀ k, 0 < ev k) (hle : ∀ k, |le k - Real.log (ev k)| ≤ η) (hhp : ∀ k, ValApprox η (pr k) (hp k)) (hlogM : 2 + Real.log n ≤ M)
    (hM : ∀ k, pr k ≠ 0 → 2 + |Real.log (ev k)| + |Real.log (pr k)| ≤ M) {c c' : ℝ} (hc : 0 < c) (hc' : 0 < c') (hcc : |Real.log c' - Real.log c| ≤ η)
    {P post : Fin n → Idx gs → ℝ} (hP : ∀ k x, 0 ≤ P k x ∧ P k x ≤ 1) (hpost : ∀ k x, post k x ≤ Real.exp η * P k x ∧ P k x ≤ Real.exp η * post k x)
    {D : Fin n → ℝ} {L : ℝ} {Q : Idx gs → ℝ} (h : ROModel κ τ le hp post c' D L Q) :
    0 < ∑ k, ev k * pr k ∧ (∀ k, Off (quotAcc κ τ (logAcc κ η M n) n + η + 2 * κ) ((20 / c + 1) * τ) (ev k * pr k / (∑ k, ev k * pr k) / c) (D k)) ∧
      |L - Real.log (∑ k, ev k * pr k)| ≤ sumAcc κ τ (logAcc κ η M n) n + 6 * κ * M ∧
      ∀ x, 0 ≤ Q x ∧ Off (quotAcc κ τ (logAcc κ η M n) n + 3 * η + 4 * κ + 2 * κ * n) (n * (68 + 6 * c) * τ) (∑ k, ev k * pr k / (∑ k, ev k * pr k) * P k x) (Q x) := by
  have hpr : ∀ k, 0 ≤ pr k := fun k => by rcases hhp k with ⟨-, h⟩ | ⟨-, h, -⟩; exacts [h.ge, h.le]
  have hΔ0 : 0 ≤ logAcc κ η M n := by
    rw [logAcc]
    have : 0 ≤ (2 * (n : ℝ) + 10) * κ * M := by positivity
    linarith
  have hη12 : η ≤ 1 / 12 := by
    have h1 := hΔ
    rw [logAcc] at h1
    have : 0 ≤ (2 * (n : ℝ) + 10) * κ * M := by positivity
    linarith
  obtain ⟨l1, a1, a2⟩ := h.evidence
  obtain ⟨l2, q, b1, b2, b3⟩ := h.hpd
  obtain ⟨hG, hL⟩ := (weights_close h0 hκn hκ hτ hτn hη hM2 hΔ hev hle hhp hlogM hM a1).2 L a2
  obtain ⟨-, hq⟩ := (weights_close h0 hκn hκ hτ hτn hη hM2 hΔ hev hle hhp hlogM hM b1).1 q b2
  obtain ⟨Ω, hΩ⟩ : ∃ Ω, Ω = quotAcc κ τ (logAcc κ η M n) n := ⟨_, rfl⟩
  obtain ⟨G, hGd⟩ : ∃ G, G = ∑ k, ev k * pr k := ⟨_, rfl⟩
  rw [← hGd] at hG hL
  simp only [← hΩ, ← hGd] at hq ⊢
  have hΩ0 : 0 ≤ Ω := by rw [hΩ, quotAcc, sumAcc]; positivity
  have hw : ∀ k, 0 ≤ ev k * pr k / G := fun k => div_nonneg (mul_nonneg (hev k).le (hpr k)) hG.le
  have hD : ∀ k, Off (Ω + η + 2 * κ) ((20 / c + 1) * τ) (ev k * pr k / G / c) (D k) := fun k =>
    dens_close h0 hκ hτ hη hη12 hΩ0 (hw k) hc hc' hcc (hq k).1 (hq k).2 (b3 k).1 (b3 k).2
  refine ⟨hG, hD, hL, fun x => ?_⟩
  obtain ⟨y, z, z1, z2, z3⟩ := h.post x
  have heη : Real.exp η ≤ 12 / 11 := (exp_le_inv (by linarith)).trans (by rw [div_le_div_iff₀ (by linarith) (by norm_num)]; linarith)
  have heκ : Real.exp κ ≤ 10 / 9 := (exp_le_inv (by linarith)).trans (by rw [div_le_div_iff₀ (by linarith) (by norm_num)]; linarith)
  have heη0 := Real.exp_pos η
  have heκ0 := Real.exp_pos κ
  have hcoff : Off η 0 c c' := by
    have h1 := exp_le_of_log hc hcc
    rw [Real.exp_log hc'] at h1
    exact off_exp hη hc.le h1.1 h1.2
  have hpost0 : ∀ k, 0 ≤ post k x := fun k => by
    by_contra h1
    push Not at h1
    have := mul_neg_of_pos_of_neg heη0 h1
    linarith [(hpost k x).2, (hP k x).1]
  have hz : ∀ k, Off (Ω + 3 * η + 4 * κ) ((34 + 3 * c) * τ) (ev k * pr k / G * P k x) (z k) := by
    intro k
    have e1 : Off η 0 (P k x) (post k x) := off_exp hη (hP k x).1 (hpost k x).1 (hpost k x).2
    have hwc : 0 ≤ ev k * pr k / G / c := div_nonneg (hw k) hc.le
    have e2 := e1.mul hη le_rfl (hP k x).1 (b3 k).1 (hD k)
    have e3 := e2.trans h0 (off_tiny (mul_nonneg (hpost0 k) (b3 k).1) (z1 k))
    have hθ : 0 ≤ (20 / c + 1) * τ := by positivity
    have e3' := e3.mono (Ω' := Ω + 2 * η + 3 * κ) (θ' := 12 / 10 * (11 / 10) * ((20 / c + 1) * τ) + τ) (mul_nonneg (hP k x).1 hwc) (by linarith) (by
      have i1 : Real.exp η * P k x * ((20 / c + 1) * τ) ≤ 12 / 11 * 1 * ((20 / c + 1) * τ) :=
        mul_le_mul_of_nonneg_right (mul_le_mul heη (hP k x).2 (hP k x).1 (by norm_num)) hθ
      have i2 : Real.exp κ * (Real.exp (Ω + η + 2 * κ) * (ev k * pr k / G / c) * 0 + Real.exp η * P k x * ((20 / c + 1) * τ) + 0 * ((20 / c + 1) * τ)) ≤ 10 / 9 * (12 / 11 * 1 * ((20 / c + 1) * τ)) :=
        mul_le_mul heκ (by linarith) (by have := mul_nonneg (mul_nonneg heη0.le (hP k x).1) hθ; linarith) (by norm_num)
      linarith)
    have e4 := e3'.mul (by positivity) (by positivity) (mul_nonneg (hP k x).1 hwc) hc'.le hcoff
    have e5 := e4.trans h0 (off_tiny (mul_nonneg (z1 k).1 hc'.le) (z2 k))
    have ee : P k x * (ev k * pr k / G / c) * c = ev k * pr k / G * P k x := by field_simp
    rw [ee] at e5
    refine e5.mono (mul_nonneg (hw k) (hP k x).1) (by linarith) ?_
    have hcτ : 0 ≤ c * τ := by positivity
    have j0 : c * (12 / 10 * (11 / 10) * ((20 / c + 1) * τ) + τ) = 132 / 100 * (20 * τ + c * τ) + c * τ := by field_simp; ring
    have j1 : Real.exp η * c * (12 / 10 * (11 / 10) * ((20 / c + 1) * τ) + τ) ≤ 12 / 11 * (132 / 100 * (20 * τ + c * τ) + c * τ) := by
      rw [mul_assoc, j0]
      exact mul_le_mul_of_nonneg_right heη (by positivity)
    have j2 : Real.exp κ * (Real.exp η * c * (12 / 10 * (11 / 10) * ((20 / c + 1) * τ) + τ) + Real.exp (Ω + 2 * η + 3 * κ) * (P k x * (ev k * pr k / G / c)) * 0 +
        (12 / 10 * (11 / 10) * ((20 / c + 1) * τ) + τ) * 0) ≤ 10 / 9 * (12 / 11 * (132 / 100 * (20 * τ + c * τ) + c * τ)) := by
      refine mul_le_mul heκ (by linarith) ?_ (by norm_num)
      have : 0 ≤ Real.exp η * c * (12 / 10 * (11 / 10) * ((20 / c + 1) * τ) + τ) := by positivity
      linarith
    nlinarith
  have := mix_close (τ := τ) h0 hκn hκ (by positivity) (fun k => (z2 k).1) hz z3 fun k => mul_nonneg (hw k) (hP k x).1
  refine ⟨this.1, this.2.mono (Finset.sum_nonneg fun k _ => mul_nonneg (hw k) (hP k x).1) le_rfl (le_of_eq (by ring))⟩

/-- distribution of the transition models, posterior and evidence -/
theorem combine_close {κ τ η M Ω ϑ : ℝ} {r : ℕ} (h0 : 0 ≤ κ) (hκr : κ * r ≤ 1 / 16) (hκ : κ ≤ 1 / 10) (hτ : 0 ≤ τ) (hτr : r * τ ≤ 1 / 64) (hη : 0 ≤ η) (hM2 : 2 ≤ M) (hΔ : logAcc κ η M r ≤ 1 / 4)
    (hΩ0 : 0 ≤ Ω) (hΩ1 : Ω ≤ 1) (hϑ0 : 0 ≤ ϑ) (hϑ1 : ϑ ≤ 1) (hW : quotAcc κ τ (logAcc κ η M r) r ≤ 1)
    {H L : Fin r → ℝ} (hH : ∀ i, 0 < H i) (hL : ∀ i, |L i - Real.log (H i)| ≤ η) (hlogM : 2 + Real.log r ≤ M) (hM : ∀ i, 2 + |Real.log (H i)| ≤ M)
    {Q₀ Q : Fin r → Idx gs → ℝ} (hQ₀ : ∀ i x, 0 ≤ Q₀ i x ∧ Q₀ i x ≤ 1) (hQ : ∀ i x, 0 ≤ Q i x ∧ Off Ω ϑ (Q₀ i x) (Q i x)) {w : Fin r → ℝ} (hw : RWeights κ τ (fun i => some (L i)) w) :
    0 < ∑ i, H i ∧ (∀ i, 0 ≤ w i ∧ Off (quotAcc κ τ (logAcc κ η M r) r) (16 * τ) (H i / ∑ i, H i) (w i)) ∧
      ∀ (z : Fin r → ℝ) (x : Idx gs) (P : ℝ), (∀ i, RTiny κ τ (Q i x * w i) (z i)) → RSum κ (Finset.univ.val.map z) P →
        0 ≤ P ∧ Off (Ω + quotAcc κ τ (logAcc κ η M r) r + κ + 2 * κ * r) (r * (8 * ϑ + 146 * τ)) (∑ i, H i / (∑ i, H i) * Q₀ i x) P := by
  have hlog : ∀ i, ROLog κ 1 (L i) (some (L i)) := fun i => by
    rw [ROLog, if_neg one_ne_zero]
    refine ⟨0, L i, ?_, ?_, rfl⟩
    · rw [Real.log_one, Near, sub_self, abs_zero]; positivity
    · rw [add_zero, Near, sub_self, abs_zero]; positivity
  have hone : ∀ _ : Fin r, ValApprox η 1 1 := fun _ => Or.inr ⟨one_pos, one_pos, by simpa using hη⟩
  obtain ⟨hG, hq⟩ := (weights_close (pr := fun _ => 1) (hp := fun _ => 1) h0 hκr hκ hτ hτr hη hM2 hΔ hH hL hone hlogM (fun i _ => by simpa using hM i) hlog).1 w hw
  simp only [mul_one] at hG hq
  obtain ⟨W, hWd⟩ : ∃ W, W = quotAcc κ τ (logAcc κ η M r) r := ⟨_, rfl⟩
  obtain ⟨G, hGd⟩ : ∃ G, G = ∑ i, H i := ⟨_, rfl⟩
  rw [← hGd] at hG
  simp only [← hWd, ← hGd] at hq hW ⊢
  have hΔ0 : 0 ≤ logAcc κ η M r := by
    rw [logAcc]
    have : 0 ≤ (2 * (r : ℝ) + 10) * κ * M := by positivity
    linarith
  have hW0 : 0 ≤ W := by rw [hWd, quotAcc, sumAcc]; positivity
  have hp : ∀ i, 0 ≤ H i / G ∧ H i / G ≤ 1 := fun i => by
    refine ⟨div_nonneg (hH i).le hG.le, ?_⟩
    rw [div_le_one hG, hGd]
    exact Finset.single_le_sum (fun y _ => (hH y).le) (Finset.mem_univ i)
  refine ⟨hG, hq, fun z x P z1 z2 => ?_⟩
  have he3 : ∀ {t : ℝ}, t ≤ 1 → Real.exp t ≤ 3 := fun ht => by
    have := Real.exp_le_exp.2 ht
    linarith [Real.exp_one_lt_d9]
  have heκ : Real.exp κ ≤ 10 / 9 := (exp_le_inv (by linarith)).trans (by rw [div_le_div_iff₀ (by linarith) (by norm_num)]; linarith)
  have heκ0 := Real.exp_pos κ
  have hz : ∀ i, Off (Ω + W + κ) (4 * ϑ + 73 * τ) (H i / G * Q₀ i x) (z i) := by
    intro i
    have e1 := (hQ i x).2.mul hΩ0 hϑ0 (hQ₀ i x).1 (hq i).1 (hq i).2
    have e2 := e1.trans h0 (off_tiny (mul_nonneg (hQ i x).1 (hq i).1) (z1 i))
    rw [mul_comm (Q₀ i x)] at e2
    refine e2.mono (mul_nonneg (hp i).1 (hQ₀ i x).1) le_rfl ?_
    have i1 : Real.exp W * (H i / G) * ϑ ≤ 3 * 1 * ϑ := mul_le_mul_of_nonneg_right (mul_le_mul (he3 hW) (hp i).2 (hp i).1 (by norm_num)) hϑ0
    have i2 : Real.exp Ω * Q₀ i x * (16 * τ) ≤ 3 * 1 * (16 * τ) := mul_le_mul_of_nonneg_right (mul_le_mul (he3 hΩ1) (hQ₀ i x).2 (hQ₀ i x).1 (by norm_num)) (by positivity)
    have i3 : ϑ * (16 * τ) ≤ 1 * (16 * τ) := mul_le_mul_of_nonneg_right hϑ1 (by positivity)
    have i4 : Real.exp κ * (Real.exp W * (H i / G) * ϑ + Real.exp Ω * Q₀ i x * (16 * τ) + ϑ * (16 * τ)) ≤ 10 / 9 * (3 * ϑ + 64 * τ) := by
      refine mul_le_mul heκ (by linarith) ?_ (by norm_num)
      have := (hp i).1
      have := (hQ₀ i x).1
      have := Real.exp_pos W
      have := Real.exp_pos Ω
      positivity
    linarith
  have := mix_close (τ := τ) h0 hκr hκ (by positivity) (fun i => (z1 i).1) hz z2 fun i => mul_nonneg (hp i).1 (hQ₀ i x).1
  exact ⟨this.1, this.2.mono (Finset.sum_nonneg fun i _ => mul_nonneg (hp i).1 (hQ₀ i x).1) le_rfl (le_of_eq (by ring))⟩

/-- local distribution of the transition models -/
theorem local_close {κ τ η M : ℝ} {r : ℕ} (h0 : 0 ≤ κ) (hκr : κ * r ≤ 1 / 16) (hκ : κ ≤ 1 / 10) (hτ : 0 ≤ τ) (hτr : r * τ ≤ 1 / 64) (hη : 0 ≤ η) (hM2 : 2 ≤ M) (hΔ : logAcc κ (2 * η + κ * M) M r ≤ 1 / 4)
    {Ho H Lo L π₀ π : Fin r → ℝ} (hHo : ∀ i, 0 < Ho i) (hH : ∀ i, 0 < H i) (hLo : ∀ i, |Lo i - Real.log (Ho i)| ≤ η) (hL : ∀ i, |L i - Real.log (H i)| ≤ η) (hπ : ∀ i, ValApprox η (π₀ i) (π i))
    (hlogM : 2 + Real.log r ≤ M) (hM : ∀ i, 2 + |Real.log (H i / Ho i)| + |Real.log (π₀ i)| ≤ M) {w : Fin r → ℝ} (hw : ROLocal κ τ Lo L π w) :
    0 < ∑ i, H i / Ho i * π₀ i ∧ ∀ i, 0 ≤ w i ∧ Off (quotAcc κ τ (logAcc κ (2 * η + κ * M) M r) r) (16 * τ) (H i / Ho i * π₀ i / ∑ i, H i / Ho i * π₀ i) (w i) := by
  obtain ⟨δ, l, d1, d2, d3⟩ := hw
  have hκM : 0 ≤ κ * M := mul_nonneg h0 (by linarith)
  have hη1 : 2 * η ≤ 1 := by
    rw [logAcc] at hΔ
    have : 0 ≤ (2 * (r : ℝ) + 10) * κ * M := by positivity
    linarith
  have hδ : ∀ i, |δ i - Real.log (H i / Ho i)| ≤ 2 * η + κ * M := by
    intro i
    have e : Real.log (H i / Ho i) = Real.log (H i) - Real.log (Ho i) := Real.log_div (hH i).ne' (hHo i).ne'
    have h1 : |L i - Lo i - Real.log (H i / Ho i)| ≤ 2 * η := by
      rw [e, show L i - Lo i - (Real.log (H i) - Real.log (Ho i)) = (L i - Real.log (H i)) - (Lo i - Real.log (Ho i)) by ring]
      exact (abs_sub _ _).trans (by linarith [hL i, hLo i])
    have h2 : |L i - Lo i| ≤ M - 1 := by
      have := abs_sub_abs_le_abs_sub (L i - Lo i) (Real.log (H i / Ho i))
      linarith [hM i, abs_nonneg (Real.log (π₀ i))]
    have h3 : |δ i - (L i - Lo i)| ≤ κ * M := (d1 i).trans (mul_le_mul_of_nonneg_left (by linarith) h0)
    have := abs_sub_le (δ i) (L i - Lo i) (Real.log (H i / Ho i))
    linarith
  have hπ' : ∀ i, ValApprox (2 * η + κ * M) (π₀ i) (π i) := fun i => (hπ i).imp id fun ⟨a, b, c⟩ => ⟨a, b, by linarith⟩
  exact (weights_close (ev := fun i => H i / Ho i) h0 hκr hκ hτ hτr (by linarith) hM2 hΔ (fun i => div_pos (hH i) (hHo i)) hδ hπ' hlogM (fun i _ => hM i) d2).1 w d3

end BL
