import Verif.Lemmas.Float64Fit

/-! # Steps of runs with numbers of type `float64` -/

set_option linter.unusedSectionVars false

namespace BL
open Spec
variable {K : Type} [Field K] [LinearOrder K] [IsStrictOrderedRing K] [FloorRing K] {d : ℕ} {gs : Fin d → ℕ} {E : Env K gs}

/-- what is assumed of the values of a likelihood: zero or at least `l`, and the positive values have ratios of at most `c` -/
structure LikOK (l c : K) (L : Idx gs → K) : Prop where
  nonneg : ∀ x, 0 ≤ L x
  low : Low l L
  ratio : ∀ x y, L x ≠ 0 → L y ≤ c * L x

/-- product of two arrays without very small values -/
theorem mul_fl {m m' : K} {a b r : Idx gs → K} (ha : ∀ x, 0 ≤ a x) (hb : ∀ x, 0 ≤ b x) (hm : 0 ≤ m) (la : Low m a) (lb : Low m' b) (ht : tiny64 K ≤ m * m') (h : ∀ x, Fl (a x * b x) (r x)) :
    FArr r ∧ ∀ x, Rounded (u64 K) (a x * b x) (r x) := by
  refine ⟨fun x => ⟨(h x).1, (h x).nonneg (mul_nonneg (ha x) (hb x))⟩, fun x => (h x).rounded' ?_⟩
  rcases la x with h1 | h1
  · left; rw [h1, zero_mul]
  · rcases lb x with h2 | h2
    · left; rw [h2, mul_zero]
    · right
      exact ht.trans (mul_le_mul_of_nonneg' h1 h2 hm (hb x))
where
  mul_le_mul_of_nonneg' {a b c d : K} (h1 : a ≤ c) (h2 : b ≤ d) (ha : 0 ≤ a) (hd : 0 ≤ d) : a * b ≤ c * d :=
    (mul_le_mul_of_nonneg_left h2 ha).trans (mul_le_mul_of_nonneg_right h1 hd)

/-- division by the sum -/
theorem div_fl {M : ℕ} (hM : 1 / 2 ≤ (1 - u64 K) ^ M) (hG : Fintype.card (Idx gs) ≤ M) (h1M : 1 ≤ M) {n : K} {p r : Idx gs → K} {s : K} (hp : FArr p) (hs : FSumGrid p s) (h0 : 0 < s)
    (hl : ∀ x, p x = 0 ∨ n * s ≤ p x) (ht : tiny64 K ≤ n) (h : ∀ x, Fl (p x / s) (r x)) :
    RSumGrid (u64 K) p s ∧ (∀ x, Rounded (u64 K) (p x / s) (r x)) ∧ FArr r ∧ (∀ x, p x / (2 * s) ≤ r x) ∧ (∀ x, p x = 0 → r x = 0) ∧ s ≤ 2 * ∑ x, p x ∧ 1 / 4 ≤ ∑ x, r x ∧ ∑ x, r x ≤ 4 := by
  obtain ⟨-, h2⟩ := hs.rsum fun x => (hp x).1
  have hacc := (h2.acc u64_pos.le u64_lt fun x => (hp x).2).half u64_pos.le u64_lt hM hG
  have hR : ∀ x, Rounded (u64 K) (p x / s) (r x) := fun x => (h x).rounded' (by
    rcases hl x with h3 | h3
    · left; rw [h3, zero_div]
    · right; rw [le_div_iff₀ h0]; exact (mul_le_mul_of_nonneg_right ht h0.le).trans h3)
  have hn : ∀ x, 0 ≤ p x / s := fun x => div_nonneg (hp x).2 h0.le
  have hA : ∀ x, p x / s ≤ 2 * r x ∧ r x ≤ 2 * (p x / s) := fun x => ((hR x).acc u64_pos.le u64_lt (hn x)).half u64_pos.le u64_lt hM h1M
  have hsum : ∑ x, p x / s = (∑ x, p x) / s := by rw [Finset.sum_div]
  refine ⟨h2, hR, fun x => ⟨(h x).1, (h x).nonneg (hn x)⟩, fun x => ?_, fun x hx => ?_, hacc.2, ?_, ?_⟩
  · have := (hA x).1
    have h3 : p x / (2 * s) = p x / s / 2 := by field_simp
    rw [h3]; linarith
  · have := h x
    rw [hx, zero_div] at this
    exact this.zero
  · have h3 : ∑ x, p x / s ≤ 2 * ∑ x, r x := by rw [Finset.mul_sum]; exact Finset.sum_le_sum fun x _ => (hA x).1
    have h4 : 1 / 2 ≤ (∑ x, p x) / s := by rw [le_div_iff₀ h0]; linarith [hacc.2]
    linarith
  · have h3 : ∑ x, r x ≤ 2 * ∑ x, p x / s := by rw [Finset.mul_sum]; exact Finset.sum_le_sum fun x _ => (hA x).2
    have h4 : (∑ x, p x) / s ≤ 2 := by rw [div_le_iff₀ h0]; linarith [hacc.1]
    linarith

/-- `alpha *= likelihood` and `norm`: nothing is lost -/
theorem fstep_mul {m l c : K} {a a' L : Idx gs → K} {norm : K} (ha : FArr a) (hm : 0 ≤ m) (la : Low m a) (hLik : LikOK l c L) (ht : tiny64 K ≤ m * l) (h1 : ∀ x, Fl (a x * L x) (a' x)) (h2 : FSumGrid a' norm) :
    FArr a' ∧ (∀ x, Rounded (u64 K) (a x * L x) (a' x)) ∧ RSumGrid (u64 K) a' norm := by
  obtain ⟨h3, h4⟩ := mul_fl (fun x => (ha x).2) hLik.nonneg hm la hLik.low ht h1
  exact ⟨h3, h4, (h2.rsum fun x => (h3 x).1).2⟩

/-- a step of the forward loop -/
theorem fstep_div {M : ℕ} (hM : 1 / 2 ≤ (1 - u64 K) ^ M) (hG : Fintype.card (Idx gs) ≤ M) (h1M : 1 ≤ M) {m l c S : K} {a a' α L : Idx gs → K} {norm : K} (hc : 0 < c) (hS : 0 < S) (ha : FArr a) (hm : 0 ≤ m) (la : Low m a)
    (hsum : ∑ x, a x ≤ S) (hLik : LikOK l c L) (ht : tiny64 K ≤ m * l) (ht2 : tiny64 K ≤ m / (8 * c * S)) (h1 : ∀ x, Fl (a x * L x) (a' x)) (h2 : FSumGrid a' norm) (h0 : 0 < norm) (h3 : ∀ x, Fl (a' x / norm) (α x)) :
    (∀ x, Rounded (u64 K) (a' x / norm) (α x)) ∧ FArr α ∧ (∀ x, L x = 0 → α x = 0) ∧ (∀ x, L x ≠ 0 → a x / (16 * c * S) ≤ α x) ∧ Low (m / (16 * c * S)) α ∧ 1 / 4 ≤ ∑ x, α x ∧ ∑ x, α x ≤ 4 := by
  obtain ⟨k1, k2, k3⟩ := fstep_mul ha hm la hLik ht h1 h2
  have hA : ∀ x, a x * L x ≤ 2 * a' x ∧ a' x ≤ 2 * (a x * L x) := fun x => ((k2 x).acc u64_pos.le u64_lt (mul_nonneg (ha x).2 (hLik.nonneg x))).half u64_pos.le u64_lt hM h1M
  have hacc := (k3.acc u64_pos.le u64_lt fun x => (k1 x).2).half u64_pos.le u64_lt hM hG
  -- upper bound of the sum
  have hnorm : ∀ x, L x ≠ 0 → norm ≤ 4 * c * S * L x := fun x hx => by
    have h4 : ∑ y, a' y ≤ 2 * ∑ y, a y * (c * L x) := by
      rw [Finset.mul_sum]
      exact Finset.sum_le_sum fun y _ => (hA y).2.trans (mul_le_mul_of_nonneg_left (mul_le_mul_of_nonneg_left (hLik.ratio x y hx) (ha y).2) zero_le_two)
    rw [← Finset.sum_mul] at h4
    have h5 := mul_le_mul_of_nonneg_right hsum (mul_nonneg hc.le (hLik.nonneg x))
    nlinarith [hacc.2]
  have hlow : ∀ x, L x ≠ 0 → a x / (8 * c * S) * norm ≤ a' x := fun x hx => by
    have h4 := mul_le_mul_of_nonneg_left (hnorm x hx) (div_nonneg (ha x).2 (by positivity : 0 ≤ 8 * c * S))
    have h5 : a x / (8 * c * S) * (4 * c * S * L x) = a x * L x / 2 := by field_simp; ring
    rw [h5] at h4
    linarith [(hA x).1]
  have hz : ∀ x, L x = 0 → a' x = 0 := fun x hx => by have := h1 x; rw [hx, mul_zero] at this; exact this.zero
  have hz' : ∀ x, a x = 0 → a' x = 0 := fun x hx => by have := h1 x; rw [hx, zero_mul] at this; exact this.zero
  obtain ⟨-, l2, l3, l4, l5, -, l7, l8⟩ := div_fl hM hG h1M (n := m / (8 * c * S)) k1 h2 h0 (fun x => by
    by_cases hx : L x = 0
    · exact Or.inl (hz x hx)
    · rcases la x with h4 | h4
      · exact Or.inl (hz' x h4)
      · right
        refine le_trans (mul_le_mul_of_nonneg_right ?_ h0.le) (hlow x hx)
        exact div_le_div_of_nonneg_right h4 (by positivity)) ht2 h3
  have hlo : ∀ x, L x ≠ 0 → a x / (16 * c * S) ≤ α x := fun x hx => by
    refine le_trans ?_ (l4 x)
    rw [le_div_iff₀ (by positivity)]
    refine le_trans (le_of_eq ?_) (hlow x hx)
    field_simp
    ring
  refine ⟨l2, l3, fun x hx => l5 x (hz x hx), hlo, fun x => ?_, l7, l8⟩
  by_cases hx : L x = 0
  · exact Or.inl (l5 x (hz x hx))
  · rcases la x with h4 | h4
    · exact Or.inl (l5 x (hz' x h4))
    · exact Or.inr (le_trans (div_le_div_of_nonneg_right h4 (by positivity)) (hlo x hx))

/-- the transition of a normalised array -/
theorem fstep_trans {E' : Env K gs} (hE : Regular E) (hE' : Twin E E') {tm : TM K} (hL : Linear E tm) (hR : ResetFree tm) {M e : ℕ} (hM : 1 / 2 ≤ (1 - u64 K) ^ M) (hk : elements tm * e ≤ M) {t : K} {p q : Idx gs → K} (hp : ∀ x, 0 ≤ p x)
    (h0 : 0 < ∑ x, p x) (h : tm.rounded E' (u64 K) e p t q) :
    (∀ x y, p x * kernel E (fun _ => 0) tm t x y ≤ 2 * q y) ∧ ∑ x, p x ≤ 2 * ∑ x, q x ∧ ∑ x, q x ≤ 2 * ∑ x, p x := by
  obtain ⟨h1, h2⟩ := rounded_kernel hE hE' hL hR u64_pos.le u64_lt hp h0 h
  refine ⟨fun x y => le_trans ?_ ((h1 y).half u64_pos.le u64_lt hM hk).1, h2.half u64_pos.le u64_lt hM hk⟩
  exact Finset.single_le_sum (f := fun x => p x * kernel E (fun _ => 0) tm t x y) (fun x _ => mul_nonneg (hp x) (kernel_nonneg hE.gauss tm (Or.inl hR) t x y)) (Finset.mem_univ x)

/-- what the backward loop needs to know of a step of the forward loop -/
structure FStep (m l c : K) (s : Step K gs) : Prop where
  arr : FArr s.alpha
  low : Low m s.alpha
  sum : ∑ x, s.alpha x ≤ 4
  lik : LikOK l c s.lik
  zero : ∀ x, s.lik x = 0 → s.alpha x = 0

/-- state of the backward loop -/
structure FBeta (m : K) (β : Idx gs → K) : Prop where
  arr : FArr β
  low : Low m β
  lower : 1 / 4 ≤ ∑ x, β x
  upper : ∑ x, β x ≤ 4

/-- the posterior distribution of a step of the backward loop -/
theorem bstep_post {M : ℕ} (hM : 1 / 2 ≤ (1 - u64 K) ^ M) (hG : Fintype.card (Idx gs) ≤ M) (h1M : 1 ≤ M) {mα mβ l c : K} (h0α : 0 ≤ mα) (h0β : 0 ≤ mβ) {s : Step K gs} (hs : FStep mα l c s) {β q post : Idx gs → K} (hβ : FBeta mβ β) {norm : K}
    (ht : tiny64 K ≤ mα * mβ / 128) (h1 : ∀ x, Fl (s.alpha x * β x) (q x)) (h2 : FSumGrid q norm) (h0 : 0 < norm) (h3 : ∀ x, Fl (q x / norm) (post x)) :
    (∀ x, Rounded (u64 K) (s.alpha x * β x) (q x)) ∧ RSumGrid (u64 K) q norm ∧ (∀ x, Rounded (u64 K) (q x / norm) (post x)) ∧ ∃ x, s.alpha x ≠ 0 ∧ β x ≠ 0 := by
  have hαβ : 0 ≤ mα * mβ := mul_nonneg h0α h0β
  obtain ⟨k1, k2⟩ := mul_fl (fun x => (hs.arr x).2) (fun x => (hβ.arr x).2) h0α hs.low hβ.low (by linarith) h1
  have k3 := (h2.rsum fun x => (k1 x).1).2
  have hA : ∀ x, s.alpha x * β x ≤ 2 * q x ∧ q x ≤ 2 * (s.alpha x * β x) := fun x =>
    ((k2 x).acc u64_pos.le u64_lt (mul_nonneg (hs.arr x).2 (hβ.arr x).2)).half u64_pos.le u64_lt hM h1M
  have hacc := (k3.acc u64_pos.le u64_lt fun x => (k1 x).2).half u64_pos.le u64_lt hM hG
  have hβ4 : ∀ x, β x ≤ 4 := fun x => (Finset.single_le_sum (fun y _ => (hβ.arr y).2) (Finset.mem_univ x)).trans hβ.upper
  have h5 : ∑ x, q x ≤ 2 * ∑ x, s.alpha x * 4 := by
    rw [Finset.mul_sum]
    exact Finset.sum_le_sum fun x _ => (hA x).2.trans (mul_le_mul_of_nonneg_left (mul_le_mul_of_nonneg_left (hβ4 x) (hs.arr x).2) zero_le_two)
  rw [← Finset.sum_mul] at h5
  have hnorm : norm ≤ 64 := by linarith [hs.sum, hacc.2]
  obtain ⟨-, l2, -⟩ := div_fl hM hG h1M (n := mα * mβ / 128) k1 h2 h0 (fun x => by
    rcases hs.low x with h4 | h4
    · left; have := h1 x; rw [h4, zero_mul] at this; exact this.zero
    · rcases hβ.low x with h6 | h6
      · left; have := h1 x; rw [h6, mul_zero] at this; exact this.zero
      · right
        have h7 : mα * mβ ≤ s.alpha x * β x := mul_fl.mul_le_mul_of_nonneg' h4 h6 h0α (hβ.arr x).2
        have := (hA x).1
        nlinarith) ht h3
  refine ⟨k2, k3, l2, ?_⟩
  by_contra hne
  push Not at hne
  have : ∑ x, q x = 0 := Finset.sum_eq_zero fun x _ => by
    have h4 := h1 x
    by_cases hx : s.alpha x = 0
    · rw [hx, zero_mul] at h4; exact h4.zero
    · rw [hne x hx, mul_zero] at h4; exact h4.zero
  linarith [hacc.2]

/-- the next array of the backward loop -/
theorem bstep_beta {E' : Env K gs} (hE : Regular E) (hE' : Twin E E') {tm : TM K} (hL : Linear E tm) (hR : ResetFree tm) {κ low : K} (hκ : 0 < κ) (hκ1 : κ ≤ 1) (hW : WeightsAtLeast E' κ tm) (hG' : GaussOK E'.ext) (hL' : Linear E' tm)
    {M e : ℕ} (hM : 1 / 2 ≤ (1 - u64 K) ^ M) (hG : Fintype.card (Idx gs) ≤ M) (h1M : 1 ≤ M) (he : e ≤ M) (hk : elements tm * e ≤ M) {mα mβ l c : K} (h0β : 0 < mβ) (hl : 0 < l) (hc : 1 ≤ c) {s : Step K gs} (hs : FStep mα l c s)
    {β lk b β' : Idx gs → K} (hβ : FBeta mβ β) {norm' : K} (ht1 : tiny64 K ≤ mβ * l) (ht2 : low ≤ mβ * l / (2 * c) * (κ / 2) ^ elements tm) (ht3 : tiny64 K ≤ mβ * (κ / 2) ^ elements tm / (64 * c)) (hne : ∃ x, s.alpha x ≠ 0 ∧ β x ≠ 0)
    (h1 : ∀ x, Fl (β x * s.lik x) (lk x)) (h2 : tm.floated E' e low lk (s.t - 1) b) (h3 : FSumGrid b norm') (h0 : 0 < norm') (h4 : ∀ x, Fl (b x / norm') (β' x)) :
    (∀ x, Rounded (u64 K) (β x * s.lik x) (lk x)) ∧ tm.rounded E' (u64 K) e lk (s.t - 1) b ∧ RSumGrid (u64 K) b norm' ∧ (∀ x, Rounded (u64 K) (b x / norm') (β' x)) ∧ FBeta (mβ * (κ / 2) ^ elements tm / (128 * c)) β' ∧
      ∀ x y, (∀ z, s.lik z ≠ 0) → β x * kernel E (fun _ => 0) tm (s.t - 1) x y / (256 * c) ≤ β' y := by
  have hc0 : 0 < c := zero_lt_one.trans_le hc
  obtain ⟨k1, k2⟩ := mul_fl (fun x => (hβ.arr x).2) hs.lik.nonneg h0β.le hβ.low hs.lik.low ht1 h1
  have hA : ∀ x, β x * s.lik x ≤ 2 * lk x ∧ lk x ≤ 2 * (β x * s.lik x) := fun x =>
    ((k2 x).acc u64_pos.le u64_lt (mul_nonneg (hβ.arr x).2 (hs.lik.nonneg x))).half u64_pos.le u64_lt hM h1M
  have hne2 := hne
  obtain ⟨x0, hx1, hx2⟩ := hne
  have hx3 : s.lik x0 ≠ 0 := fun h => hx1 (hs.zero x0 h)
  -- the largest likelihood
  obtain ⟨xm, -, hmax⟩ := Finset.exists_max_image Finset.univ s.lik ⟨x0, Finset.mem_univ _⟩
  obtain ⟨Λ, hΛ⟩ : ∃ Λ, Λ = s.lik xm := ⟨_, rfl⟩
  have hmax : ∀ x, s.lik x ≤ Λ := fun x => by rw [hΛ]; exact hmax x (Finset.mem_univ x)
  have hx4 : l ≤ s.lik x0 := (hs.lik.low x0).resolve_left hx3
  have hlΛ : l ≤ Λ := hx4.trans (hmax x0)
  have hΛ0 : 0 < Λ := hl.trans_le hlΛ
  have hmin : ∀ x, s.lik x ≠ 0 → Λ / c ≤ s.lik x := fun x hx => by
    rw [div_le_iff₀ hc0, hΛ]
    have := hs.lik.ratio x xm hx
    linarith
  have hlk : Low (mβ * Λ / (2 * c)) lk := fun x => by
    rcases hβ.low x with h5 | h5
    · left; have := h1 x; rw [h5, zero_mul] at this; exact this.zero
    · by_cases hx : s.lik x = 0
      · left; have := h1 x; rw [hx, mul_zero] at this; exact this.zero
      · right
        have h6 : mβ * (Λ / c) ≤ β x * s.lik x := mul_fl.mul_le_mul_of_nonneg' h5 (hmin x hx) h0β.le (hs.lik.nonneg x)
        have h7 : mβ * Λ / (2 * c) = mβ * (Λ / c) / 2 := by field_simp
        rw [h7]
        linarith [(hA x).1]
  have hpos : 0 < mβ * Λ / (2 * c) := by positivity
  have hκp : 0 < (κ / 2) ^ elements tm := by positivity
  have he2 : 1 / 2 ≤ (1 - u64 K) ^ e := hM.trans (pow_le_pow_of_le_one (by linarith [u64_lt (K := K)]) (by linarith [u64_pos (K := K)]) he)
  obtain ⟨l1, l2, l3⟩ := floated_rounded (E := E') hG' hκ hκ1 he2 tm hL' hR hW (s.t - 1) lk b _ hpos k1 hlk (ht2.trans (mul_le_mul_of_nonneg_right (by
    apply div_le_div_of_nonneg_right _ (by positivity)
    exact mul_le_mul_of_nonneg_left hlΛ h0β.le) hκp.le)) h2
  have hlk0 : 0 < ∑ x, lk x := by
    refine lt_of_lt_of_le ?_ (Finset.single_le_sum (fun y _ => (k1 y).2) (Finset.mem_univ x0))
    have : 0 < β x0 * s.lik x0 := mul_pos (lt_of_le_of_ne (hβ.arr x0).2 (Ne.symm hx2)) (hl.trans_le hx4)
    linarith [(hA x0).1]
  obtain ⟨n1, n2, n3⟩ := fstep_trans hE hE' hL hR hM hk (fun x => (k1 x).2) hlk0 l1
  have hbacc := ((h3.rsum fun x => (l2 x).1).2.acc u64_pos.le u64_lt fun x => (l2 x).2).half u64_pos.le u64_lt hM hG
  have hlks : ∑ x, lk x ≤ 8 * Λ := by
    have h5 : ∑ x, lk x ≤ 2 * ∑ x, β x * Λ := by
      rw [Finset.mul_sum]
      exact Finset.sum_le_sum fun x _ => (hA x).2.trans (mul_le_mul_of_nonneg_left (mul_le_mul_of_nonneg_left (hmax x) (hβ.arr x).2) zero_le_two)
    rw [← Finset.sum_mul] at h5
    nlinarith [hβ.upper]
  have hnorm : norm' ≤ 32 * Λ := by linarith [hbacc.2]
  obtain ⟨o1, o2, o3, o4, o5, -, o7, o8⟩ := div_fl hM hG h1M (n := mβ * (κ / 2) ^ elements tm / (64 * c)) l2 h3 h0 (fun x => by
    rcases l3 x with h5 | h5
    · exact Or.inl h5
    · right
      refine le_trans (mul_le_mul_of_nonneg_left hnorm (by positivity)) (le_trans (le_of_eq ?_) h5)
      field_simp
      norm_num) ht3 h4
  refine ⟨k2, l1, o1, o2, ⟨o3, fun x => ?_, o7, o8⟩, fun x y hz => ?_⟩
  · rcases l3 x with h5 | h5
    · exact Or.inl (o5 x h5)
    · right
      refine le_trans ?_ (o4 x)
      rw [le_div_iff₀ (by positivity)]
      refine le_trans (mul_le_mul_of_nonneg_left (mul_le_mul_of_nonneg_left hnorm zero_le_two) (by positivity)) (le_trans (le_of_eq ?_) h5)
      field_simp
      norm_num
  · refine le_trans ?_ (o4 y)
    have hker := kernel_nonneg hE.gauss tm (Or.inl hR) (ρ := fun _ => 0) (s.t - 1) x y
    have h5 : β x * (Λ / c) ≤ 2 * lk x := (mul_le_mul_of_nonneg_left (hmin x (hz x)) (hβ.arr x).2).trans (hA x).1
    have h6 := n1 x y
    have h7 := mul_le_mul_of_nonneg_right h5 hker
    rw [le_div_iff₀ (by positivity)]
    have hb0 : 0 ≤ β x * kernel E (fun _ => 0) tm (s.t - 1) x y / (256 * c) := div_nonneg (mul_nonneg (hβ.arr x).2 hker) (by positivity)
    refine le_trans (mul_le_mul_of_nonneg_left (mul_le_mul_of_nonneg_left hnorm zero_le_two) hb0) ?_
    have h8 : β x * kernel E (fun _ => 0) tm (s.t - 1) x y / (256 * c) * (2 * (32 * Λ)) = β x * (Λ / c) * kernel E (fun _ => 0) tm (s.t - 1) x y / 4 := by field_simp; ring
    rw [h8]
    linarith

variable {E' : Env K gs} {tm : TM K} {κ low : K} {M e : ℕ}

/-- general assumptions of the following lemmas -/
structure RunOK (E E' : Env K gs) (tm : TM K) (κ low : K) (M e : ℕ) : Prop where
  regular : Regular E
  twin : Twin E E'
  linear : Linear E tm
  linear' : Linear E' tm
  free : ResetFree tm
  pos : 0 < κ
  le_one : κ ≤ 1
  weights : WeightsAtLeast E' κ tm
  half : 1 / 2 ≤ (1 - u64 K) ^ M
  grid : Fintype.card (Idx gs) ≤ M
  one_le : 1 ≤ M
  acc : e ≤ M
  parts : elements tm * e ≤ M

theorem RunOK.gauss' (h : RunOK E E' tm κ low M e) : GaussOK E'.ext := by rw [h.twin.ext]; exact h.twin.gauss

/-- forward loop: as long as all arrays are without very small values, nothing is lost -/
theorem fwd_run (H : RunOK E E' tm κ low M e) {l c S : K} (hl : 0 < l) (hc : 1 ≤ c) (hS : 8 ≤ S) (pos : Prop) (Inv : ℕ → (Idx gs → K) → Prop) (T : ℕ) {m : K} (hm : 0 < m) (hInv : ∀ k a, k < T → Inv k a → Low m a)
    (ht1 : tiny64 K ≤ m * l) (ht2 : tiny64 K ≤ m / (8 * c * S)) (ht3 : low ≤ m / (16 * c * S) * (κ / 2) ^ elements tm)
    (hstep : ∀ (k : ℕ) (a b : Idx gs → K) (t : K), k < T → Inv k a → (∀ x, 0 ≤ a x) → (∀ m', m ≤ m' → Low m' a → Low (m' / (16 * c * S) * (κ / 2) ^ elements tm) b) → 1 / 8 ≤ ∑ x, b x →
      (pos → ∀ x y, a x * kernel E (fun _ => 0) tm t x y / (32 * c * S) ≤ b y) → Inv (k + 1) b)
    {a : Idx gs → K} {Ls : List (Idx gs → K)} {ts : List K} {ss : List (Step K gs)} {st : Bool} (h : FFwd E' tm e low a Ls ts ss st) :
    ∀ k, k + Ls.length ≤ T → Inv k a → FArr a → ∑ x, a x ≤ S → (∀ L ∈ Ls, LikOK l c L) → (pos → ∀ L ∈ Ls, ∀ x, L x ≠ 0) →
      RFwd E' tm (u64 K) e a Ls ts ss st ∧ ∀ s ∈ ss, FStep (m / (16 * c * S)) l c s := by
  have hc0 : 0 < c := zero_lt_one.trans_le hc
  have hS0 : 0 < S := by linarith
  induction h with
  | done a ts => exact fun _ _ _ _ _ _ _ => ⟨.done _ _, by simp⟩
  | @stop a a' L Ls ts norm h1 h2 h3 =>
      intro k hk hI ha hs hLs _
      rw [List.length_cons] at hk
      obtain ⟨-, k2, k3⟩ := fstep_mul ha hm.le (hInv k a (by omega) hI) (hLs L List.mem_cons_self) ht1 h1 h2
      exact ⟨.stop k2 k3 h3, by simp⟩
  | @step a a' α b L Ls t ts norm ss st h1 h2 h3 h4 h5 _ ih =>
      intro k hk hI ha hs hLs hpos
      rw [List.length_cons] at hk
      have hkT : k < T := by omega
      have hLik := hLs L List.mem_cons_self
      have hlow := hInv k a hkT hI
      obtain ⟨-, k2, k3⟩ := fstep_mul ha hm.le hlow hLik ht1 h1 h2
      obtain ⟨n1, n2, n3, n4, n5, n6, n7⟩ := fstep_div H.half H.grid H.one_le hc0 hS0 ha hm.le hlow hs hLik ht1 ht2 h1 h2 h3 h4
      have he2 : 1 / 2 ≤ (1 - u64 K) ^ e := H.half.trans (pow_le_pow_of_le_one (by linarith [u64_lt (K := K)]) (by linarith [u64_pos (K := K)]) H.acc)
      have hα0 : 0 < ∑ x, α x := by linarith
      have hκp : 0 < (κ / 2) ^ elements tm := by have := H.pos; positivity
      have key : ∀ m', m ≤ m' → Low m' a → tm.rounded E' (u64 K) e α t b ∧ FArr b ∧ Low (m' / (16 * c * S) * (κ / 2) ^ elements tm) b := by
        intro m' hmm hlow'
        have hmm' := hm.trans_le hmm
        have hd : m / (16 * c * S) ≤ m' / (16 * c * S) := div_le_div_of_nonneg_right hmm (by positivity)
        obtain ⟨-, -, -, -, o5, -⟩ := fstep_div H.half H.grid H.one_le hc0 hS0 ha hmm'.le hlow' hs hLik (ht1.trans (mul_le_mul_of_nonneg_right hmm hl.le))
          (ht2.trans (div_le_div_of_nonneg_right hmm (by positivity))) h1 h2 h3 h4
        exact floated_rounded H.gauss' H.pos H.le_one he2 tm H.linear' H.free H.weights t α b _ (by positivity) n2 o5 (ht3.trans (mul_le_mul_of_nonneg_right hd hκp.le)) h5
      obtain ⟨r1, r2, -⟩ := key m le_rfl hlow
      obtain ⟨t1, t2, t3⟩ := fstep_trans H.regular H.twin H.linear H.free H.half H.parts (fun x => (n2 x).2) hα0 r1
      have hI' : Inv (k + 1) b := hstep k a b t hkT hI (fun x => (ha x).2) (fun m' h6 h7 => (key m' h6 h7).2.2) (by linarith) (fun hp x y => by
        have h6 := n4 x (hpos hp L List.mem_cons_self x)
        have h7 := mul_le_mul_of_nonneg_right h6 (kernel_nonneg H.regular.gauss tm (Or.inl H.free) (ρ := fun _ => 0) t x y)
        have h8 := t1 x y
        have h9 : a x * kernel E (fun _ => 0) tm t x y / (32 * c * S) = a x / (16 * c * S) * kernel E (fun _ => 0) tm t x y / 2 := by field_simp; ring
        rw [h9]
        linarith)
      obtain ⟨i1, i2⟩ := ih (k + 1) (by omega) hI' r2 (by linarith) (fun L' hL' => hLs L' (List.mem_cons_of_mem _ hL')) fun hp L' hL' => hpos hp L' (List.mem_cons_of_mem _ hL')
      refine ⟨.step k2 k3 h3 n1 r1 i1, fun s hs' => ?_⟩
      rcases List.mem_cons.1 hs' with rfl | hs'
      · exact ⟨n2, n5, n7, hLik, n3⟩
      · exact i2 s hs'

theorem one_mem_float64 : (1 : K) ∈ float64 K := ⟨1, 0, by norm_num, by norm_num, by norm_num, by simp⟩

/-- backward loop -/
theorem bwd_run (H : RunOK E E' tm κ low M e) {l c : K} (hl : 0 < l) (hc : 1 ≤ c) (pos : Prop) (Inv : ℕ → (Idx gs → K) → Prop) (T : ℕ) {mα m : K} (hα : 0 ≤ mα) (hm : 0 < m) (hInv : ∀ k β, k < T → Inv k β → Low m β)
    (ht0 : tiny64 K ≤ mα * m / 128) (ht1 : tiny64 K ≤ m * l) (ht2 : low ≤ m * l / (2 * c) * (κ / 2) ^ elements tm) (ht3 : tiny64 K ≤ m * (κ / 2) ^ elements tm / (64 * c)) (htG : tiny64 K ≤ 1 / (2 * Fintype.card (Idx gs)))
    (hstart : ∀ β : Idx gs → K, (∀ x, 1 / (4 * Fintype.card (Idx gs)) ≤ β x) → Inv 0 β)
    (hstep : ∀ (k : ℕ) (β β' : Idx gs → K) (t : K), k < T → Inv k β → (∀ x, 0 ≤ β x) → (∀ m', m ≤ m' → Low m' β → Low (m' * (κ / 2) ^ elements tm / (128 * c)) β') → 1 / 4 ≤ ∑ x, β' x →
      (pos → ∀ x y, β x * kernel E (fun _ => 0) tm t x y / (256 * c) ≤ β' y) → Inv (k + 1) β')
    {ss : List (Step K gs)} {posts : List (Idx gs → K)} {β : Idx gs → K} (h : FBwd E' tm e low ss posts β) :
    ss.length ≤ T → (∀ s ∈ ss, FStep mα l c s) → (pos → ∀ s ∈ ss, ∀ x, s.lik x ≠ 0) →
      RBwd E' tm (u64 K) e ss posts β ∧ Inv ss.length β ∧ FArr β ∧ 1 / 4 ≤ ∑ x, β x ∧ ∑ x, β x ≤ 4 := by
  have hc0 : 0 < c := zero_lt_one.trans_le hc
  have := H.regular.nonempty
  have hG0 : (0 : K) < Fintype.card (Idx gs) := by exact_mod_cast Fintype.card_pos
  induction h with
  | @start β s h1 h2 =>
      intro _ _ _
      have hone : FArr (fun _ : Idx gs => (1 : K)) := fun _ => ⟨one_mem_float64, zero_le_one⟩
      have hacc := ((h1.rsum fun x => (hone x).1).2.acc u64_pos.le u64_lt fun x => (hone x).2).half u64_pos.le u64_lt H.half H.grid
      have hcard : ∑ _x : Idx gs, (1 : K) = Fintype.card (Idx gs) := by simp
      rw [hcard] at hacc
      have hs0 : 0 < s := by linarith [hacc.1]
      obtain ⟨k1, k2, k3, k4, -, -, k7, k8⟩ := div_fl H.half H.grid H.one_le (n := 1 / (2 * Fintype.card (Idx gs))) hone h1 hs0 (fun x => Or.inr (by
        rw [one_div_mul_eq_div, div_le_one (by positivity)]; exact hacc.2)) htG h2
      refine ⟨.start k1 k2, hstart β fun x => le_trans ?_ (k4 x), k3, k7, k8⟩
      exact one_div_le_one_div_of_le (by positivity) (by linarith [hacc.2])
  | @step β q post lk b β' s ss posts norm norm' _ h1 h2 h3 h4 h5 h6 h7 h8 h9 ih =>
      intro hk hss hpos
      rw [List.length_cons] at hk
      obtain ⟨i1, i2, i3, i4, i5⟩ := ih (by omega) (fun s' hs' => hss s' (List.mem_cons_of_mem _ hs')) fun hp s' hs' => hpos hp s' (List.mem_cons_of_mem _ hs')
      have hkT : ss.length < T := by omega
      have hlow := hInv _ _ hkT i2
      have hs := hss s List.mem_cons_self
      obtain ⟨k1, k2, k3, k4⟩ := bstep_post H.half H.grid H.one_le hα hm.le hs ⟨i3, hlow, i4, i5⟩ ht0 h1 h2 h3 h4
      have hκp : 0 < (κ / 2) ^ elements tm := by have := H.pos; positivity
      have key := fun (m' : K) (hmm : m ≤ m') (hlow' : Low m' β) => bstep_beta H.regular H.twin H.linear H.free H.pos H.le_one H.weights H.gauss' H.linear' H.half H.grid H.one_le H.acc H.parts (hm.trans_le hmm) hl hc hs
        ⟨i3, hlow', i4, i5⟩ (ht1.trans (mul_le_mul_of_nonneg_right hmm hl.le))
        (ht2.trans (mul_le_mul_of_nonneg_right (div_le_div_of_nonneg_right (mul_le_mul_of_nonneg_right hmm hl.le) (by positivity)) hκp.le))
        (ht3.trans (div_le_div_of_nonneg_right (mul_le_mul_of_nonneg_right hmm hκp.le) (by positivity))) k4 h5 h6 h7 h8 h9
      obtain ⟨l1, l2, l3, l4, l5, l6⟩ := key m le_rfl hlow
      refine ⟨.step i1 k1 k2 h3 k3 l1 l2 l3 l4, ?_, l5.arr, l5.lower, l5.upper⟩
      rw [List.length_cons]
      exact hstep _ β β' (s.t - 1) hkT i2 (fun x => (i3 x).2) (fun m' h10 h11 => (key m' h10 h11).2.2.2.2.1.low) l5.lower fun hp x y => l6 x y (hpos hp s List.mem_cons_self)

end BL
