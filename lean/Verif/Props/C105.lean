import Verif.Props.C103
import Verif.Props.C104
import Verif.Lemmas.RoundingForget

/-! # C105: rounding errors do not add up -/

set_option linter.unusedSectionVars false

namespace BL
open Spec
variable {K : Type} [Field K] [LinearOrder K] [IsStrictOrderedRing K] {d : ℕ} {gs : Fin d → ℕ} {E : Env K gs} {u : K}

/-- windows of time steps after which every value of the parameters can be reached -/
theorem kernel_mixes (hE : Regular E) (hW : GaussPos E.ext) {tm : TM K} (hL : Linear E tm) (hR : ResetFree tm) (hA : ∀ a, Wanders E a tm) {c : K} (hc : 1 ≤ c) :
    ∃ (C : K) (w : ℕ), 1 ≤ C ∧ ∀ (τ : ℕ → K) (L : ℕ → Idx gs → K), (∀ i x, 0 < L i x) → (∀ i x y, L i x ≤ c * L i y) → ∀ k, Mixes (between (fun i => kernel E (fun _ => 0) tm (τ i)) L k w) C := by
  have := hE.nonempty
  obtain ⟨κ, hκ, hk⟩ := kernel_reach hE.gauss hW (ρ := fun _ => 0) tm hL hR
  obtain ⟨w, hw⟩ : ∃ w, ∀ b, gs b ≤ w + 1 := ⟨∑ b, gs b, fun b => (Finset.single_le_sum (f := gs) (fun _ _ => Nat.zero_le _) (Finset.mem_univ b)).trans (Nat.le_succ _)⟩
  have hκ' : 0 < κ ^ (w + 1) := pow_pos hκ _
  have hC0 : 0 ≤ c ^ w / κ ^ (w + 1) := div_nonneg (pow_nonneg (zero_le_one.trans hc) _) hκ'.le
  refine ⟨c ^ w / κ ^ (w + 1) + 1, w, by linarith, fun τ L hL0 hL1 k => ?_⟩
  have hT : ∀ i x y, 0 ≤ (fun i => kernel E (fun _ => 0) tm (τ i)) i x y := fun i => kernel_nonneg hE.gauss tm (Or.inl hR) _
  have hT1 : ∀ i x, ∑ y, (fun i => kernel E (fun _ => 0) tm (τ i)) i x y = 1 := fun i => kernel_sum hE.gauss tm hL (Or.inl hR) _
  refine (between_mixes hc hκ' hT (fun i x => (hL0 i x).le) hL1 k w (steps_le_one hT hT1 k w) fun x y => ?_).mono (by linarith)
  refine steps_reach hκ hT (fun i x y h => hk _ x y (near_mono (fun b _ => hA b) h)) k w x y fun b => ?_
  have := hw b
  have := (x b).isLt
  have := (y b).isLt
  omega

theorem sum_div_self {ι : Type} [Fintype ι] {f : ι → K} (h : 0 < ∑ x, f x) : ∑ x, f x / ∑ x, f x = 1 := by
  rw [← Finset.sum_div, div_self h.ne']

/-- the computed distributions of the forward loop -/
theorem filter_near (hE : Regular E) {tm : TM K} (hL : Linear E tm) (hR : ResetFree tm) (hu : 0 ≤ u) (hu1 : u < 1) {C : K} (hC : 1 ≤ C) {w : ℕ} {L : ℕ → Idx gs → K} {τ : ℕ → K} (hL0 : ∀ i x, 0 < L i x)
    (hmix : ∀ k, Mixes (between (fun i => kernel E (fun _ => 0) tm (τ i)) L k w) C) {π : Idx gs → K} (hπ : ∀ x, 0 ≤ π x) (hs : 0 < ∑ x, π x) {c0 : K} (hc0 : 0 < c0) {eP eL k : ℕ} {a : ℕ → Idx gs → K}
    (ha : ∀ x, Acc u eP (π x) (c0 * a 0 x)) {ss : List (Step K gs)} (ht : ∀ i s, ss[i]? = some s → StepAcc E tm u eL k (L i) (τ i) (a i) (a (i + 1)) s) {i : ℕ} {s : Step K gs} (hi : ss[i]? = some s) :
    ∃ p : Idx gs → K, ∑ x, p x = 1 ∧ (∀ x, Acc u (2 * eL + 3 + Fintype.card (Idx gs)) (p x) (s.alpha x)) ∧
      ∑ x, |p x - posterior π (fun j : Fin i => kernel E (fun _ => 0) tm (τ j)) (fun j : Fin (i + 1) => L j) (Fin.last i) x|
        ≤ (1 / (1 - u) ^ (2 * eP) - 1) + (w + 1) * C * (1 / (1 - u) ^ (2 * (eL + 2 + k)) - 1) := by
  have hS := ht i s hi
  refine ⟨_, sum_div_self hS.pos, hS.filt, ?_⟩
  have hT : ∀ i x y, 0 ≤ (fun i => kernel E (fun _ => 0) tm (τ i)) i x y := fun i => kernel_nonneg hE.gauss tm (Or.inl hR) _
  have hT1 : ∀ i x, ∑ y, (fun i => kernel E (fun _ => 0) tm (τ i)) i x y = 1 := fun i => kernel_sum hE.gauss tm hL (Or.inl hR) _
  have hm : ∀ x, Spec.marginal π (fun j : Fin i => kernel E (fun _ => 0) tm (τ j)) (fun j : Fin (i + 1) => L j) (Fin.last i) x = predict (fun i => kernel E (fun _ => 0) tm (τ i)) L π i x * L i x := by
    intro x
    have := marginal_mirror (fun i => kernel E (fun _ => 0) tm (τ i)) L (fun i x y => kernel_symm hE.gauss 0 tm hL (Or.inl hR) _ x y) (Fin.last i) π x
    rw [this]
    simp [predict]
  have he := evidence_pos (n := i) (T := fun j : Fin i => kernel E (fun _ => 0) tm (τ j)) (L := fun j : Fin (i + 1) => L j) hπ hs (fun i => hT _) (fun i => hT1 _) fun i => hL0 _
  have hev : evidence π (fun j : Fin i => kernel E (fun _ => 0) tm (τ j)) (fun j : Fin (i + 1) => L j) = ∑ x, predict (fun i => kernel E (fun _ => 0) tm (τ i)) L π i x * L i x := by
    rw [evidence_eq_sum_marginal _ _ _ (Fin.last i)]
    simp only [hm]
  rw [hev] at he
  simp only [posterior, hm, hev]
  refine (errors_bounded hu hu1 hC (fun x => (hL0 i x).le) i hT (fun i x => (hL0 i x).le) hmix hc0 ha (fun j hj => ?_) he).2
  have : j < ss.length := hj.trans (List.getElem?_eq_some_iff.1 hi).1
  exact (ht j ss[j] (List.getElem?_eq_getElem this)).next

/-- the computed distributions of a full fit -/
theorem smooth_near (hE : Regular E) {E' : Env K gs} (hE' : Twin E E') {tm : TM K} (hL : Linear E tm) (hR : ResetFree tm) (hu : 0 ≤ u) (hu1 : u < 1) {C : K} (hC : 1 ≤ C) {w : ℕ} {L : ℕ → Idx gs → K} {τ : ℕ → K} {n : ℕ} (hL0 : ∀ i x, 0 < L i x)
    (hmix : ∀ (τ : ℕ → K) (k), Mixes (between (fun i => kernel E (fun _ => 0) tm (τ i)) L k w) C) (hmix' : ∀ (τ : ℕ → K) (k), Mixes (between (fun i => kernel E (fun _ => 0) tm (τ i)) (fun j => L (n - j)) k w) C)
    (hτ : ∀ i < n, τ (i + 1) = τ i + 1) {π : Idx gs → K} (hπ : ∀ x, 0 ≤ π x) (hs : 0 < ∑ x, π x) {c0 : K} (hc0 : 0 < c0) {eP eL e : ℕ} {a : ℕ → Idx gs → K}
    (ha : ∀ x, Acc u eP (π x) (c0 * a 0 x)) {ss : List (Step K gs)} (ht : ∀ i s, ss[i]? = some s → StepAcc E tm u eL (elements tm * e) (L i) (τ i) (a i) (a (i + 1)) s) (hlen : ss.length = n + 1)
    {posts : List (Idx gs → K)} {β : Idx gs → K} (hb : RBwd E' tm u e ss posts β) {i : Fin (n + 1)} {p' : Idx gs → K} (hi : posts[i.val]? = some p') :
    ∃ p : Idx gs → K, ∑ x, p x = 1 ∧ (∀ x, Acc u (2 * eL + 7 + Fintype.card (Idx gs)) (p x) (p' x)) ∧
      ∑ x, |p x - posterior π (fun j : Fin n => kernel E (fun _ => 0) tm (τ j)) (fun j : Fin (n + 1) => L j) i x|
        ≤ (1 / (1 - u) ^ (2 * eP) - 1) + (1 / (1 - u) ^ (2 * 1) - 1) + 2 * ((w + 1) * C * (1 / (1 - u) ^ (2 * (eL + 2 + elements tm * e)) - 1)) := by
  obtain ⟨b, b1, ⟨c1, hc1, b2⟩, b3, b4, b5, b6⟩ := hb.trace hE hE' hu hu1 hL hR (eL := eL) (L := fun j => L (n - j)) (τ := fun j => τ (n - j) - 1) (fun j => hL0 _) (fun j s hj => by
    have hj' := (List.getElem?_eq_some_iff.1 hj).1
    have h := ht j s hj
    rw [show n - (ss.length - 1 - j) = j by omega]
    refine ⟨h.lik, fun x => ?_, by rw [h.time]⟩
    obtain ⟨c, hc, h1⟩ := h.alpha
    exact nonneg_of_mul_nonneg_right (h1 x).right hc)
  have hT : ∀ i x y, 0 ≤ (fun i => kernel E (fun _ => 0) tm (τ i)) i x y := fun i => kernel_nonneg hE.gauss tm (Or.inl hR) _
  have hT1 : ∀ i x, ∑ y, (fun i => kernel E (fun _ => 0) tm (τ i)) i x y = 1 := fun i => kernel_sum hE.gauss tm hL (Or.inl hR) _
  obtain ⟨A, hA⟩ : ∃ A, A = predict (fun i => kernel E (fun _ => 0) tm (τ i)) L π i := ⟨_, rfl⟩
  obtain ⟨B, hB⟩ : ∃ B, B = predict (fun j => kernel E (fun _ => 0) tm (τ (n - j) - 1)) (fun j => L (n - j)) (fun _ => 1) (n - i) := ⟨_, rfl⟩
  have hB' : B = predict (fun j => kernel E (fun _ => 0) tm (τ (n - 1 - j))) (fun j => L (n - j)) (fun _ => 1) (n - i) := by
    rw [hB]
    refine predict_congr (fun j hj => ?_) fun _ _ => rfl
    rw [show n - j = n - 1 - j + 1 by omega, hτ (n - 1 - j) (by omega), add_sub_cancel_right]
  have hm : ∀ x, Spec.marginal π (fun j : Fin n => kernel E (fun _ => 0) tm (τ j)) (fun j : Fin (n + 1) => L j) i x = A x * (L i x * B x) := by
    intro x
    rw [hA, hB']
    exact marginal_mirror (fun i => kernel E (fun _ => 0) tm (τ i)) L (fun i x y => kernel_symm hE.gauss 0 tm hL (Or.inl hR) _ x y) i π x
  have he := evidence_pos (n := n) (T := fun j : Fin n => kernel E (fun _ => 0) tm (τ j)) (L := fun j : Fin (n + 1) => L j) hπ hs (fun i => hT _) (fun i => hT1 _) fun i => hL0 _
  have hev : evidence π (fun j : Fin n => kernel E (fun _ => 0) tm (τ j)) (fun j : Fin (n + 1) => L j) = ∑ x, A x * (L i x * B x) := by
    rw [evidence_eq_sum_marginal _ _ _ i]
    simp only [hm]
  rw [hev] at he
  simp only [posterior, hm, hev]
  have hA0 : ∀ x, 0 ≤ A x := by rw [hA]; exact predict_nonneg hπ (fun i _ => hT i) fun i _ x => (hL0 i x).le
  have hi' : i.val < ss.length := by rw [hlen]; exact i.isLt
  have hS := ht i ss[i.val] (List.getElem?_eq_getElem hi')
  have hidx : ss.length - 1 - i.val = n - i.val := by omega
  obtain ⟨b7, b8⟩ := b6 i ss[i.val] p' (List.getElem?_eq_getElem hi') hi
  rw [hidx] at b7 b8
  have hbn : ∀ x, 0 ≤ b (n - i) x := b4 _ (by omega)
  -- backward arrays
  have e2 := errors_bounded (u := u) (r := eL + 2 + elements tm * e) (T := fun j => kernel E (fun _ => 0) tm (τ (n - j) - 1)) (L := fun j => L (n - j)) (F := fun x => A x * L i x) hu hu1 hC
    (fun x => mul_nonneg (hA0 x) (hL0 i x).le) (n - i) (fun j => kernel_nonneg hE.gauss tm (Or.inl hR) _) (fun j x => (hL0 _ x).le) (hmix' fun j => τ (n - j) - 1) hc1 b2 (fun j hj => b5 j (by omega)) (by
      rw [← hB]
      refine he.trans_le (le_of_eq (Finset.sum_congr rfl fun x _ => by ring)))
  rw [← hB] at e2
  -- forward arrays
  have e1 := errors_bounded (u := u) (r := eL + 2 + elements tm * e) (F := fun x => L i x * b (n - i) x) hu hu1 hC (fun x => mul_nonneg (hL0 i x).le (hbn x)) i hT (fun i x => (hL0 i x).le) (hmix τ) hc0 ha
    (fun j hj => (ht j (ss[j]'(hj.trans hi')) (List.getElem?_eq_getElem (hj.trans hi'))).next) (by
      rw [← hA]
      refine e2.1.trans_le (le_of_eq (Finset.sum_congr rfl fun x _ => by ring)))
  rw [← hA] at e1
  refine ⟨_, sum_div_self e1.1, fun x => ?_, ?_⟩
  · obtain ⟨c, hc, h1⟩ := hS.alpha
    have h2 : ∀ x, Acc u (eL + 2) (a i x * (L i x * b (n - i) x)) (c * ((ss[i.val]'hi').alpha x * b (n - i) x)) := fun x => by
      have := (h1 x).weight (hbn x)
      rw [show b (n - i) x * (a i x * L i x) = a i x * (L i x * b (n - i) x) by ring, show b (n - i) x * (c * (ss[i.val]'hi').alpha x) = c * ((ss[i.val]'hi').alpha x * b (n - i) x) by ring] at this
      exact this
    have h3 := Acc.sum Finset.univ fun x _ => h2 x
    rw [← Finset.mul_sum] at h3
    have h4 := (h2 x).div hu1 h3 e1.1 (mul_pos hc b7)
    rw [mul_div_mul_left _ _ hc.ne'] at h4
    exact (h4.trans hu1 (b8 x)).mono hu hu1 (by omega)
  · have e3 : ∑ x, |A x * (L i x * b (n - i) x) / (∑ x, A x * (L i x * b (n - i) x)) - A x * (L i x * B x) / ∑ x, A x * (L i x * B x)| ≤
        (1 / (1 - u) ^ (2 * 1) - 1) + (w + 1) * C * (1 / (1 - u) ^ (2 * (eL + 2 + elements tm * e)) - 1) := by
      have h := e2.2
      simp only [show ∀ x, b (n - i) x * (A x * L i x) = A x * (L i x * b (n - i) x) from fun x => by ring, show ∀ x, B x * (A x * L i x) = A x * (L i x * B x) from fun x => by ring] at h
      exact h
    calc ∑ x, |a i x * (L i x * b (n - i) x) / (∑ x, a i x * (L i x * b (n - i) x)) - A x * (L i x * B x) / ∑ x, A x * (L i x * B x)|
        ≤ ∑ x, (|a i x * (L i x * b (n - i) x) / (∑ x, a i x * (L i x * b (n - i) x)) - A x * (L i x * b (n - i) x) / ∑ x, A x * (L i x * b (n - i) x)| +
          |A x * (L i x * b (n - i) x) / (∑ x, A x * (L i x * b (n - i) x)) - A x * (L i x * B x) / ∑ x, A x * (L i x * B x)|) := Finset.sum_le_sum fun x _ => abs_sub_le _ _ _
      _ ≤ _ := by
        rw [Finset.sum_add_distrib]
        linarith [e1.2]

end BL

namespace Spec
variable {K : Type} {d : ℕ} {gs : Fin d → ℕ}

/-- Number of roundings that matter for a distribution; the number of data points does not enter. `G`: grid points, `m`: elementary transition models, `e`, `eP`, `eL`: accuracy of these models, of the prior and
of the likelihoods. -/
def stepRoundings (G m e eP eL : ℕ) : ℕ := 2 * (eP + eL + m * e) + 8 + G

end Spec

namespace BL
open Spec
variable {K : Type} [Field K] [LinearOrder K] [IsStrictOrderedRing K] {d : ℕ} {gs : Fin d → ℕ} {u : K}

theorem gam_mono (hu : 0 ≤ u) {N N' : ℕ} (h : N ≤ N') (hN : (N' : K) * u < 1) : gam N u ≤ gam N' u := by
  have h1 : (N : K) * u ≤ N' * u := mul_le_mul_of_nonneg_right (by exact_mod_cast h) hu
  unfold gam
  have h0 : 0 ≤ (N : K) * u := mul_nonneg (Nat.cast_nonneg _) hu
  exact div_le_div₀ (h0.trans h1) h1 (by linarith) (by linarith)

theorem inv_pow_le (hu : 0 ≤ u) (hu1 : u < 1) {N N' : ℕ} (h : N ≤ N') (hN : (N' : K) * u < 1) : 1 / (1 - u) ^ N - 1 ≤ gam N' u := by
  refine (inv_pow_le_gam hu hu1 ?_).trans (gam_mono hu h hN)
  exact lt_of_le_of_lt (mul_le_mul_of_nonneg_right (by exact_mod_cast h) hu) hN

theorem RBwd.length {E : Env K gs} {tm : TM K} {e : ℕ} {ss : List (Step K gs)} {posts : List (Idx gs → K)} {β : Idx gs → K} (h : RBwd E tm u e ss posts β) : posts.length = ss.length := by
  induction h with
  | start => rfl
  | step _ _ _ _ _ _ _ _ _ ih => rw [List.length_cons, List.length_cons, ih]

/-- distance of the computed distribution and its mean values -/
theorem near_results (hu : 0 ≤ u) (hu1 : u < 1) {N0 N : ℕ} (hN0 : N0 ≤ N) (hN : ((N + 1 + Fintype.card (Idx gs) : ℕ) : K) * u < 1) {q p p' : Idx gs → K} (hq : ∑ x, q x = 1) (h1 : ∀ x, Acc u N0 (q x) (p' x)) {D : K} (hD : 0 ≤ D)
    (h2 : ∑ x, |q x - p x| ≤ D * gam N u) :
    ∑ x, |p' x - p x| ≤ (D + 1) * gam N u ∧ ∀ (grid : (a : Fin d) → Fin (gs a) → K) (a : Fin d) (m' B : K), RMean u grid a p' m' → (∀ j, |grid a j| ≤ B) →
      |m' - mean grid a p| ≤ (D + 1) * gam (N + 1 + Fintype.card (Idx gs)) u * B := by
  have hN' : (N : K) * u < 1 := lt_of_le_of_lt (mul_le_mul_of_nonneg_right (by exact_mod_cast (by omega)) hu) hN
  have h3 : ∑ x, |p' x - q x| ≤ gam N u := by
    calc ∑ x, |p' x - q x| ≤ ∑ x, (1 / (1 - u) ^ N0 - 1) * q x := Finset.sum_le_sum fun x _ => (h1 x).err hu hu1
      _ = 1 / (1 - u) ^ N0 - 1 := by rw [← Finset.mul_sum, hq, mul_one]
      _ ≤ gam N u := inv_pow_le hu hu1 hN0 hN'
  refine ⟨?_, fun grid a m' B hm hB => ?_⟩
  · calc ∑ x, |p' x - p x| ≤ ∑ x, (|p' x - q x| + |q x - p x|) := Finset.sum_le_sum fun x _ => abs_sub_le _ _ _
      _ ≤ gam N u + D * gam N u := by rw [Finset.sum_add_distrib]; exact add_le_add h3 h2
      _ = (D + 1) * gam N u := by ring
  · have hne : Nonempty (Idx gs) := by
      by_contra h
      rw [not_nonempty_iff] at h
      simp at hq
    obtain ⟨x0⟩ := hne
    have hB0 : 0 ≤ B := (abs_nonneg _).trans (hB (x0 a))
    have hg : gam N u ≤ gam (N + 1 + Fintype.card (Idx gs)) u := gam_mono hu (by omega) hN
    have k1 := mean_acc hu hu1 (N := N) (fun x => (h1 x).mono hu hu1 hN0) hm hN
    have k2 : ∑ x, q x * |grid a (x a)| ≤ B := by
      calc ∑ x, q x * |grid a (x a)| ≤ ∑ x, q x * B := Finset.sum_le_sum fun x _ => mul_le_mul_of_nonneg_left (hB _) (h1 x).left
        _ = B := by rw [← Finset.sum_mul, hq, one_mul]
    have k3 : |mean grid a q - mean grid a p| ≤ D * gam N u * B := by
      calc |mean grid a q - mean grid a p| = |∑ x, (q x - p x) * grid a (x a)| := by
            unfold mean
            rw [← Finset.sum_sub_distrib]
            congr 1
            exact Finset.sum_congr rfl fun x _ => by ring
        _ ≤ ∑ x, |(q x - p x) * grid a (x a)| := Finset.abs_sum_le_sum_abs _ _
        _ ≤ ∑ x, |q x - p x| * B := Finset.sum_le_sum fun x _ => by rw [abs_mul]; exact mul_le_mul_of_nonneg_left (hB _) (abs_nonneg _)
        _ ≤ D * gam N u * B := by rw [← Finset.sum_mul]; exact mul_le_mul_of_nonneg_right h2 hB0
    have hg0 : 0 ≤ gam (N + 1 + Fintype.card (Idx gs)) u := by
      unfold gam
      exact div_nonneg (mul_nonneg (Nat.cast_nonneg _) hu) (by linarith)
    have hD0 : 0 ≤ D * gam N u := (Finset.sum_nonneg fun x _ => abs_nonneg _).trans h2
    have hgn : 0 ≤ gam N u := by
      unfold gam
      exact div_nonneg (mul_nonneg (Nat.cast_nonneg _) hu) (by linarith)
    have hD1 : D * gam N u ≤ D * gam (N + 1 + Fintype.card (Idx gs)) u := mul_le_mul_of_nonneg_left hg hD
    have k4 := abs_sub_le m' (mean grid a q) (mean grid a p)
    have k5 : gam (N + 1 + Fintype.card (Idx gs)) u * ∑ x, q x * |grid a (x a)| ≤ gam (N + 1 + Fintype.card (Idx gs)) u * B := mul_le_mul_of_nonneg_left k2 hg0
    have k6 := mul_le_mul_of_nonneg_right hD1 hB0
    linarith

end BL

namespace Props
open BL Spec
variable {K : Type} [Field K] [LinearOrder K] [IsStrictOrderedRing K] {d : ℕ} {gs : Fin d → ℕ}

/-- **C105.** Transition models assembled from Static, GaussianRandomWalk, Combined and Serial without resets, in which every parameter performs a random walk at all times.  There is a constant `D`, which
depends on the grid, the transition model and the bound `c` for the likelihood ratios of single data points only, such that for every prior, **any number of data points**, all data with these likelihood
ratios and every run of `fit` with rounding errors (forward-only, or full with unit-spaced time stamps): all posterior distributions of the run differ at most by `D * gam N u` from the exact ones (sum of the
absolute differences), where `N` does not depend on the number of data points, and all posterior mean values at most by `D * gam N' u` times the largest parameter value. -/
theorem C105 (E : Env K gs) (tm : TM K) (hE : Regular E) (hW : ∀ s, 0 < s → ∀ k : ℤ, |k| ≤ E.ext.gaussR s → 0 < E.ext.gaussW s k) (hL : Linear E tm) (hR : ResetFree tm)
    (hA : ∀ a, Wanders E a tm) (c : K) (hc : 1 ≤ c) :
    ∃ D : K, ∀ (grid : (a : Fin d) → Fin (gs a) → K) (S : FitState K gs) (π : Idx gs → K), PriorMass E.cell S.prior π → 0 < ∑ x, π x →
      ∀ (u : K) (eP eL e N N' : ℕ), 0 ≤ u → N = stepRoundings (Fintype.card (Idx gs)) (elements tm) e eP eL → N' = N + 1 + Fintype.card (Idx gs) → N' * u < 1 →
      ∀ (n : ℕ) (L : Fin (n + 1) → Idx gs → K) (τ : Fin (n + 1) → K) (fo : Bool), (∀ i x, 0 < L i x) → (∀ i x y, L i x ≤ c * L i y) → (fo = true ∨ ∀ i : Fin n, τ i.succ = τ i.castSucc + 1) →
      ∀ (a' : Idx gs → K) (liks' posts : List (Idx gs → K)) (norms : List K), (∀ x, Acc u eP (π x / E.cell) (a' x)) →
        List.Forall₂ (fun L L' => ∀ x, Acc u eL (L x) (L' x)) (List.ofFn L) liks' → RFit { E with prior := S.prior } tm u e a' liks' (List.ofFn τ) fo posts norms →
        ∃ (A : FitState K gs) (p : Fin (n + 1) → Idx gs → K), fit E grid tm (List.ofFn L) (List.ofFn τ) fo false S = .ok A ∧ A.posts = List.ofFn (fun i => .val (p i)) ∧ posts.length = n + 1 ∧
          ∀ (i : Fin (n + 1)) (p' : Idx gs → K), posts[i.val]? = some p' →
            ∑ x, |p' x - p i x| ≤ D * gam N u ∧
            ∀ a m m' B, (A.means a)[i.val]? = some m → RMean u grid a p' m' → (∀ j, |grid a j| ≤ B) → |m' - m| ≤ D * gam N' u * B := by
  obtain ⟨C, w, hC, hmix⟩ := kernel_mixes hE hW hL hR hA hc
  have hC0 : 0 < C := zero_lt_one.trans_le hC
  have hD : (0 : K) ≤ 2 + 2 * ((w + 1) * C) := by positivity
  refine ⟨2 + 2 * ((w + 1) * C) + 1, fun grid S π hp hs u eP eL e N N' hu hN hN' hNu n L τ fo hL0 hLc hmode a' liks' posts norms ha hl h' => ?_⟩
  subst hN'
  have := hE.nonempty
  have hcell : 0 < E.cell := cell_pos hE.lattice_pos
  have hπ := priorMass_nonneg hcell hp
  have hu1 : u < 1 := u_lt_one hu (N := N + 1 + Fintype.card (Idx gs)) (by omega) hNu
  have hNu' : (N : K) * u < 1 := lt_of_le_of_lt (mul_le_mul_of_nonneg_right (by exact_mod_cast (by omega)) hu) hNu
  -- sequences
  obtain ⟨τ', hτd⟩ : ∃ τ' : ℕ → K, τ' = fun k => if h : k < n + 1 then τ ⟨k, h⟩ else 0 := ⟨_, rfl⟩
  obtain ⟨L', hLd⟩ : ∃ L' : ℕ → Idx gs → K, L' = fun k => if h : k < n + 1 then L ⟨k, h⟩ else fun _ => 1 := ⟨_, rfl⟩
  have eτ : ∀ j : Fin (n + 1), τ' j = τ j := fun j => by rw [hτd]; exact dif_pos j.isLt
  have eL' : ∀ j : Fin (n + 1), L' j = L j := fun j => by rw [hLd]; exact dif_pos j.isLt
  have hL0' : ∀ i x, 0 < L' i x := fun i x => by
    rw [hLd]
    dsimp only
    split
    · exact hL0 _ x
    · exact one_pos
  have hL1' : ∀ i x y, L' i x ≤ c * L' i y := fun i x y => by
    rw [hLd]
    dsimp only
    split
    · exact hLc _ x y
    · simpa using hc
  have ek : ∀ t, kernel E π tm t = kernel E (fun _ => 0) tm t := fun t => kernel_fresh tm hR t
  have ha0 : ∀ x, Acc u eP (π x) (E.cell * a' x) := fun x => by
    have := (ha x).weight hcell.le
    rwa [mul_div_cancel₀ _ hcell.ne'] at this
  obtain ⟨ss, h1, h2, h3⟩ := h'
  have hll : liks'.length = n + 1 := by rw [← hl.length_eq, List.length_ofFn]
  have hlen : ss.length = n + 1 := by rw [h1.length rfl, hll]
  obtain ⟨a, ha1, ha2⟩ := RFwd.trace (E := E) (E' := { E with prior := S.prior }) (h' := h1) hE ⟨hE.gauss, rfl, rfl, rfl⟩ hu hu1 hL hR (eL := eL) (L := L') (τ := τ') (fun i l hi => by
      have hi' := (List.getElem?_eq_some_iff.1 hi).1
      have := (List.forall₂_iff_get.1 hl).2 i (by rw [List.length_ofFn]; omega) hi'
      simp only [List.get_eq_getElem, List.getElem_ofFn, (List.getElem?_eq_some_iff.1 hi).2] at this
      rw [show L' i = L ⟨i, by omega⟩ from eL' ⟨i, by omega⟩]
      exact this) (fun i t hi => by
      obtain ⟨hi', rfl⟩ := List.getElem?_eq_some_iff.1 hi
      rw [List.length_ofFn] at hi'
      rw [List.getElem_ofFn]
      exact eτ ⟨i, hi'⟩) fun x => (ha x).right
  have he := (evidence_pos (n := n) (T := fun i : Fin n => kernel E π tm (τ i.castSucc)) (L := L) hπ hs (fun i => kernel_nonneg hE.gauss tm (Or.inl hR) _) (fun i => kernel_sum hE.gauss tm hL (Or.inl hR) _) hL0).ne'
  obtain ⟨A0, hA0, hev⟩ := C01_evidence_is_path_sum E grid tm hE hL hR S π hp L (fun i x => (hL0 i x).le) τ fo false (Or.inr hmode)
  have hmeans : ∀ {A : FitState K gs}, fit E grid tm (List.ofFn L) (List.ofFn τ) fo false S = .ok A → ∀ {p : Fin (n + 1) → Idx gs → K}, A.posts = List.ofFn (fun i => .val (p i)) →
      ∀ a (i : Fin (n + 1)) m, (A.means a)[i.val]? = some m → m = mean grid a (p i) := by
    intro A hA p hAp a i m hm
    rw [hA, Except.ok.injEq] at hA0
    subst hA0
    obtain ⟨-, k2, -⟩ := rounded_acc (c' := E.cell) (N := roundings (List.ofFn L).length (Fintype.card (Idx gs)) (elements tm) e eP eL) hE hL hu hu1 hp (Or.inl hR) ha (Acc.refl hu hu1 hcell.le _) hl hA
      (by rw [hev]; exact he) ⟨ss, h1, h2, h3⟩ rfl
    rw [k2, hAp] at hm
    have e1 : (List.ofFn fun i => Cell.val (p i)).filterMap (fun c => c.get?.map (mean grid a)) = List.ofFn fun i => mean grid a (p i) := by
      rw [List.ofFn_eq_map, List.ofFn_eq_map, List.filterMap_map]
      rw [← List.filterMap_eq_map]
      rfl
    rw [e1, List.getElem?_ofFn, dif_pos i.isLt, Option.some.injEq] at hm
    exact hm.symm
  have hg := inv_pow_le hu hu1 (N := 2 * eP) (N' := N) (by rw [hN, stepRoundings]; omega) hNu'
  have hg1 := inv_pow_le hu hu1 (N := 2 * 1) (N' := N) (by rw [hN, stepRoundings]; omega) hNu'
  have hg2 := mul_le_mul_of_nonneg_left (inv_pow_le hu hu1 (N := 2 * (eL + 2 + elements tm * e)) (N' := N) (by rw [hN, stepRoundings]; omega) hNu') (by positivity : 0 ≤ (w + 1) * C)
  have hg0 : 0 ≤ gam N u := by
    unfold gam
    exact div_nonneg (mul_nonneg (Nat.cast_nonneg _) hu) (by linarith)
  have hWC : 0 ≤ (w + 1) * C * gam N u := by positivity
  cases fo with
  | true =>
    obtain ⟨A, a1, a2⟩ := C03_filtering E grid tm hE hL S π hp (Or.inl hR) L (fun i x => (hL0 i x).le) τ he
    rw [if_pos rfl] at h3
    refine ⟨A, _, a1, a2, by rw [h3, List.length_map, hlen], fun i p' hi => ?_⟩
    rw [h3, List.getElem?_map, Option.map_eq_some_iff] at hi
    obtain ⟨s, hi, rfl⟩ := hi
    obtain ⟨q, q1, q2, q3⟩ := filter_near hE hL hR hu hu1 hC hL0' (hmix τ' L' hL0' hL1') hπ hs hcell (by rw [ha1]; exact ha0) ha2 hi
    have e1 : posterior π (fun j : Fin i.val => kernel E (fun _ => 0) tm (τ' j)) (fun j : Fin (i.val + 1) => L' j) (Fin.last i.val) =
        filtering π (fun j : Fin i.val => kernel E π tm (upTo i τ j.castSucc)) (upTo i L) := by
      funext x
      rw [filtering]
      congr 1
      · funext j
        rw [ek]
        congr 1
        exact eτ ⟨j, by have := i.isLt; omega⟩
      · funext j
        exact eL' ⟨j, by have := i.isLt; omega⟩
    rw [e1] at q3
    obtain ⟨r1, r2⟩ := near_results hu hu1 (N := N) (by rw [hN, stepRoundings]; omega) hNu q1 q2 hD (q3.trans (by linarith))
    refine ⟨r1, fun a m m' B hm hm' hB => ?_⟩
    rw [hmeans a1 a2 a i m hm]
    exact r2 grid a m' B hm' hB
  | false =>
    have hU := hmode.resolve_left (by simp)
    obtain ⟨A, a1, a2⟩ := smoothing_matched E grid tm hE hL S π hp (Or.inl hR) L (fun i x => (hL0 i x).le) τ (matched_of_unit hU) he
    rw [if_neg (by simp)] at h3
    obtain ⟨β, hβ⟩ := h3
    refine ⟨A, _, a1, a2, ?_, fun i p' hi => ?_⟩
    · rw [hβ.length, hlen]
    obtain ⟨q, q1, q2, q3⟩ := smooth_near hE (E' := { E with prior := S.prior }) ⟨hE.gauss, rfl, rfl, rfl⟩ hL hR hu hu1 hC hL0' (fun τ => hmix τ L' hL0' hL1') (fun τ => hmix τ _ (fun j => hL0' _) fun j => hL1' _)
      (fun j hj => by
        have := hU ⟨j, hj⟩
        rw [show τ' (j + 1) = _ from eτ ⟨j + 1, by omega⟩, show τ' j = _ from eτ ⟨j, by omega⟩]
        exact this) hπ hs hcell (by rw [ha1]; exact ha0) ha2 hlen hβ hi
    have e1 : posterior π (fun j : Fin n => kernel E (fun _ => 0) tm (τ' j)) (fun j : Fin (n + 1) => L' j) i = posterior π (fun j : Fin n => kernel E π tm (τ j.castSucc)) L i := by
      congr 1
      · funext j
        rw [ek]
        congr 1
        exact eτ j.castSucc
      · funext j
        exact eL' j
    rw [e1] at q3
    obtain ⟨r1, r2⟩ := near_results hu hu1 (N := N) (by rw [hN, stepRoundings]; omega) hNu q1 q2 hD (q3.trans (by linarith))
    refine ⟨r1, fun a m m' B hm hm' hB => ?_⟩
    rw [hmeans a1 a2 a i m hm]
    exact r2 grid a m' B hm' hB

/-- random walks for all parameters, with scipy's filter -/
theorem walks_real {gs : Fin d → ℕ} {names : Fin d → String} (hn : Function.Injective names) {lattice : Fin d → ℝ} (hl : ∀ a, 0 < lattice a) (hne : Nonempty (Idx gs)) {pr : PriorSpec ℝ gs}
    {l : ℕ} {shift : Fin d → ℝ → (Idx gs → ℝ) → (Idx gs → ℝ)} {σ : Fin d → ℝ} (hσ : ∀ a, lattice a / 8 ≤ σ a) {E : Env ℝ gs} (hEd : E = ⟨names, lattice, pr, realExt l shift⟩) {tm : TM ℝ}
    (htm : tm = .combined (List.ofFn fun a => .leaf (.grw (names a)) ["sigma"] [.scalar (σ a)] none)) :
    Regular E ∧ (∀ s, 0 < s → ∀ k : ℤ, |k| ≤ E.ext.gaussR s → 0 < E.ext.gaussW s k) ∧ Linear E tm ∧ ResetFree tm ∧ ∀ a, Wanders E a tm := by
  have hax : ∀ a, E.axis (names a) = .ok a := fun a => by
    rw [hEd]
    exact axis_distinct (E := ⟨names, lattice, pr, realExt l shift⟩) hn a
  refine ⟨by rw [hEd]; exact ⟨hl, hne, realExt_gaussOK _ _⟩, fun s _ k _ => by rw [hEd]; exact scipyWeight_pos s k, ?_, ?_, fun a => ?_⟩
  · rw [htm, Linear]
    refine linearAll_mem fun m hm => ?_
    obtain ⟨a, rfl⟩ := (List.mem_ofFn' _ _).1 hm
    rw [Linear]
    exact ⟨⟨a, hax a⟩, _, rfl⟩
  · rw [htm, ResetFree]
    refine resetFreeAll_mem fun m hm => ?_
    obtain ⟨a, rfl⟩ := (List.mem_ofFn' _ _).1 hm
    simp [ResetFree]
  · rw [htm, Wanders]
    refine wandersAny_mem ((List.mem_ofFn' _ _).2 ⟨a, rfl⟩) ?_
    simp only [Wanders, val0]
    refine ⟨hax a, ?_, ?_⟩
    · rw [hEd]
      exact div_pos (lt_of_lt_of_le (by have := hl a; positivity) (hσ a)) (hl a)
    · rw [hEd]
      refine Nat.le_floor ?_
      have : 1 / 8 ≤ σ a / lattice a := by rw [le_div_iff₀ (hl a)]; linarith [hσ a]
      push_cast
      linarith

/-- **C105 (scipy's filter).** Real numbers and the filter of scipy, a Gaussian random walk with a standard deviation of at least one eighth of the lattice constant for every parameter.  For every `ε` there is
a precision `u₀` that suffices for data of **any** length: all posterior distributions computed with rounding errors up to `u₀` differ from the exact ones by at most `ε`. -/
theorem C105_real (gs : Fin d → ℕ) (names : Fin d → String) (hn : Function.Injective names) (lattice : Fin d → ℝ) (hl : ∀ a, 0 < lattice a) (hne : Nonempty (Idx gs)) (pr : PriorSpec ℝ gs)
    (l : ℕ) (shift : Fin d → ℝ → (Idx gs → ℝ) → (Idx gs → ℝ)) (σ : Fin d → ℝ) (hσ : ∀ a, lattice a / 8 ≤ σ a) (c : ℝ) (hc : 1 ≤ c) (eP eL e : ℕ) (ε : ℝ) (hε : 0 < ε) :
    ∃ u₀ : ℝ, 0 < u₀ ∧ ∀ (u : ℝ), 0 ≤ u → u ≤ u₀ → ∀ (grid : (a : Fin d) → Fin (gs a) → ℝ) (S : FitState ℝ gs) (π : Idx gs → ℝ), PriorMass (∏ a, lattice a) S.prior π → 0 < ∑ x, π x →
      ∀ (n : ℕ) (L : Fin (n + 1) → Idx gs → ℝ) (τ : Fin (n + 1) → ℝ) (fo : Bool), (∀ i x, 0 < L i x) → (∀ i x y, L i x ≤ c * L i y) → (fo = true ∨ ∀ i : Fin n, τ i.succ = τ i.castSucc + 1) →
      ∀ (a' : Idx gs → ℝ) (liks' posts : List (Idx gs → ℝ)) (norms : List ℝ), (∀ x, Acc u eP (π x / ∏ a, lattice a) (a' x)) →
        List.Forall₂ (fun L L' => ∀ x, Acc u eL (L x) (L' x)) (List.ofFn L) liks' →
        RFit ⟨names, lattice, S.prior, realExt l shift⟩ (.combined (List.ofFn fun a => .leaf (.grw (names a)) ["sigma"] [.scalar (σ a)] none)) u e a' liks' (List.ofFn τ) fo posts norms →
        ∃ (A : FitState ℝ gs) (p : Fin (n + 1) → Idx gs → ℝ),
          fit ⟨names, lattice, pr, realExt l shift⟩ grid (.combined (List.ofFn fun a => .leaf (.grw (names a)) ["sigma"] [.scalar (σ a)] none)) (List.ofFn L) (List.ofFn τ) fo false S = .ok A ∧
          A.posts = List.ofFn (fun i => .val (p i)) ∧ posts.length = n + 1 ∧ ∀ (i : Fin (n + 1)) (p' : Idx gs → ℝ), posts[i.val]? = some p' → ∑ x, |p' x - p i x| ≤ ε := by
  obtain ⟨E, hEd⟩ : ∃ E : Env ℝ gs, E = ⟨names, lattice, pr, realExt l shift⟩ := ⟨_, rfl⟩
  obtain ⟨tm, htm⟩ : ∃ tm : TM ℝ, tm = .combined (List.ofFn fun a => .leaf (.grw (names a)) ["sigma"] [.scalar (σ a)] none) := ⟨_, rfl⟩
  obtain ⟨hE, hW, hL, hR, hA⟩ := walks_real hn hl hne hσ hEd htm
  obtain ⟨D, hD⟩ := C105 E tm hE hW hL hR hA c hc
  obtain ⟨N, hN⟩ : ∃ N, N = stepRoundings (Fintype.card (Idx gs)) (elements tm) e eP eL := ⟨_, rfl⟩
  have hN1 : (1 : ℝ) ≤ N := by exact_mod_cast (by rw [hN, stepRoundings]; omega : 1 ≤ N)
  have hN1' : (1 : ℝ) ≤ ((N + 1 + Fintype.card (Idx gs) : ℕ) : ℝ) := by exact_mod_cast (by omega)
  refine ⟨min (1 / (2 * ((N + 1 + Fintype.card (Idx gs) : ℕ) : ℝ))) (ε / (2 * N * (|D| + 1))), lt_min (by positivity) (by positivity), fun u hu hu0 grid S π hp hs n L τ fo hL0 hLc hmode a' liks' posts norms ha hl' h' => ?_⟩
  have hu1 : ((N + 1 + Fintype.card (Idx gs) : ℕ) : ℝ) * u ≤ 1 / 2 := by
    have := hu0.trans (min_le_left _ _)
    rw [le_div_iff₀ (by positivity)] at this
    linarith
  have hu2 : |D| * (2 * (N * u)) ≤ ε := by
    have := hu0.trans (min_le_right _ _)
    rw [le_div_iff₀ (by positivity)] at this
    have h0 : 0 ≤ N * u := by positivity
    nlinarith [abs_nonneg D]
  have hNu : (N : ℝ) * u ≤ 1 / 2 := le_trans (mul_le_mul_of_nonneg_right (by exact_mod_cast (by omega)) hu) hu1
  have hcell : E.cell = ∏ a, lattice a := by rw [hEd]; rfl
  obtain ⟨A, p, k1, k2, k3, k4⟩ := hD grid S π (by rw [hcell]; exact hp) hs u eP eL e N _ hu hN rfl (by linarith) n L τ fo hL0 hLc hmode a' liks' posts norms (by rw [hcell]; exact ha) hl' (by rw [hEd, htm]; exact h')
  rw [hEd, htm] at k1
  refine ⟨A, p, k1, k2, k3, fun i p' hi => (k4 i p' hi).1.trans ?_⟩
  have hg : gam N u ≤ 2 * (N * u) := by
    rw [gam, div_le_iff₀ (by linarith)]
    have h0 : 0 ≤ N * u := by positivity
    nlinarith
  have hg0 : 0 ≤ gam N u := by
    unfold gam
    exact div_nonneg (by positivity) (by linarith)
  calc D * gam N u ≤ |D| * gam N u := mul_le_mul_of_nonneg_right (le_abs_self D) hg0
    _ ≤ |D| * (2 * (N * u)) := mul_le_mul_of_nonneg_left hg (abs_nonneg D)
    _ ≤ ε := hu2

/-- the computed distributions of the counterexample -/
def _root_.Ex.drift (r : ℚ) (k : ℕ) : Idx Ex.gs2 → ℚ := Ex.v2 (1 / (1 + r ^ k)) (r ^ k / (1 + r ^ k))

theorem _root_.Ex.drift_run {u : ℚ} (hu : 0 < u) (hu1 : u < 1) (pr : PriorSpec ℚ Ex.gs2) : ∀ (m k : ℕ) (ts : List ℚ), ts.length = m →
    ∃ ss, RFwd { Ex.env Ex.gs2 1 with prior := pr } Ex.static u 0 (Ex.drift (1 - u) k) (List.replicate m (Ex.v2 1 1)) ts ss false ∧ ss.map Step.alpha = (List.range m).map fun j => Ex.drift (1 - u) (k + j + 1)
  | 0, k, ts, _ => ⟨[], .done _ _, rfl⟩
  | m + 1, k, [], h => by simp at h
  | m + 1, k, t :: ts, h => by
      obtain ⟨ss, h1, h2⟩ := Ex.drift_run hu hu1 pr m (k + 1) ts (by simpa using h)
      have hr : 0 < 1 - u := by linarith
      have hp : ∀ j, 0 < (1 - u) ^ j := fun j => pow_pos hr j
      have hk : 0 < 1 + (1 - u) ^ k := by linarith [hp k]
      have hk' : 0 < 1 + (1 - u) ^ (k + 1) := by linarith [hp (k + 1)]
      have hx : ∀ a b : ℚ, ∀ x, Ex.v2 a b x = a ∨ Ex.v2 a b x = b := fun a b x => by unfold Ex.v2; split <;> simp
      refine ⟨⟨Ex.drift (1 - u) (k + 1), 1 / (1 + (1 - u) ^ k) + (1 - u) ^ (k + 1) / (1 + (1 - u) ^ k), Ex.v2 1 1, t⟩ :: ss, ?_, ?_⟩
      · refine .step (a' := Ex.v2 (1 / (1 + (1 - u) ^ k)) ((1 - u) ^ (k + 1) / (1 + (1 - u) ^ k))) (fun x => ?_) (Ex.rsum2 ?_) (by positivity) (fun x => ?_) (b := Ex.drift (1 - u) (k + 1)) ⟨_, rfl, fun x => ?_⟩ h1
        · rw [Rounded, Ex.drift, Ex.v2, Ex.v2, Ex.v2]
          split
          · simp; positivity
          · rw [mul_one, abs_sub_comm]
            have e1 : (1 - u) ^ k / (1 + (1 - u) ^ k) - (1 - u) ^ (k + 1) / (1 + (1 - u) ^ k) = u * ((1 - u) ^ k / (1 + (1 - u) ^ k)) := by rw [pow_succ]; ring
            rw [e1, abs_mul, abs_of_pos hu]
        · rw [Rounded, sub_self, abs_zero]
          positivity
        · have e1 : Ex.drift (1 - u) (k + 1) x = Ex.v2 (1 / (1 + (1 - u) ^ k)) ((1 - u) ^ (k + 1) / (1 + (1 - u) ^ k)) x / (1 / (1 + (1 - u) ^ k) + (1 - u) ^ (k + 1) / (1 + (1 - u) ^ k)) := by
            rw [Ex.drift, Ex.v2, Ex.v2]
            split <;> field_simp
          rw [Rounded, e1, sub_self, abs_zero]
          positivity
        · refine Acc.refl hu.le hu1 ?_ 0
          rw [Ex.drift, Ex.v2]
          split <;> positivity
      · rw [List.map_cons, h2, List.range_succ_eq_map, List.map_cons, List.map_map]
        refine congrArg₂ _ rfl (List.map_congr_left fun j _ => ?_)
        rw [Function.comp_apply, Nat.succ_eq_add_one, show k + 1 + j + 1 = k + (j + 1) + 1 by ring]

/-- **C105 does not hold for constant parameters.** One parameter with two values, the Static model and data that carry no information.  With any precision `u` (and exact prior and likelihoods), runs with
enough data points exist whose last posterior distribution differs by at least 1/2 from the exact one, which is flat. -/
theorem C105_static_refuted (u : ℚ) (hu : 0 < u) (hu1 : u < 1) :
    ∃ N, ∀ n ≥ N, ∀ τ : Fin (n + 1) → ℚ, ∃ (posts : List (Idx Ex.gs2 → ℚ)) (norms : List ℚ) (A : FitState ℚ Ex.gs2) (p : Fin (n + 1) → Idx Ex.gs2 → ℚ) (p' : Idx Ex.gs2 → ℚ),
      RFit (Ex.env Ex.gs2 1) Ex.static u 0 (Ex.v2 (1 / 2) (1 / 2)) (List.ofFn fun _ : Fin (n + 1) => Ex.v2 1 1) (List.ofFn τ) true posts norms ∧
      fit (Ex.env Ex.gs2 1) (Ex.grid Ex.gs2) Ex.static (List.ofFn fun _ : Fin (n + 1) => Ex.v2 1 1) (List.ofFn τ) true false (Ex.S0 .none) = .ok A ∧ A.posts = List.ofFn (fun i => .val (p i)) ∧
      posts[n]? = some p' ∧ 1 / 2 ≤ ∑ x, |p' x - p (Fin.last n) x| := by
  obtain ⟨N, hN⟩ := exists_pow_lt_of_lt_one (show (0 : ℚ) < 1 / 3 by norm_num) (show 1 - u < 1 by linarith)
  refine ⟨N, fun n hn τ => ?_⟩
  have hr : 0 < 1 - u := by linarith
  have hpow : (1 - u) ^ (n + 1) ≤ 1 / 3 := (pow_le_pow_of_le_one hr.le (by linarith) (by omega : N ≤ n + 1)).trans hN.le
  obtain ⟨ss, h1, h2⟩ := Ex.drift_run hu hu1 .none (n + 1) 0 (List.ofFn τ) (by simp)
  have hrep : (List.ofFn fun _ : Fin (n + 1) => Ex.v2 1 1) = List.replicate (n + 1) (Ex.v2 1 1) := by rw [List.ofFn_const]
  have h0 : Ex.drift (1 - u) 0 = Ex.v2 (1 / 2) (1 / 2) := by rw [Ex.drift, pow_zero]; norm_num
  rw [h0] at h1
  have hE := Ex.regular2 (lat := 1) (by norm_num)
  have hS : ∀ t, kernel (Ex.env Ex.gs2 1) (fun _ => 1 / (Fintype.card (Idx Ex.gs2) : ℚ)) Ex.static t = fun x y => if x = y then 1 else 0 := fun t => by rw [Ex.static, kernel_static]; rfl
  have hsum : ∀ f : Idx Ex.gs2 → ℚ, ∑ x, f x = f (fun _ => ⟨0, by simp [Ex.gs2]⟩) + f fun _ => ⟨1, by simp [Ex.gs2]⟩ := fun f => by
    have h1 : (Finset.univ : Finset (Idx Ex.gs2)) = {fun _ => ⟨0, by simp [Ex.gs2]⟩, fun _ => ⟨1, by simp [Ex.gs2]⟩} := by decide
    rw [h1, Finset.sum_pair (by decide)]
  have hv1 : ∀ x, Ex.v2 1 1 x = 1 := fun x => by unfold Ex.v2; split <;> rfl
  have hcard : (Fintype.card (Idx Ex.gs2) : ℚ) = 2 := by
    have : Fintype.card (Idx Ex.gs2) = 2 := by decide
    rw [this]; norm_num
  obtain ⟨A, a1, a2⟩ := C03_filtering (Ex.env Ex.gs2 1) (Ex.grid Ex.gs2) Ex.static hE (by simp [Ex.static, Linear]) (Ex.S0 .none) _ .flat (Or.inl (by simp [Ex.static, ResetFree])) (n := n) (fun _ => Ex.v2 1 1)
    (fun _ x => by rw [hv1]; norm_num) τ (by
      simp only [hS]
      rw [evidence_const]
      simp only [hv1, Finset.prod_const_one, hsum, hcard]
      norm_num)
  refine ⟨ss.map Step.alpha, ss.map Step.norm, A, _, Ex.drift (1 - u) (n + 1), ⟨ss, by rw [hrep]; exact h1, rfl, by rw [if_pos rfl]⟩, a1, a2, ?_, ?_⟩
  · rw [h2, List.getElem?_map, List.getElem?_range (by omega), Option.map_some]
    congr 2
    omega
  · have hflat : ∀ x, filtering (fun _ => 1 / (Fintype.card (Idx Ex.gs2) : ℚ)) (fun j : Fin (Fin.last n).val => kernel (Ex.env Ex.gs2 1) (fun _ => 1 / (Fintype.card (Idx Ex.gs2) : ℚ)) Ex.static (upTo (Fin.last n) τ j.castSucc))
        (upTo (Fin.last n) fun _ => Ex.v2 1 1) x = 1 / 2 := fun x => by
      simp only [hS, filtering, posterior]
      rw [evidence_const, marginal_const]
      simp only [upTo, hv1, Finset.prod_const_one, hsum, hcard]
      norm_num
    simp only [hflat, hsum]
    have hp : 0 < (1 - u) ^ (n + 1) := pow_pos hr _
    have e0 : Ex.drift (1 - u) (n + 1) (fun _ => ⟨0, by simp [Ex.gs2]⟩) = 1 / (1 + (1 - u) ^ (n + 1)) := rfl
    have e1 : Ex.drift (1 - u) (n + 1) (fun _ => ⟨1, by simp [Ex.gs2]⟩) = (1 - u) ^ (n + 1) / (1 + (1 - u) ^ (n + 1)) := rfl
    rw [e0, e1]
    have k1 : 3 / 4 ≤ 1 / (1 + (1 - u) ^ (n + 1)) := by rw [le_div_iff₀ (by linarith)]; linarith
    have k2 : (1 - u) ^ (n + 1) / (1 + (1 - u) ^ (n + 1)) ≤ 1 / 4 := by rw [div_le_iff₀ (by linarith)]; linarith
    have k3 := le_abs_self (1 / (1 + (1 - u) ^ (n + 1)) - 1 / 2)
    have k4 := neg_le_abs ((1 - u) ^ (n + 1) / (1 + (1 - u) ^ (n + 1)) - 1 / 2)
    linarith

/-- a run with a random walk in decimal arithmetic with three digits -/
example : RFit { Ex.env Ex.gs2 1 with prior := (Ex.S0 (gs := Ex.gs2) .none).prior } (Ex.grw 1) (1 / 200 : ℚ) 0 (Ex.v2 (1 / 2) (1 / 2)) [Ex.v2 1 2] [0] true [Ex.v2 (333 / 1000) (667 / 1000)] [3 / 2] :=
  ⟨[⟨Ex.v2 (333 / 1000) (667 / 1000), 3 / 2, Ex.v2 1 2, 0⟩], .step (a' := Ex.v2 (1 / 2) 1) (norm := 3 / 2) (α := Ex.v2 (333 / 1000) (667 / 1000)) (b := Ex.v2 (833 / 2000) (1167 / 2000)) (by decide +kernel) (Ex.rsum2 (by decide +kernel))
    (by norm_num) (by decide +kernel) ⟨filterAxis 1 (fun k => if k = 0 then 1 / 2 else 1 / 4) 0 (Ex.v2 (333 / 1000) (667 / 1000)), by
      have := Ex.axis_x Ex.gs2 1
      simp only [leafFwd, grwFwd]
      rw [show ({ Ex.env Ex.gs2 1 with prior := (Ex.S0 (gs := Ex.gs2) .none).prior } : Env ℚ Ex.gs2) = Ex.env Ex.gs2 1 from rfl, this]
      simp [bind, Except.bind, scalarAt, Ex.env, Ex.ext], by decide +kernel⟩ (.done _ _), rfl, by rw [if_pos rfl]; rfl⟩

/-- Two parameters with random walks, standard deviations of one and three grid steps. -/
example := C105_real (d := 2) (fun _ => 5) ![ "mean", "std"] (by decide) (fun _ => 1 / 4) (fun _ => by norm_num) ⟨fun _ => ⟨0, by norm_num⟩⟩ .none 5 (fun _ _ p => p) ![1 / 4, 3 / 4]
  (by intro a; fin_cases a <;> norm_num) 100 (by norm_num) 3 4 50 (1 / 1000) (by norm_num)

/-- The hypotheses are met by a serial model whose first segment combines a constant with a random walk, for likelihood ratios up to 3. -/
example := C105 (Ex.env Ex.gs3 (1 / 2)) (Ex.ser false 1 (.combined [Ex.static, Ex.grw 1]) (Ex.grw 2)) (Ex.regular3 (by norm_num))
  (by intro s _ k _; simp only [Ex.env, Ex.ext]; split <;> norm_num)
  (by simp [Ex.ser, Ex.grw, Ex.static, Linear, LinearAll, Ex.axis_x]) (by simp [Ex.ser, Ex.grw, Ex.static, ResetFree, ResetFreeAll])
  (by
    intro a
    obtain rfl : a = 0 := Subsingleton.elim _ _
    simp [Ex.ser, Ex.grw, Ex.static, Wanders, WandersAny, WandersEvery, val0, Ex.env, Ex.ext]
    rfl) 3 (by norm_num)

end Props
