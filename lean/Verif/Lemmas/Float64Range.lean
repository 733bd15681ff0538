import Verif.Lemmas.Float64Run
import Verif.Props.C103

/-! # Conditions on the input that keep a run in the range of full precision -/

set_option linter.unusedSectionVars false

namespace BL
open Spec
variable {K : Type} [Field K] [LinearOrder K] [IsStrictOrderedRing K] [FloorRing K] {d : ℕ} {gs : Fin d → ℕ} {E E' : Env K gs} {tm : TM K} {κ low : K} {M e : ℕ}

/-- the factor by which the smallest value can decrease in one time step -/
theorem factor_le {c S : K} (hκ : 0 < κ) (hκ1 : κ ≤ 1) (hc : 1 ≤ c) (hS : 8 ≤ S) {k : ℕ} {f : K} (hf : f = (κ / 2) ^ k / (16 * c * S)) : 0 < f ∧ f ≤ 1 ∧ f ≤ 1 / (16 * c * S) ∧ f ≤ (κ / 2) ^ k / (128 * c) := by
  have hc0 : 0 < c := zero_lt_one.trans_le hc
  have hp : 0 < (κ / 2) ^ k := by positivity
  have hp1 : (κ / 2) ^ k ≤ 1 := pow_le_one₀ (by positivity) (by linarith)
  have h1 : 128 * c ≤ 16 * c * S := by nlinarith
  have h2 : 0 < 16 * c * S := by nlinarith
  have h3 : (κ / 2) ^ k / (16 * c * S) ≤ 1 / (16 * c * S) := div_le_div_of_nonneg_right hp1 h2.le
  refine ⟨by rw [hf]; positivity, ?_, by rw [hf]; exact h3, by rw [hf]; exact div_le_div_of_nonneg_left hp.le (by positivity) h1⟩
  rw [hf]
  refine h3.trans ?_
  rw [div_le_one h2]
  nlinarith

/-- the conditions of the single steps follow from two inequalities for a common lower bound `m` of all values -/
theorem range_conditions (hκ : 0 < κ) (hκ1 : κ ≤ 1) {l c S : K} (hl : 0 < l) (hc : 1 ≤ c) (hS : 8 ≤ S) {k : ℕ} {f : K} (hf : f = (κ / 2) ^ k / (16 * c * S)) (hlow : tiny64 K ≤ low) {m : K} (hm : 0 < m) (hm1 : m ≤ 1)
    (h1 : 128 * low ≤ m ^ 2 * f) (h2 : 128 * low ≤ m ^ 2 * f * l) :
    tiny64 K ≤ m * l ∧ tiny64 K ≤ m / (8 * c * S) ∧ low ≤ m / (16 * c * S) * (κ / 2) ^ k ∧ tiny64 K ≤ m / (16 * c * S) * m / 128 ∧ low ≤ m * l / (2 * c) * (κ / 2) ^ k ∧ tiny64 K ≤ m * (κ / 2) ^ k / (64 * c) := by
  obtain ⟨f0, f1, f2, f3⟩ := factor_le hκ hκ1 hc hS hf
  have hc0 : 0 < c := zero_lt_one.trans_le hc
  have hS0 : 0 < S := by linarith
  have hlow0 : 0 < low := tiny64_pos.trans_le hlow
  have hm2 : m ^ 2 ≤ m := by nlinarith
  have hmf : m ^ 2 * f ≤ m * f := mul_le_mul_of_nonneg_right hm2 f0.le
  have hmfm : m * f ≤ m := by nlinarith
  have hlm : low ≤ m * f := by linarith
  have e1 : m / (16 * c * S) * (κ / 2) ^ k = m * f := by rw [hf]; ring
  have e2 : m * (κ / 2) ^ k / (128 * c) = m * ((κ / 2) ^ k / (128 * c)) := by ring
  have e3 : m * f ≤ m * ((κ / 2) ^ k / (128 * c)) := mul_le_mul_of_nonneg_left f3 hm.le
  have hp : 0 < (κ / 2) ^ k := by positivity
  refine ⟨?_, ?_, by rw [e1]; exact hlm, ?_, ?_, ?_⟩
  · have : m ^ 2 * f * l ≤ m * l := mul_le_mul_of_nonneg_right (hmf.trans hmfm) hl.le
    linarith
  · have h3 : m * f ≤ m * (1 / (16 * c * S)) := mul_le_mul_of_nonneg_left f2 hm.le
    have h4 : m / (8 * c * S) = 2 * (m * (1 / (16 * c * S))) := by field_simp; ring
    rw [h4]
    have : 0 < m * (1 / (16 * c * S)) := by positivity
    linarith
  · have h3 : m ^ 2 * f ≤ m ^ 2 * (1 / (16 * c * S)) := mul_le_mul_of_nonneg_left f2 (by positivity)
    have h4 : m / (16 * c * S) * m / 128 = m ^ 2 * (1 / (16 * c * S)) / 128 := by ring
    rw [h4]
    linarith
  · have h3 : m ^ 2 * f * l ≤ m * ((κ / 2) ^ k / (128 * c)) * l := mul_le_mul_of_nonneg_right (hmf.trans e3) hl.le
    have h4 : m * l / (2 * c) * (κ / 2) ^ k = 64 * (m * ((κ / 2) ^ k / (128 * c)) * l) := by field_simp; ring
    rw [h4]
    have : 0 < m * ((κ / 2) ^ k / (128 * c)) * l := by positivity
    linarith
  · have h4 : m * (κ / 2) ^ k / (64 * c) = 2 * (m * ((κ / 2) ^ k / (128 * c))) := by field_simp; ring
    rw [h4]
    have : 0 < m * ((κ / 2) ^ k / (128 * c)) := by positivity
    linarith

/-- forward loop, bounded number of time steps -/
theorem ffwd_range (H : RunOK E E' tm κ low M e) {l c S : K} (hl : 0 < l) (hc : 1 ≤ c) (hS : 8 ≤ S) {f : K} (hf : f = (κ / 2) ^ elements tm / (16 * c * S)) (hlow : tiny64 K ≤ low) {p0 : K} (hp0 : 0 < p0) {T : ℕ} {m : K}
    (hm : 0 < m) (hm1 : m ≤ 1) (hmT : m ≤ p0 * f ^ T) (h1 : 128 * low ≤ m ^ 2 * f) (h2 : 128 * low ≤ m ^ 2 * f * l) {a : Idx gs → K} {Ls : List (Idx gs → K)} {ts : List K} {ss : List (Step K gs)} {st : Bool}
    (h : FFwd E' tm e low a Ls ts ss st) (hT : Ls.length = T) (ha : FArr a) (hal : Low p0 a) (hs : ∑ x, a x ≤ S) (hLs : ∀ L ∈ Ls, LikOK l c L) :
    RFwd E' tm (u64 K) e a Ls ts ss st ∧ ∀ s ∈ ss, FStep (m / (16 * c * S)) l c s := by
  obtain ⟨f0, f1, -, -⟩ := factor_le H.pos H.le_one hc hS hf
  obtain ⟨c1, c2, c3, -⟩ := range_conditions H.pos H.le_one hl hc hS hf hlow hm hm1 h1 h2
  refine fwd_run H hl hc hS False (fun k a => Low (p0 * f ^ k) a) T hm (fun k a hk hI => hI.mono (hmT.trans (mul_le_mul_of_nonneg_left (pow_le_pow_of_le_one f0.le f1 hk.le) hp0.le))) c1 c2 c3 (fun k a b t hk hI h0 hb _ _ => ?_) h 0
    (by omega) (by rw [pow_zero, mul_one]; exact hal) ha hs hLs fun h => h.elim
  have := hb _ (hmT.trans (mul_le_mul_of_nonneg_left (pow_le_pow_of_le_one f0.le f1 hk.le) hp0.le)) hI
  rwa [show p0 * f ^ k / (16 * c * S) * (κ / 2) ^ elements tm = p0 * f ^ (k + 1) by rw [pow_succ, hf]; ring] at this

theorem FFwd.length_le {a : Idx gs → K} {Ls : List (Idx gs → K)} {ts : List K} {ss : List (Step K gs)} {st : Bool} (h : FFwd E tm e low a Ls ts ss st) : ss.length ≤ Ls.length := by
  induction h with
  | done => simp
  | stop => simp
  | step _ _ _ _ _ _ ih => simpa using ih

theorem FFwd.lik {a : Idx gs → K} {Ls : List (Idx gs → K)} {ts : List K} {ss : List (Step K gs)} {st : Bool} (h : FFwd E tm e low a Ls ts ss st) (hL : ∀ L ∈ Ls, ∀ x, L x ≠ 0) : ∀ s ∈ ss, ∀ x, s.lik x ≠ 0 := by
  induction h with
  | done => simp
  | stop => simp
  | step _ _ _ _ _ _ ih =>
      intro s hs
      rcases List.mem_cons.1 hs with rfl | hs
      · exact hL _ List.mem_cons_self
      · exact ih (fun L hL' => hL L (List.mem_cons_of_mem _ hL')) s hs

/-- complete run, bounded number of time steps -/
theorem ffit_range (H : RunOK E E' tm κ low M e) {l c S : K} (hl : 0 < l) (hc : 1 ≤ c) (hS : 8 ≤ S) {f : K} (hf : f = (κ / 2) ^ elements tm / (16 * c * S)) (hlow : tiny64 K ≤ low) {p0 : K} (hp0 : 0 < p0) {T : ℕ} {m : K}
    (hm : 0 < m) (hm1 : m ≤ 1) (hmT : m ≤ p0 * f ^ T) (hmG : m ≤ 1 / (4 * Fintype.card (Idx gs)) * f ^ T) (h1 : 128 * low ≤ m ^ 2 * f) (h2 : 128 * low ≤ m ^ 2 * f * l)
    {a : Idx gs → K} {Ls : List (Idx gs → K)} {ts : List K} {fo : Bool} {posts : List (Idx gs → K)} {norms : List K}
    (h : FFit E' tm e low a Ls ts fo posts norms) (hT : Ls.length = T) (ha : FArr a) (hal : Low p0 a) (hs : ∑ x, a x ≤ S) (hLs : ∀ L ∈ Ls, LikOK l c L) :
    RFit E' tm (u64 K) e a Ls ts fo posts norms := by
  obtain ⟨ss, k1, k2, k3⟩ := h
  obtain ⟨l1, l2⟩ := ffwd_range H hl hc hS hf hlow hp0 hm hm1 hmT h1 h2 k1 hT ha hal hs hLs
  refine ⟨ss, l1, k2, ?_⟩
  cases fo with
  | true => simpa using k3
  | false =>
      simp only [Bool.false_eq_true, if_false] at k3 ⊢
      obtain ⟨β, k3⟩ := k3
      have := H.regular.nonempty
      have hG0 : (0 : K) < Fintype.card (Idx gs) := by exact_mod_cast Fintype.card_pos
      obtain ⟨f0, f1, -, f3⟩ := factor_le H.pos H.le_one hc hS hf
      obtain ⟨c1, -, -, c4, c5, c6⟩ := range_conditions H.pos H.le_one hl hc hS hf hlow hm hm1 h1 h2
      have hc0 : 0 < c := zero_lt_one.trans_le hc
      have hS0 : 0 < S := by linarith
      have hlen : ss.length ≤ T := hT ▸ k1.length_le
      have hf1 : f ^ T ≤ 1 := pow_le_one₀ f0.le f1
      have hmG' : m ≤ 1 / (4 * Fintype.card (Idx gs)) := hmG.trans (mul_le_of_le_one_right (by positivity) hf1)
      have htG : tiny64 K ≤ 1 / (2 * Fintype.card (Idx gs)) := by
        have e1 : (1 : K) / (2 * Fintype.card (Idx gs)) = 2 * (1 / (4 * Fintype.card (Idx gs))) := by field_simp; ring
        have e2 : m ^ 2 * f ≤ m * 1 := by
          have : m ^ 2 ≤ m := by nlinarith
          exact mul_le_mul this f1 f0.le hm.le
        have : 0 < low := tiny64_pos.trans_le hlow
        rw [e1]
        linarith
      refine ⟨β, (bwd_run H hl hc False (fun k β => Low (1 / (4 * Fintype.card (Idx gs)) * f ^ k) β) T (mα := m / (16 * c * S)) (by positivity) hm
        (fun k β hk hI => hI.mono (hmG.trans (mul_le_mul_of_nonneg_left (pow_le_pow_of_le_one f0.le f1 hk.le) (by positivity)))) c4 c1 c5 c6 htG (fun β hβ x => Or.inr (by rw [pow_zero, mul_one]; exact hβ x))
        (fun k β β' t hk hI h0 hb _ _ => ?_) k3 hlen l2 fun h => h.elim).1⟩
      have := hb _ (hmG.trans (mul_le_mul_of_nonneg_left (pow_le_pow_of_le_one f0.le f1 hk.le) (by positivity))) hI
      refine this.mono ?_
      rw [pow_succ, ← mul_assoc, mul_div_assoc]
      exact mul_le_mul_of_nonneg_left f3 (by positivity)


mutual
theorem weights_prior {pr : PriorSpec K gs} : ∀ (tm : TM K), WeightsAtLeast E κ tm → WeightsAtLeast { E with prior := pr } κ tm
  | .leaf .static _ _ _, h => by simp [WeightsAtLeast]
  | .leaf (.grw target) _ vs _, h => by rw [WeightsAtLeast] at *; exact h
  | .leaf .changePoint _ vs _, h => by simp [WeightsAtLeast]
  | .leaf .independent _ _ _, h => by simp [WeightsAtLeast]
  | .leaf (.alphaStable _) _ _ _, h => by simp [WeightsAtLeast]
  | .leaf .regimeSwitch _ _ _, h => by simp [WeightsAtLeast]
  | .leaf .notEqual _ _ _, h => by simp [WeightsAtLeast]
  | .leaf (.deterministic _ _) _ _ _, h => by simp [WeightsAtLeast]
  | .leaf .bivariate _ _ _, h => by simp [WeightsAtLeast]
  | .leaf .breakPoint _ _ _, h => by simp [WeightsAtLeast]
  | .combined ms, h => by rw [WeightsAtLeast] at *; exact weightsAll_prior ms h
  | .serial _ vs _ mask ms, h => by rw [WeightsAtLeast] at *; exact weightsAll_prior ms h
theorem weightsAll_prior {pr : PriorSpec K gs} : ∀ (ms : List (TM K)), WeightsAtLeastAll E κ ms → WeightsAtLeastAll { E with prior := pr } κ ms
  | [], _ => by rw [WeightsAtLeastAll]; trivial
  | m :: ms, h => by rw [WeightsAtLeastAll] at *; exact ⟨weights_prior m h.1, weightsAll_prior ms h.2⟩
end

open Classical in
mutual
/-- neighbouring points are reached with a probability of at least `κ` per elementary model, see `kernel_reach` -/
theorem kernel_reach_pow (hG : GaussOK E.ext) (hW : GaussPos E.ext) (hκ : 0 < κ) (hκ1 : κ ≤ 1) {ρ : Idx gs → K} : ∀ (tm : TM K), Linear E tm → ResetFree tm → WeightsAtLeast E κ tm →
    ∀ t x y, Near (fun a => Wanders E a tm) x y → κ ^ elements tm ≤ kernel E ρ tm t x y
  | .leaf .static _ _ _, _, _, _ => fun t x y h => by
      have : x = y := funext fun b => (h b).resolve_left fun h => by simpa [Wanders] using h.1
      rw [kernel, stay, if_pos this]
      exact pow_le_one₀ hκ.le hκ1
  | .leaf (.grw target) _ vs _, hL, _, hA => by
      rw [Linear] at hL
      rw [WeightsAtLeast] at hA
      obtain ⟨⟨a, ha⟩, -⟩ := hL
      intro t x y h
      rw [elements, pow_one]
      by_cases hs : 0 < val0 vs / E.lattice a
      · have h2 := (hA a ha hs 0 (by simp)).resolve_left (hW _ hs 0 (by simp)).ne'
        have h3 : 1 ≤ E.ext.gaussR (val0 vs / E.lattice a) → κ ≤ E.ext.gaussW (val0 vs / E.lattice a) 1 := fun h1 =>
          (hA a ha hs 1 (by simpa using h1)).resolve_left (hW _ hs 1 (by simpa using h1)).ne'
        rw [kernel]
        simp only [ha, if_pos hs]
        have hb : ∀ b, b ≠ a → x b = y b := fun b hb => (h b).resolve_left fun h => by
          have := h.1
          simp only [Wanders, ha, Except.ok.injEq] at this
          exact hb this.1.symm
        rw [walkAxis, if_pos hb]
        rcases h a with ⟨hw, h4, h5⟩ | h4
        · simp only [Wanders] at hw
          have hR : |((y a : ℕ) : ℤ) - (x a : ℕ)| ≤ E.ext.gaussR (val0 vs / E.lattice a) := by
            rw [abs_le]
            have := hw.2.2
            omega
          refine le_trans ?_ (walk_single (hG.nonneg _) (x a) (y a) hR)
          have : ((y a : ℕ) : ℤ) - (x a : ℕ) = 0 ∨ ((y a : ℕ) : ℤ) - (x a : ℕ) = 1 ∨ ((y a : ℕ) : ℤ) - (x a : ℕ) = -1 := by omega
          rcases this with h6 | h6 | h6
          · rw [h6]; exact h2
          · rw [h6]; exact h3 hw.2.2
          · rw [h6, hG.even]; exact h3 hw.2.2
        · have e : ((y a : ℕ) : ℤ) - (x a : ℕ) = 0 := by rw [h4]; ring
          refine le_trans ?_ (walk_single (hG.nonneg _) (x a) (y a) (by rw [e]; simp))
          rw [e]
          exact h2
      · have : x = y := funext fun b => (h b).resolve_left fun h => by
          have h1 := h.1
          simp only [Wanders, ha, Except.ok.injEq] at h1
          rw [← h1.1] at h1
          exact hs h1.2.1
        rw [kernel]
        simp only [ha, if_neg hs]
        rw [stay, if_pos this]
        exact hκ1
  | .leaf .changePoint _ vs _, _, hR, _ => by simp [ResetFree] at hR
  | .leaf .independent _ _ _, _, hR, _ => by simp [ResetFree] at hR
  | .leaf (.alphaStable _) _ _ _, hL, _, _ => by simp [Linear] at hL
  | .leaf .regimeSwitch _ _ _, hL, _, _ => by simp [Linear] at hL
  | .leaf .notEqual _ _ _, hL, _, _ => by simp [Linear] at hL
  | .leaf (.deterministic _ _) _ _ _, hL, _, _ => by simp [Linear] at hL
  | .leaf .bivariate _ _ _, hL, _, _ => by simp [Linear] at hL
  | .leaf .breakPoint _ _ _, hL, _, _ => by simp [Linear] at hL
  | .combined ms, hL, hR, hA => by
      intro t x y h
      rw [kernel, elements]
      exact kernelAll_reach_pow hG hW hκ hκ1 ms (by simpa only [Linear] using hL) (by simpa only [ResetFree] using hR) (by simpa only [WeightsAtLeast] using hA) t x y
        (near_mono (fun b hb => by simpa only [Wanders] using hb) h)
  | .serial _ vs _ mask ms, hL, hR, hA => by
      rw [Linear] at hL
      rw [ResetFree] at hR
      intro t x y h
      have hc : ¬ IsChange (vals vs) mask t := fun hc => hR.1 (List.of_mem_zip hc).2
      rw [kernel, if_neg hc, elements]
      have e : comp (kernelNth E ρ ms (breaksUpTo (vals vs) t) t) stay x y = kernelNth E ρ ms (breaksUpTo (vals vs) t) t x y := by
        simp [comp, stay]
      rw [e]
      refine (pow_le_pow_of_le_one hκ.le hκ1 (Nat.le_succ _)).trans
        (kernelNth_reach_pow hG hW hκ hκ1 ms hL.2.2 hR.2 (by simpa only [WeightsAtLeast] using hA) _ ?_ t x y (near_mono (fun b hb => by simpa only [Wanders] using hb) h))
      have := breaksUpTo_le (vals vs) t
      rw [vals_length] at this
      have := hL.2.1
      omega
theorem kernelAll_reach_pow (hG : GaussOK E.ext) (hW : GaussPos E.ext) (hκ : 0 < κ) (hκ1 : κ ≤ 1) {ρ : Idx gs → K} : ∀ (ms : List (TM K)), LinearAll E ms → ResetFreeAll ms → WeightsAtLeastAll E κ ms →
    ∀ t x y, Near (fun a => WandersAny E a ms) x y → κ ^ elementsAll ms ≤ kernelAll E ρ ms t x y
  | [], _, _, _ => fun t x y h => by
      have : x = y := funext fun b => (h b).resolve_left fun h => by simpa [WandersAny] using h.1
      rw [kernelAll, stay, if_pos this, elementsAll, pow_zero]
  | m :: ms, hL, hR, hA => by
      rw [LinearAll] at hL
      rw [ResetFreeAll] at hR
      rw [WeightsAtLeastAll] at hA
      have h2 := kernel_reach_pow hG hW hκ hκ1 (ρ := ρ) m hL.1 hR.1 hA.1
      have h4 := kernelAll_reach_pow hG hW hκ hκ1 (ρ := ρ) ms hL.2 hR.2 hA.2
      intro t x y h
      rw [kernelAll, elementsAll, pow_add]
      obtain ⟨z, hz⟩ : ∃ z : Idx gs, ∀ b, z b = if Wanders E b m then y b else x b := ⟨fun b => if Wanders E b m then y b else x b, fun b => rfl⟩
      have n1 : Near (fun a => Wanders E a m) x z := fun b => by
        rw [hz b]
        by_cases hb : Wanders E b m
        · rw [if_pos hb]
          exact (h b).imp (fun h => ⟨hb, h.2⟩) id
        · exact Or.inr (by rw [if_neg hb])
      have n2 : Near (fun a => WandersAny E a ms) z y := fun b => by
        rw [hz b]
        by_cases hb : Wanders E b m
        · exact Or.inr (by rw [if_pos hb])
        · rw [if_neg hb]
          refine (h b).imp (fun h => ⟨?_, h.2⟩) id
          have := h.1
          simp only [WandersAny] at this
          exact this.resolve_left hb
      have hn1 : ∀ x y, 0 ≤ kernel E ρ m t x y := kernel_nonneg hG m (Or.inl hR.1) t
      have hn2 : ∀ x y, 0 ≤ kernelAll E ρ ms t x y := kernelAll_nonneg hG ms (Or.inl hR.2) t
      calc κ ^ elements m * κ ^ elementsAll ms ≤ kernel E ρ m t x z * kernelAll E ρ ms t z y := mul_le_mul (h2 t x z n1) (h4 t z y n2) (pow_nonneg hκ.le _) (hn1 x z)
        _ ≤ comp (kernel E ρ m t) (kernelAll E ρ ms t) x y := Finset.single_le_sum (f := fun z => kernel E ρ m t x z * kernelAll E ρ ms t z y) (fun z _ => mul_nonneg (hn1 x z) (hn2 z y)) (Finset.mem_univ z)
theorem kernelNth_reach_pow (hG : GaussOK E.ext) (hW : GaussPos E.ext) (hκ : 0 < κ) (hκ1 : κ ≤ 1) {ρ : Idx gs → K} : ∀ (ms : List (TM K)), LinearAll E ms → ResetFreeAll ms → WeightsAtLeastAll E κ ms →
    ∀ i < ms.length, ∀ t x y, Near (fun a => WandersEvery E a ms) x y → κ ^ elementsAll ms ≤ kernelNth E ρ ms i t x y
  | [], _, _, _ => fun i hi => absurd hi (by simp)
  | m :: ms, hL, hR, hA => by
      rw [LinearAll] at hL
      rw [ResetFreeAll] at hR
      rw [WeightsAtLeastAll] at hA
      have h2 := kernel_reach_pow hG hW hκ hκ1 (ρ := ρ) m hL.1 hR.1 hA.1
      have h4 := kernelNth_reach_pow hG hW hκ hκ1 (ρ := ρ) ms hL.2 hR.2 hA.2
      intro i hi t x y h
      rw [elementsAll]
      match i, hi with
      | 0, _ =>
          rw [kernelNth]
          exact (pow_le_pow_of_le_one hκ.le hκ1 (Nat.le_add_right _ _)).trans (h2 t x y (near_mono (fun b hb => by rw [WandersEvery] at hb; exact hb.1) h))
      | i + 1, hi =>
          rw [kernelNth]
          exact (pow_le_pow_of_le_one hκ.le hκ1 (Nat.le_add_left _ _)).trans (h4 i (by simpa using hi) t x y (near_mono (fun b hb => by rw [WandersEvery] at hb; exact hb.2) h))
end

/-- all values within `j` grid steps of some point are at least `m` -/
def Spread (j : ℕ) (m : K) (a : Idx gs → K) : Prop := ∃ y : Idx gs, ∀ x, (∀ b, (x b).val ≤ (y b).val + j ∧ (y b).val ≤ (x b).val + j) → m ≤ a x

theorem spread_zero [Nonempty (Idx gs)] {a : Idx gs → K} (h : 1 / 8 ≤ ∑ x, a x) : Spread 0 (1 / (8 * Fintype.card (Idx gs)) : K) a := by
  have hG0 : (0 : K) < Fintype.card (Idx gs) := by exact_mod_cast Fintype.card_pos
  obtain ⟨y, -, hy⟩ := Finset.exists_le_of_sum_le (s := (Finset.univ : Finset (Idx gs))) (f := fun _ => 1 / (8 * Fintype.card (Idx gs) : K)) (g := a) Finset.univ_nonempty (by
    rw [Finset.sum_const, Finset.card_univ, nsmul_eq_mul]
    refine le_trans (le_of_eq ?_) h
    field_simp)
  refine ⟨y, fun x hx => ?_⟩
  rw [show x = y from funext fun b => Fin.ext (by have := hx b; omega)]
  exact hy

theorem spread_succ {j : ℕ} {m g : K} (hg : 0 ≤ g) {a b : Idx gs → K} (h : Spread j m a) (hk : ∀ x y, Near (fun _ => True) x y → a x * g ≤ b y) : Spread (j + 1) (m * g) b := by
  obtain ⟨y, hy⟩ := h
  refine ⟨y, fun x hd => ?_⟩
  obtain ⟨z, hz⟩ : ∃ z : Idx gs, ∀ b, ((z b).val ≤ (x b).val + 1 ∧ (x b).val ≤ (z b).val + 1) ∧ (z b).val ≤ (y b).val + j ∧ (y b).val ≤ (z b).val + j := by
    refine ⟨fun b => if (y b).val < (x b).val then ⟨(x b).val - 1, by have := (x b).isLt; omega⟩ else if h : (x b).val < (y b).val then ⟨(x b).val + 1, by have := (y b).isLt; omega⟩ else x b, fun b => ?_⟩
    have := hd b
    dsimp only
    split
    · dsimp only; omega
    · split
      · dsimp only; omega
      · omega
  exact (mul_le_mul_of_nonneg_right (hy z fun b => (hz b).2) hg).trans (hk z x fun b => Or.inl ⟨trivial, (hz b).1⟩)

/-- what is known of the values of the arrays of a random walk after `k` steps: at the beginning, they decrease by a factor at most; later on they are bounded from below because of the walk -/
def WalkInv (w : ℕ) (p0 f q g : K) (k : ℕ) (a : Idx gs → K) : Prop := (k ≤ w → Low (p0 * f ^ k) a) ∧ ∀ j < k, j ≤ w → Spread j (q * g ^ j) a

theorem WalkInv.lower {w : ℕ} (hw : ∀ b, gs b ≤ w + 1) {p0 f q g m : K} (hp0 : 0 ≤ p0) (f0 : 0 ≤ f) (f1 : f ≤ 1) (h1 : m ≤ p0 * f ^ w) (h2 : m ≤ q * g ^ w) {k : ℕ} {a : Idx gs → K} (h : WalkInv w p0 f q g k a) : Low m a := by
  by_cases hk : k ≤ w
  · exact (h.1 hk).mono (h1.trans (mul_le_mul_of_nonneg_left (pow_le_pow_of_le_one f0 f1 hk) hp0))
  · obtain ⟨y, hy⟩ := h.2 w (by omega) le_rfl
    refine fun x => Or.inr (h2.trans (hy x fun b => ?_))
    have := hw b
    have := (x b).isLt
    have := (y b).isLt
    omega

theorem WalkInv.step [Nonempty (Idx gs)] {w : ℕ} {p0 f g m : K} (hp0 : 0 ≤ p0) (f0 : 0 ≤ f) (f1 : f ≤ 1) (hg : 0 ≤ g) (h1 : m ≤ p0 * f ^ w) {k : ℕ} {a b : Idx gs → K} (h : WalkInv w p0 f (1 / (8 * Fintype.card (Idx gs))) g k a)
    (hl : ∀ m', m ≤ m' → Low m' a → Low (m' * f) b) (hs : 1 / 8 ≤ ∑ x, b x) (hk : ∀ x y, Near (fun _ => True) x y → a x * g ≤ b y) : WalkInv w p0 f (1 / (8 * Fintype.card (Idx gs))) g (k + 1) b := by
  refine ⟨fun hkw => ?_, fun j hj hjw => ?_⟩
  · have := hl _ (h1.trans (mul_le_mul_of_nonneg_left (pow_le_pow_of_le_one f0 f1 (by omega : k ≤ w)) hp0)) (h.1 (by omega))
    rwa [mul_assoc, ← pow_succ] at this
  · cases j with
    | zero => rw [pow_zero, mul_one]; exact spread_zero hs
    | succ j =>
        rw [pow_succ, ← mul_assoc]
        exact spread_succ hg (h.2 j (by omega) (by omega)) hk

/-- forward loop, random walks, any number of time steps -/
theorem ffwd_walk (H : RunOK E E' tm κ low M e) (hW : GaussPos E.ext) (hκE : WeightsAtLeast E κ tm) (hA : ∀ a, Wanders E a tm) {l c S : K} (hl : 0 < l) (hc : 1 ≤ c) (hS : 8 ≤ S)
    {f g : K} (hf : f = (κ / 2) ^ elements tm / (16 * c * S)) (hg : g = κ ^ elements tm / (32 * c * S)) (hlow : tiny64 K ≤ low) {p0 : K} (hp0 : 0 < p0) {w : ℕ} (hw : ∀ b, gs b ≤ w + 1) {m : K}
    (hm : 0 < m) (hm1 : m ≤ 1) (hmT : m ≤ p0 * f ^ w) (hmg : m ≤ 1 / (8 * Fintype.card (Idx gs)) * g ^ w) (h1 : 128 * low ≤ m ^ 2 * f) (h2 : 128 * low ≤ m ^ 2 * f * l)
    {a : Idx gs → K} {Ls : List (Idx gs → K)} {ts : List K} {ss : List (Step K gs)} {st : Bool}
    (h : FFwd E' tm e low a Ls ts ss st) (ha : FArr a) (hal : Low p0 a) (hs : ∑ x, a x ≤ S) (hLs : ∀ L ∈ Ls, LikOK l c L) (hpos : ∀ L ∈ Ls, ∀ x, L x ≠ 0) :
    RFwd E' tm (u64 K) e a Ls ts ss st ∧ ∀ s ∈ ss, FStep (m / (16 * c * S)) l c s := by
  have := H.regular.nonempty
  obtain ⟨f0, f1, -, -⟩ := factor_le H.pos H.le_one hc hS hf
  obtain ⟨c1, c2, c3, -⟩ := range_conditions H.pos H.le_one hl hc hS hf hlow hm hm1 h1 h2
  have hc0 : 0 < c := zero_lt_one.trans_le hc
  have hS0 : 0 < S := by linarith
  have hκ := H.pos
  have hg0 : 0 ≤ g := by rw [hg]; positivity
  refine fwd_run H hl hc hS True (WalkInv w p0 f (1 / (8 * Fintype.card (Idx gs))) g) Ls.length hm (fun k a _ hI => hI.lower hw hp0.le f0.le f1 hmT hmg) c1 c2 c3 (fun k a b t _ hI h0 hb hsb hk => ?_) h 0
    (by omega) ⟨fun _ => by rw [pow_zero, mul_one]; exact hal, fun j hj => absurd hj (by omega)⟩ ha hs hLs fun _ => hpos
  refine hI.step hp0.le f0.le f1 hg0 hmT (fun m' h3 h4 => ?_) hsb fun x y hn => ?_
  · rw [show m' * f = m' / (16 * c * S) * (κ / 2) ^ elements tm by rw [hf]; ring]
    exact hb m' h3 h4
  · refine le_trans ?_ (hk trivial x y)
    rw [hg, ← mul_div_assoc]
    exact div_le_div_of_nonneg_right (mul_le_mul_of_nonneg_left (kernel_reach_pow H.regular.gauss hW H.pos H.le_one tm H.linear H.free hκE t x y (near_mono (fun b _ => hA b) hn)) (h0 x)) (by positivity)

/-- complete run, random walks, any number of time steps -/
theorem ffit_walk (H : RunOK E E' tm κ low M e) (hW : GaussPos E.ext) (hκE : WeightsAtLeast E κ tm) (hA : ∀ a, Wanders E a tm) {l c S : K} (hl : 0 < l) (hc : 1 ≤ c) (hS : 8 ≤ S)
    {f g : K} (hf : f = (κ / 2) ^ elements tm / (16 * c * S)) (hg : g = κ ^ elements tm / (32 * c * S)) (hlow : tiny64 K ≤ low) {p0 : K} (hp0 : 0 < p0) {w : ℕ} (hw : ∀ b, gs b ≤ w + 1) {m : K}
    (hm : 0 < m) (hm1 : m ≤ 1) (hmT : m ≤ p0 * f ^ w) (hmG : m ≤ 1 / (4 * Fintype.card (Idx gs)) * f ^ w) (hmg : m ≤ 1 / (8 * Fintype.card (Idx gs)) * g ^ w) (h1 : 128 * low ≤ m ^ 2 * f) (h2 : 128 * low ≤ m ^ 2 * f * l)
    {a : Idx gs → K} {Ls : List (Idx gs → K)} {ts : List K} {fo : Bool} {posts : List (Idx gs → K)} {norms : List K}
    (h : FFit E' tm e low a Ls ts fo posts norms) (ha : FArr a) (hal : Low p0 a) (hs : ∑ x, a x ≤ S) (hLs : ∀ L ∈ Ls, LikOK l c L) (hpos : ∀ L ∈ Ls, ∀ x, L x ≠ 0) :
    RFit E' tm (u64 K) e a Ls ts fo posts norms := by
  obtain ⟨ss, k1, k2, k3⟩ := h
  obtain ⟨l1, l2⟩ := ffwd_walk H hW hκE hA hl hc hS hf hg hlow hp0 hw hm hm1 hmT hmg h1 h2 k1 ha hal hs hLs hpos
  refine ⟨ss, l1, k2, ?_⟩
  cases fo with
  | true => simpa using k3
  | false =>
      simp only [Bool.false_eq_true, if_false] at k3 ⊢
      obtain ⟨β, k3⟩ := k3
      have := H.regular.nonempty
      have hG0 : (0 : K) < Fintype.card (Idx gs) := by exact_mod_cast Fintype.card_pos
      obtain ⟨f0, f1, -, f3⟩ := factor_le H.pos H.le_one hc hS hf
      obtain ⟨c1, -, -, c4, c5, c6⟩ := range_conditions H.pos H.le_one hl hc hS hf hlow hm hm1 h1 h2
      have hc0 : 0 < c := zero_lt_one.trans_le hc
      have hS0 : 0 < S := by linarith
      have hκ := H.pos
      have hg0 : 0 ≤ g := by rw [hg]; positivity
      have hf1 : f ^ w ≤ 1 := pow_le_one₀ f0.le f1
      have hmG' : m ≤ 1 / (4 * Fintype.card (Idx gs)) := hmG.trans (mul_le_of_le_one_right (by positivity) hf1)
      have htG : tiny64 K ≤ 1 / (2 * Fintype.card (Idx gs)) := by
        have e1 : (1 : K) / (2 * Fintype.card (Idx gs)) = 2 * (1 / (4 * Fintype.card (Idx gs))) := by field_simp; ring
        have e2 : m ^ 2 * f ≤ m * 1 := by
          have : m ^ 2 ≤ m := by nlinarith
          exact mul_le_mul this f1 f0.le hm.le
        have : 0 < low := tiny64_pos.trans_le hlow
        rw [e1]
        linarith
      have hmem : ∀ s ∈ ss, ∀ x, s.lik x ≠ 0 := k1.lik hpos
      refine ⟨β, (bwd_run H hl hc True (WalkInv w (1 / (4 * Fintype.card (Idx gs))) f (1 / (8 * Fintype.card (Idx gs))) g) ss.length (mα := m / (16 * c * S)) (by positivity) hm
        (fun k β hk hI => hI.lower hw (by positivity) f0.le f1 hmG hmg) c4 c1 c5 c6 htG (fun β hβ => ⟨fun _ x => Or.inr (by rw [pow_zero, mul_one]; exact hβ x), fun j hj => absurd hj (by omega)⟩)
        (fun k β β' t hk hI h0 hb hsb hk' => ?_) k3 le_rfl l2 fun _ => hmem).1⟩
      refine hI.step (by positivity) f0.le f1 hg0 hmG (fun m' h3 h4 => ?_) (le_trans (by norm_num) hsb) fun x y hn => ?_
      · refine (hb m' h3 h4).mono ?_
        rw [mul_div_assoc]
        exact mul_le_mul_of_nonneg_left f3 (hm.le.trans h3)
      · refine le_trans ?_ (hk' trivial x y)
        rw [hg, ← mul_div_assoc]
        refine div_le_div₀ (mul_nonneg (h0 x) (kernel_nonneg H.regular.gauss tm (Or.inl H.free) t x y))
          (mul_le_mul_of_nonneg_left (kernel_reach_pow H.regular.gauss hW H.pos H.le_one tm H.linear H.free hκE t x y (near_mono (fun b _ => hA b) hn)) (h0 x)) (by positivity) ?_
        nlinarith

end BL
