import Verif.Lemmas.Float64
import Verif.Lemmas.RoundingForget

/-! # Runs with numbers of type `float64` that do not leave the range of full precision -/

set_option linter.unusedSectionVars false

namespace Spec
open BL
variable {K : Type} [Field K] [LinearOrder K] {d : ℕ} {gs : Fin d → ℕ}

/-- all values are zero or at least `m` -/
def Low (m : K) (p : Idx gs → K) : Prop := ∀ x, p x = 0 ∨ m ≤ p x

mutual
/-- all weights of the filters of Gaussian random walks are zero or at least `κ` -/
def WeightsAtLeast (E : Env K gs) (κ : K) : TM K → Prop
  | .leaf (.grw target) _ vs _ => ∀ a, E.axis target = .ok a → 0 < val0 vs / E.lattice a → ∀ k : ℤ, |k| ≤ E.ext.gaussR (val0 vs / E.lattice a) →
      E.ext.gaussW (val0 vs / E.lattice a) k = 0 ∨ κ ≤ E.ext.gaussW (val0 vs / E.lattice a) k
  | .leaf _ _ _ _ => True
  | .combined ms => WeightsAtLeastAll E κ ms
  | .serial _ _ _ _ ms => WeightsAtLeastAll E κ ms
/-- all sub-models -/
def WeightsAtLeastAll (E : Env K gs) (κ : K) : List (TM K) → Prop
  | [] => True
  | m :: ms => WeightsAtLeast E κ m ∧ WeightsAtLeastAll E κ ms
end

end Spec

namespace BL
open Spec
variable {K : Type} [Field K] [LinearOrder K] [IsStrictOrderedRing K] {d : ℕ} {gs : Fin d → ℕ} {E : Env K gs}

theorem _root_.Spec.Low.mono {m m' : K} {p : Idx gs → K} (h : Low m p) (hm : m' ≤ m) : Low m' p := fun x => (h x).imp id hm.trans

/-- `N` roundings change a number by a factor of two at most -/
theorem Acc.half {u : K} (hu : 0 ≤ u) (hu1 : u < 1) {M N : ℕ} (hM : 1 / 2 ≤ (1 - u) ^ M) (hN : N ≤ M) {a b : K} (h : Acc u N a b) : a ≤ 2 * b ∧ b ≤ 2 * a := by
  have h1 : (1 - u) ^ M ≤ (1 - u) ^ N := pow_le_pow_of_le_one (by linarith) (by linarith) hN
  have h2 := h.lower
  have h3 := h.upper
  have h4 := mul_le_mul_of_nonneg_right (hM.trans h1) h.left
  have h5 := mul_le_mul_of_nonneg_right (hM.trans h1) h.right
  constructor <;> linarith

theorem filter_low {r : ℕ} {w : ℤ → K} (hw : ∀ k, 0 ≤ w k) {κ m : K} (hκ : 0 ≤ κ) (hm : 0 ≤ m) (hk : ∀ k : ℤ, |k| ≤ r → w k = 0 ∨ κ ≤ w k) {a : Fin d} {p : Idx gs → K} (hp : ∀ x, 0 ≤ p x) (h : Low m p) :
    (∀ x, 0 ≤ filterAxis r w a p x) ∧ Low (κ * m) (filterAxis r w a p) := by
  have h0 : ∀ x, ∀ k ∈ Finset.Icc (-(r : ℤ)) r, 0 ≤ w (-k) * p (Function.update x a (reflIdx (gs a) (x a) k)) := fun x k _ => mul_nonneg (hw _) (hp _)
  refine ⟨fun x => Finset.sum_nonneg (h0 x), fun x => ?_⟩
  by_cases hz : ∀ k ∈ Finset.Icc (-(r : ℤ)) r, w (-k) * p (Function.update x a (reflIdx (gs a) (x a) k)) = 0
  · exact Or.inl (Finset.sum_eq_zero hz)
  · push Not at hz
    obtain ⟨k, hk1, hk2⟩ := hz
    refine Or.inr (le_trans ?_ (Finset.single_le_sum (h0 x) hk1))
    rw [Finset.mem_Icc] at hk1
    refine mul_le_mul ((hk (-k) ?_).resolve_left (left_ne_zero_of_mul hk2)) ((h _).resolve_left (right_ne_zero_of_mul hk2)) hm (hw _)
    rw [abs_neg, abs_le]
    exact hk1

theorem grw_low (hG : GaussOK E.ext) {target : String} {ns : List String} {vs : List (HVal K)} {pr : Option (Nest (HPrior K))} (hL : Linear E (.leaf (.grw target) ns vs pr)) {κ m : K} (hκ : 0 ≤ κ) (hκ1 : κ ≤ 1) (hm : 0 ≤ m)
    (hW : WeightsAtLeast E κ (.leaf (.grw target) ns vs pr)) {o t : K} {p r : Idx gs → K} (hp : ∀ x, 0 ≤ p x) (h : Low m p) (hr : leafFwd E o (.grw target) vs (some p) t = .ok (some r)) :
    (∀ x, 0 ≤ r x) ∧ Low (κ * m) r := by
  have hκm : κ * m ≤ m := by nlinarith
  rw [Linear] at hL
  obtain ⟨⟨a, hta⟩, σ, rfl⟩ := hL
  rw [WeightsAtLeast] at hW
  simp only [leafFwd, grwFwd, hta, scalarAt, bind, Except.bind, List.getElem?_cons_zero] at hr
  by_cases h0 : E.lattice a = 0
  · rw [if_pos h0] at hr
    by_cases hs : 0 < σ
    · rw [if_pos hs] at hr; exact absurd hr (by simp)
    · rw [if_neg hs] at hr
      simp only [Except.ok.injEq, Option.some.injEq] at hr
      subst hr
      exact ⟨hp, h.mono hκm⟩
  · rw [if_neg h0] at hr
    by_cases hs : 0 < σ / E.lattice a
    · rw [if_pos hs] at hr
      simp only [Option.map_some, Except.ok.injEq, Option.some.injEq] at hr
      subst hr
      exact filter_low (hG.nonneg _) hκ hm (hW a hta hs) hp h
    · rw [if_neg hs] at hr
      simp only [Except.ok.injEq, Option.some.injEq] at hr
      subst hr
      exact ⟨hp, h.mono hκm⟩

variable [FloorRing K]

/-- array of non-negative numbers of type `float64` -/
def FArr (p : Idx gs → K) : Prop := ∀ x, p x ∈ float64 K ∧ 0 ≤ p x

mutual
/-- transitions of arrays without very small values -/
theorem floated_rounded (hG : GaussOK E.ext) {κ low : K} {e : ℕ} (hκ : 0 < κ) (hκ1 : κ ≤ 1) (he : 1 / 2 ≤ (1 - u64 K) ^ e) : ∀ (tm : TM K), Linear E tm → ResetFree tm → WeightsAtLeast E κ tm →
    ∀ (t : K) (p q : Idx gs → K) (m : K), 0 < m → FArr p → Low m p → low ≤ m * (κ / 2) ^ elements tm → tm.floated E e low p t q →
      tm.rounded E (u64 K) e p t q ∧ FArr q ∧ Low (m * (κ / 2) ^ elements tm) q
  | .leaf .static ns vs pr, _, _, _, t, p, q, m, hm, hp, h, hlow, hf => by
      rw [TM.floated] at hf
      subst hf
      refine ⟨by rw [TM.rounded]; exact ⟨q, rfl, fun x => Acc.refl u64_pos.le u64_lt (hp x).2 e⟩, hp, h.mono ?_⟩
      have : (κ / 2) ^ elements (.leaf .static ns vs pr : TM K) ≤ 1 := pow_le_one₀ (by positivity) (by linarith)
      nlinarith
  | .leaf (.grw target) ns vs pr, hL, _, hW, t, p, q, m, hm, hp, h, hlow, hf => by
      rw [TM.floated] at hf
      · obtain ⟨r, h1, h2⟩ := hf
        obtain ⟨h3, h4⟩ := grw_low hG hL hκ.le hκ1 hm.le hW (fun x => (hp x).2) h h1
        rw [elements, pow_one] at hlow ⊢
        have h5 : ∀ x, Acc (u64 K) e (r x) (q x) := fun x => by
          rcases h4 x with h6 | h6
          · rw [h6, (h2 x).zero h6]; exact Acc.refl u64_pos.le u64_lt le_rfl e
          · refine (h2 x).acc ?_
            nlinarith
        refine ⟨by rw [TM.rounded]; exact ⟨r, h1, h5⟩, fun x => ⟨(h2 x).mem, (h2 x).nonneg⟩, fun x => ?_⟩
        rcases h4 x with h6 | h6
        · exact Or.inl ((h2 x).zero h6)
        · right
          have := ((h5 x).half u64_pos.le u64_lt he le_rfl).1
          nlinarith
      · simp
  | .leaf .changePoint _ _ _, _, hR, _, _, _, _, _, _, _, _, _, _ => by simp [ResetFree] at hR
  | .leaf .independent _ _ _, _, hR, _, _, _, _, _, _, _, _, _, _ => by simp [ResetFree] at hR
  | .leaf (.alphaStable _) _ _ _, hL, _, _, _, _, _, _, _, _, _, _, _ => by simp [Linear] at hL
  | .leaf .regimeSwitch _ _ _, hL, _, _, _, _, _, _, _, _, _, _, _ => by simp [Linear] at hL
  | .leaf .notEqual _ _ _, hL, _, _, _, _, _, _, _, _, _, _, _ => by simp [Linear] at hL
  | .leaf (.deterministic _ _) _ _ _, hL, _, _, _, _, _, _, _, _, _, _, _ => by simp [Linear] at hL
  | .leaf .bivariate _ _ _, hL, _, _, _, _, _, _, _, _, _, _, _ => by simp [Linear] at hL
  | .leaf .breakPoint _ _ _, hL, _, _, _, _, _, _, _, _, _, _, _ => by simp [Linear] at hL
  | .combined ms, hL, hR, hW, t, p, q, m, hm, hp, h, hlow, hf => by
      rw [Linear] at hL
      rw [ResetFree] at hR
      rw [WeightsAtLeast] at hW
      rw [TM.floated] at hf
      rw [TM.rounded]
      rw [elements] at hlow ⊢
      exact floatedAll_rounded hG hκ hκ1 he ms hL hR hW t p q m hm hp h hlow hf
  | .serial _ vs _ mask ms, hL, hR, hW, t, p, q, m, hm, hp, h, hlow, hf => by
      rw [Linear] at hL
      rw [ResetFree] at hR
      rw [WeightsAtLeast] at hW
      rw [TM.floated] at hf
      rw [TM.rounded]
      rw [elements] at hlow ⊢
      obtain ⟨cs, q', h1, h2, h3⟩ := hf
      have hc : cpIn cs mask t = false := by
        rw [cpIn, List.any_eq_false]
        intro vm hvm
        have : vm.2 ≠ true := fun h => hR.1 (by rw [← h]; exact (List.of_mem_zip (show (vm.1, vm.2) ∈ _ from hvm)).2)
        simp [this]
      rw [hc] at h3
      simp only [Bool.false_eq_true, if_false] at h3
      subst h3
      have hle : m * (κ / 2) ^ (elementsAll ms + 1) ≤ m * (κ / 2) ^ elementsAll ms :=
        mul_le_mul_of_nonneg_left (pow_le_pow_of_le_one (by positivity) (by linarith) (Nat.le_succ _)) hm.le
      obtain ⟨k1, k2, k3⟩ := floatedNth_rounded hG hκ hκ1 he ms hL.2.2 hR.2 hW _ t p q m hm hp h (hlow.trans hle) h2
      refine ⟨⟨cs, q, h1, k1, ?_⟩, k2, k3.mono hle⟩
      rw [hc]
      simp
theorem floatedAll_rounded (hG : GaussOK E.ext) {κ low : K} {e : ℕ} (hκ : 0 < κ) (hκ1 : κ ≤ 1) (he : 1 / 2 ≤ (1 - u64 K) ^ e) : ∀ (ms : List (TM K)), LinearAll E ms → ResetFreeAll ms → WeightsAtLeastAll E κ ms →
    ∀ (t : K) (p q : Idx gs → K) (m : K), 0 < m → FArr p → Low m p → low ≤ m * (κ / 2) ^ elementsAll ms → TM.floatedAll E e low ms p t q →
      TM.roundedAll E (u64 K) e ms p t q ∧ FArr q ∧ Low (m * (κ / 2) ^ elementsAll ms) q
  | [], _, _, _, t, p, q, m, hm, hp, h, hlow, hf => by
      rw [TM.floatedAll] at hf
      subst hf
      exact ⟨by rw [TM.roundedAll], hp, by rw [elementsAll, pow_zero, mul_one]; exact h⟩
  | m0 :: ms, hL, hR, hW, t, p, q, m, hm, hp, h, hlow, hf => by
      rw [LinearAll] at hL
      rw [ResetFreeAll] at hR
      rw [WeightsAtLeastAll] at hW
      rw [TM.floatedAll] at hf
      rw [TM.roundedAll]
      rw [elementsAll, pow_add, ← mul_assoc] at hlow ⊢
      obtain ⟨q', h1, h2⟩ := hf
      have hm' : 0 < m * (κ / 2) ^ elements m0 := by positivity
      obtain ⟨k1, k2, k3⟩ := floated_rounded hG hκ hκ1 he m0 hL.1 hR.1 hW.1 t p q' m hm hp h (hlow.trans (mul_le_of_le_one_right hm'.le (pow_le_one₀ (by positivity) (by linarith)))) h1
      obtain ⟨l1, l2, l3⟩ := floatedAll_rounded hG hκ hκ1 he ms hL.2 hR.2 hW.2 t q' q _ hm' k2 k3 hlow h2
      exact ⟨⟨q', k1, l1⟩, l2, l3⟩
theorem floatedNth_rounded (hG : GaussOK E.ext) {κ low : K} {e : ℕ} (hκ : 0 < κ) (hκ1 : κ ≤ 1) (he : 1 / 2 ≤ (1 - u64 K) ^ e) : ∀ (ms : List (TM K)), LinearAll E ms → ResetFreeAll ms → WeightsAtLeastAll E κ ms →
    ∀ (i : ℕ) (t : K) (p q : Idx gs → K) (m : K), 0 < m → FArr p → Low m p → low ≤ m * (κ / 2) ^ elementsAll ms → TM.floatedNth E e low ms i p t q →
      TM.roundedNth E (u64 K) e ms i p t q ∧ FArr q ∧ Low (m * (κ / 2) ^ elementsAll ms) q
  | [], _, _, _, i, t, p, q, m, hm, hp, h, hlow, hf => by rw [TM.floatedNth] at hf; exact hf.elim
  | m0 :: ms, hL, hR, hW, 0, t, p, q, m, hm, hp, h, hlow, hf => by
      rw [LinearAll] at hL
      rw [ResetFreeAll] at hR
      rw [WeightsAtLeastAll] at hW
      rw [TM.floatedNth] at hf
      rw [TM.roundedNth]
      rw [elementsAll, pow_add, ← mul_assoc] at hlow ⊢
      have hm' : 0 < m * (κ / 2) ^ elements m0 := by positivity
      have hle := mul_le_of_le_one_right hm'.le (pow_le_one₀ (n := elementsAll ms) (by positivity : 0 ≤ κ / 2) (by linarith))
      obtain ⟨k1, k2, k3⟩ := floated_rounded hG hκ hκ1 he m0 hL.1 hR.1 hW.1 t p q m hm hp h (hlow.trans hle) hf
      exact ⟨k1, k2, k3.mono hle⟩
  | m0 :: ms, hL, hR, hW, i + 1, t, p, q, m, hm, hp, h, hlow, hf => by
      rw [LinearAll] at hL
      rw [ResetFreeAll] at hR
      rw [WeightsAtLeastAll] at hW
      rw [TM.floatedNth] at hf
      rw [TM.roundedNth]
      rw [elementsAll, add_comm, pow_add, ← mul_assoc] at hlow ⊢
      have hm' : 0 < m * (κ / 2) ^ elementsAll ms := by positivity
      have hle := mul_le_of_le_one_right hm'.le (pow_le_one₀ (n := elements m0) (by positivity : 0 ≤ κ / 2) (by linarith))
      obtain ⟨k1, k2, k3⟩ := floatedNth_rounded hG hκ hκ1 he ms hL.2 hR.2 hW.2 i t p q m hm hp h (hlow.trans hle) hf
      exact ⟨k1, k2, k3.mono hle⟩
end

/-- a transition with rounding errors is close to the exact one -/
theorem rounded_kernel {E' : Env K gs} (hE : Regular E) (hE' : Twin E E') {tm : TM K} (hL : Linear E tm) (hR : ResetFree tm) {u : K} (hu : 0 ≤ u) (hu1 : u < 1) {e : ℕ} {t : K} {p q : Idx gs → K} (hp : ∀ x, 0 ≤ p x)
    (h0 : 0 < ∑ x, p x) (h : tm.rounded E' u e p t q) :
    (∀ y, Acc u (elements tm * e) (∑ x, p x * kernel E (fun _ => 0) tm t x y) (q y)) ∧ Acc u (elements tm * e) (∑ x, p x) (∑ x, q x) := by
  have h1 : ∀ y, Acc u (elements tm * e) (∑ x, p x * kernel E (fun _ => 0) tm t x y) (q y) := by
    obtain ⟨q0, h2, h3⟩ := fwd_passes hE' hu hu1 e tm hL (Or.inl hR) 0 t p p q _ (fwd_push hE hL hR (fun _ => 0) t h0) h
    rw [Option.some.injEq] at h2
    subst h2
    rcases h3 with h3 | h3
    · exact h3
    · intro y
      have := h3 1 0 zero_le_one (fun x => by rw [one_mul]; exact Acc.refl hu hu1 (hp x) 0) y
      rwa [one_mul, Nat.zero_add] at this
  refine ⟨h1, ?_⟩
  have := Acc.sum Finset.univ fun y _ => h1 y
  rw [Finset.sum_comm] at this
  simpa only [← Finset.mul_sum, kernel_sum hE.gauss tm hL (Or.inl hR), mul_one] using this

end BL
