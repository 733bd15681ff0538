import Verif.Props.C81
import Verif.Lemmas.Forget
import Verif.Lemmas.Static
import Verif.Lemmas.Study
import Verif.Lemmas.Geometry
import Verif.Model.RealExt
import Mathlib.Algebra.Order.Archimedean.Basic

/-! # C103: the influence of the prior fades -/

set_option linter.unusedSectionVars false

namespace Spec
open BL
variable {K : Type} [Field K] [LinearOrder K] {d : ℕ} {gs : Fin d → ℕ}

mutual
/-- The parameter of axis `a` performs a random walk at all times: a Gaussian random walk whose filter has a radius of at least one grid step, at least one such sub-model of a combination, or all
segments of a serial model. -/
def Wanders (E : Env K gs) (a : Fin d) : TM K → Prop
  | .leaf (.grw target) _ vs _ => E.axis target = .ok a ∧ 0 < val0 vs / E.lattice a ∧ 1 ≤ E.ext.gaussR (val0 vs / E.lattice a)
  | .leaf _ _ _ _ => False
  | .combined ms => WandersAny E a ms
  | .serial _ _ _ _ ms => WandersEvery E a ms
/-- one of the sub-models -/
def WandersAny (E : Env K gs) (a : Fin d) : List (TM K) → Prop
  | [] => False
  | m :: ms => Wanders E a m ∨ WandersAny E a ms
/-- all sub-models -/
def WandersEvery (E : Env K gs) (a : Fin d) : List (TM K) → Prop
  | [] => True
  | m :: ms => Wanders E a m ∧ WandersEvery E a ms
end

/-- at most one grid step apart along the axes in `P`, equal along all others -/
def Near (P : Fin d → Prop) (x y : Idx gs) : Prop := ∀ b, P b ∧ (x b).val ≤ (y b).val + 1 ∧ (y b).val ≤ (x b).val + 1 ∨ x b = y b

end Spec

namespace BL
open Spec
variable {K : Type} [Field K] [LinearOrder K] [IsStrictOrderedRing K] {d : ℕ} {gs : Fin d → ℕ} {E : Env K gs}

theorem near_mono {P Q : Fin d → Prop} {x y : Idx gs} (h : ∀ b, P b → Q b) (hn : Near P x y) : Near Q x y := fun b => (hn b).imp (fun ⟨h1, h2⟩ => ⟨h b h1, h2⟩) id

theorem walk_single {n r : ℕ} {w : ℤ → K} (hw : ∀ k, 0 ≤ w k) (i j : Fin n) (h : |(j : ℤ) - i| ≤ r) : w ((j : ℤ) - i) ≤ walk n r w i j := by
  rw [abs_le] at h
  refine le_trans (le_of_eq ?_) (Finset.single_le_sum (f := fun k : ℤ => w k * if ((2 * n : ℕ) : ℤ) ∣ (i : ℤ) + k - (j : ℤ) ∨ ((2 * n : ℕ) : ℤ) ∣ (i : ℤ) + k + 1 + (j : ℤ) then (1 : K) else 0)
    (fun k _ => mul_nonneg (hw k) (by split <;> simp)) (Finset.mem_Icc.2 h))
  beta_reduce
  rw [if_pos (Or.inl ⟨0, by ring⟩), mul_one]

mutual
/-- without resets the transition probabilities do not depend on the prior -/
theorem kernel_fresh {ρ ρ' : Idx gs → K} : ∀ (tm : TM K), ResetFree tm → ∀ t, kernel E ρ tm t = kernel E ρ' tm t
  | .leaf .static _ _ _, _, t => by rw [kernel, kernel]
  | .leaf (.grw target) _ vs _, _, t => by rw [kernel, kernel]
  | .leaf .changePoint _ vs _, h, t => by simp [ResetFree] at h
  | .leaf .independent _ _ _, h, t => by simp [ResetFree] at h
  | .leaf (.alphaStable _) _ _ _, _, t => by simp [kernel]
  | .leaf .regimeSwitch _ _ _, _, t => by simp [kernel]
  | .leaf .notEqual _ _ _, _, t => by simp [kernel]
  | .leaf (.deterministic _ _) _ _ _, _, t => by simp [kernel]
  | .leaf .bivariate _ _ _, _, t => by simp [kernel]
  | .leaf .breakPoint _ _ _, _, t => by simp [kernel]
  | .combined ms, h, t => by rw [kernel, kernel, kernelAll_fresh ms (by simpa only [ResetFree] using h)]
  | .serial _ vs _ mask ms, h, t => by
      rw [ResetFree] at h
      have hc : ¬ IsChange (vals vs) mask t := fun hc => h.1 (List.of_mem_zip hc).2
      rw [kernel, kernel, if_neg hc, if_neg hc, kernelNth_fresh ms h.2]
theorem kernelAll_fresh {ρ ρ' : Idx gs → K} : ∀ (ms : List (TM K)), ResetFreeAll ms → ∀ t, kernelAll E ρ ms t = kernelAll E ρ' ms t
  | [], _, t => by rw [kernelAll, kernelAll]
  | m :: ms, h, t => by
      rw [ResetFreeAll] at h
      rw [kernelAll, kernelAll, kernel_fresh m h.1, kernelAll_fresh ms h.2]
theorem kernelNth_fresh {ρ ρ' : Idx gs → K} : ∀ (ms : List (TM K)), ResetFreeAll ms → ∀ i t, kernelNth E ρ ms i t = kernelNth E ρ' ms i t
  | [], _, i, t => by rw [kernelNth, kernelNth]
  | m :: ms, h, 0, t => by
      rw [ResetFreeAll] at h
      rw [kernelNth, kernelNth, kernel_fresh m h.1]
  | m :: ms, h, i + 1, t => by
      rw [ResetFreeAll] at h
      rw [kernelNth, kernelNth, kernelNth_fresh ms h.2]
end

/-- the filter gives a positive weight to all steps within its radius -/
def GaussPos (X : Ext K gs) : Prop := ∀ s, 0 < s → ∀ k : ℤ, |k| ≤ X.gaussR s → 0 < X.gaussW s k

open Classical in
mutual
/-- neighbouring points are reached with a probability bounded from below -/
theorem kernel_reach (hG : GaussOK E.ext) (hW : GaussPos E.ext) {ρ : Idx gs → K} : ∀ (tm : TM K), Linear E tm → ResetFree tm →
    ∃ κ, 0 < κ ∧ ∀ t x y, Near (fun a => Wanders E a tm) x y → κ ≤ kernel E ρ tm t x y
  | .leaf .static _ _ _, _, _ => ⟨1, one_pos, fun t x y h => by
      have : x = y := funext fun b => (h b).resolve_left fun h => by simpa [Wanders] using h.1
      rw [kernel, stay, if_pos this]⟩
  | .leaf (.grw target) _ vs _, hL, _ => by
      rw [Linear] at hL
      obtain ⟨⟨a, ha⟩, -⟩ := hL
      by_cases hs : 0 < val0 vs / E.lattice a
      · have key : ∃ κ, 0 < κ ∧ κ ≤ E.ext.gaussW (val0 vs / E.lattice a) 0 ∧ (1 ≤ E.ext.gaussR (val0 vs / E.lattice a) → κ ≤ E.ext.gaussW (val0 vs / E.lattice a) 1) := by
          have h0 := hW _ hs 0 (by simp)
          by_cases h1 : 1 ≤ E.ext.gaussR (val0 vs / E.lattice a)
          · exact ⟨min _ _, lt_min h0 (hW _ hs 1 (by simpa using h1)), min_le_left _ _, fun _ => min_le_right _ _⟩
          · exact ⟨_, h0, le_rfl, fun h => absurd h h1⟩
        obtain ⟨κ, h1, h2, h3⟩ := key
        refine ⟨κ, h1, fun t x y h => ?_⟩
        rw [kernel]
        simp only [ha, if_pos hs]
        have hb : ∀ b, b ≠ a → x b = y b := fun b hb => (h b).resolve_left fun h => by
          have := h.1
          simp only [Wanders, ha, Except.ok.injEq] at this
          exact hb this.1.symm
        rw [walkAxis, if_pos hb]
        rcases h a with ⟨hw, h4, h5⟩ | h4
        · simp only [Wanders] at hw
          have hR : |((y a : ℕ) : ℤ) - (x a : ℕ)| ≤ E.ext.gaussR (val0 vs / E.lattice a) := by
            rw [abs_le]
            have := hw.2.2
            omega
          refine le_trans ?_ (walk_single (hG.nonneg _) (x a) (y a) hR)
          have : ((y a : ℕ) : ℤ) - (x a : ℕ) = 0 ∨ ((y a : ℕ) : ℤ) - (x a : ℕ) = 1 ∨ ((y a : ℕ) : ℤ) - (x a : ℕ) = -1 := by omega
          rcases this with h6 | h6 | h6
          · rw [h6]; exact h2
          · rw [h6]; exact h3 hw.2.2
          · rw [h6, hG.even]; exact h3 hw.2.2
        · have e : ((y a : ℕ) : ℤ) - (x a : ℕ) = 0 := by rw [h4]; ring
          refine le_trans ?_ (walk_single (hG.nonneg _) (x a) (y a) (by rw [e]; simp))
          rw [e]
          exact h2
      · refine ⟨1, one_pos, fun t x y h => ?_⟩
        have : x = y := funext fun b => (h b).resolve_left fun h => by
          have h1 := h.1
          simp only [Wanders, ha, Except.ok.injEq] at h1
          rw [← h1.1] at h1
          exact hs h1.2.1
        rw [kernel]
        simp only [ha, if_neg hs]
        rw [stay, if_pos this]
  | .leaf .changePoint _ vs _, _, hR => by simp [ResetFree] at hR
  | .leaf .independent _ _ _, _, hR => by simp [ResetFree] at hR
  | .leaf (.alphaStable _) _ _ _, hL, _ => by simp [Linear] at hL
  | .leaf .regimeSwitch _ _ _, hL, _ => by simp [Linear] at hL
  | .leaf .notEqual _ _ _, hL, _ => by simp [Linear] at hL
  | .leaf (.deterministic _ _) _ _ _, hL, _ => by simp [Linear] at hL
  | .leaf .bivariate _ _ _, hL, _ => by simp [Linear] at hL
  | .leaf .breakPoint _ _ _, hL, _ => by simp [Linear] at hL
  | .combined ms, hL, hR => by
      obtain ⟨κ, h1, h2⟩ := kernelAll_reach hG hW (ρ := ρ) ms (by simpa only [Linear] using hL) (by simpa only [ResetFree] using hR)
      refine ⟨κ, h1, fun t x y h => ?_⟩
      rw [kernel]
      exact h2 t x y (near_mono (fun b hb => by simpa only [Wanders] using hb) h)
  | .serial _ vs _ mask ms, hL, hR => by
      rw [Linear] at hL
      rw [ResetFree] at hR
      obtain ⟨κ, h1, h2⟩ := kernelNth_reach hG hW (ρ := ρ) ms hL.2.2 hR.2
      refine ⟨κ, h1, fun t x y h => ?_⟩
      have hc : ¬ IsChange (vals vs) mask t := fun hc => hR.1 (List.of_mem_zip hc).2
      rw [kernel, if_neg hc]
      have e : comp (kernelNth E ρ ms (breaksUpTo (vals vs) t) t) stay x y = kernelNth E ρ ms (breaksUpTo (vals vs) t) t x y := by
        simp [comp, stay]
      rw [e]
      refine h2 _ ?_ t x y (near_mono (fun b hb => by simpa only [Wanders] using hb) h)
      have := breaksUpTo_le (vals vs) t
      rw [vals_length] at this
      have := hL.2.1
      omega
theorem kernelAll_reach (hG : GaussOK E.ext) (hW : GaussPos E.ext) {ρ : Idx gs → K} : ∀ (ms : List (TM K)), LinearAll E ms → ResetFreeAll ms →
    ∃ κ, 0 < κ ∧ ∀ t x y, Near (fun a => WandersAny E a ms) x y → κ ≤ kernelAll E ρ ms t x y
  | [], _, _ => ⟨1, one_pos, fun t x y h => by
      have : x = y := funext fun b => (h b).resolve_left fun h => by simpa [WandersAny] using h.1
      rw [kernelAll, stay, if_pos this]⟩
  | m :: ms, hL, hR => by
      rw [LinearAll] at hL
      rw [ResetFreeAll] at hR
      obtain ⟨κ, h1, h2⟩ := kernel_reach hG hW (ρ := ρ) m hL.1 hR.1
      obtain ⟨κ', h3, h4⟩ := kernelAll_reach hG hW (ρ := ρ) ms hL.2 hR.2
      refine ⟨κ * κ', mul_pos h1 h3, fun t x y h => ?_⟩
      rw [kernelAll]
      obtain ⟨z, hz⟩ : ∃ z : Idx gs, ∀ b, z b = if Wanders E b m then y b else x b := ⟨fun b => if Wanders E b m then y b else x b, fun b => rfl⟩
      have n1 : Near (fun a => Wanders E a m) x z := fun b => by
        rw [hz b]
        by_cases hb : Wanders E b m
        · rw [if_pos hb]
          exact (h b).imp (fun h => ⟨hb, h.2⟩) id
        · exact Or.inr (by rw [if_neg hb])
      have n2 : Near (fun a => WandersAny E a ms) z y := fun b => by
        rw [hz b]
        by_cases hb : Wanders E b m
        · exact Or.inr (by rw [if_pos hb])
        · rw [if_neg hb]
          refine (h b).imp (fun h => ⟨?_, h.2⟩) id
          have := h.1
          simp only [WandersAny] at this
          exact this.resolve_left hb
      have hn1 : ∀ x y, 0 ≤ kernel E ρ m t x y := kernel_nonneg hG m (Or.inl hR.1) t
      have hn2 : ∀ x y, 0 ≤ kernelAll E ρ ms t x y := kernelAll_nonneg hG ms (Or.inl hR.2) t
      calc κ * κ' ≤ kernel E ρ m t x z * kernelAll E ρ ms t z y := mul_le_mul (h2 t x z n1) (h4 t z y n2) h3.le (hn1 x z)
        _ ≤ comp (kernel E ρ m t) (kernelAll E ρ ms t) x y := Finset.single_le_sum (f := fun z => kernel E ρ m t x z * kernelAll E ρ ms t z y) (fun z _ => mul_nonneg (hn1 x z) (hn2 z y)) (Finset.mem_univ z)
theorem kernelNth_reach (hG : GaussOK E.ext) (hW : GaussPos E.ext) {ρ : Idx gs → K} : ∀ (ms : List (TM K)), LinearAll E ms → ResetFreeAll ms →
    ∃ κ, 0 < κ ∧ ∀ i < ms.length, ∀ t x y, Near (fun a => WandersEvery E a ms) x y → κ ≤ kernelNth E ρ ms i t x y
  | [], _, _ => ⟨1, one_pos, fun i hi => absurd hi (by simp)⟩
  | m :: ms, hL, hR => by
      rw [LinearAll] at hL
      rw [ResetFreeAll] at hR
      obtain ⟨κ, h1, h2⟩ := kernel_reach hG hW (ρ := ρ) m hL.1 hR.1
      obtain ⟨κ', h3, h4⟩ := kernelNth_reach hG hW (ρ := ρ) ms hL.2 hR.2
      refine ⟨min κ κ', lt_min h1 h3, fun i hi t x y h => ?_⟩
      match i, hi with
      | 0, _ =>
          rw [kernelNth]
          exact (min_le_left _ _).trans (h2 t x y (near_mono (fun b hb => by rw [WandersEvery] at hb; exact hb.1) h))
      | i + 1, hi =>
          rw [kernelNth]
          exact (min_le_right _ _).trans (h4 i (by simpa using hi) t x y (near_mono (fun b hb => by rw [WandersEvery] at hb; exact hb.2) h))
end

/-- several steps reach distant points -/
theorem steps_reach {T : ℕ → Idx gs → Idx gs → K} {κ : K} (hκ : 0 < κ) (hT : ∀ i x y, 0 ≤ T i x y) (h : ∀ i x y, Near (fun _ => True) x y → κ ≤ T i x y) (k : ℕ) :
    ∀ (w : ℕ) (x y : Idx gs), (∀ b, (x b).val ≤ (y b).val + (w + 1) ∧ (y b).val ≤ (x b).val + (w + 1)) → κ ^ (w + 1) ≤ steps T k w x y
  | 0, x, y, hd => by
      rw [zero_add, pow_one]
      exact h k x y fun b => Or.inl ⟨trivial, hd b⟩
  | w + 1, x, y, hd => by
      obtain ⟨z, hz⟩ : ∃ z : Idx gs, ∀ b, ((z b).val ≤ (y b).val + 1 ∧ (y b).val ≤ (z b).val + 1) ∧ (x b).val ≤ (z b).val + (w + 1) ∧ (z b).val ≤ (x b).val + (w + 1) := by
        refine ⟨fun b => if (x b).val < (y b).val then ⟨(y b).val - 1, by have := (y b).isLt; omega⟩ else if h : (y b).val < (x b).val then ⟨(y b).val + 1, by have := (x b).isLt; omega⟩ else y b, fun b => ?_⟩
        have := hd b
        dsimp only
        split
        · dsimp only; omega
        · split
          · dsimp only; omega
          · omega
      have h1 := steps_reach hκ hT h k w x z fun b => (hz b).2
      have h2 := h (k + w + 1) z y fun b => Or.inl ⟨trivial, (hz b).1⟩
      calc κ ^ (w + 1 + 1) = κ ^ (w + 1) * κ := pow_succ _ _
        _ ≤ steps T k w x z * T (k + w + 1) z y := mul_le_mul h1 h2 hκ.le (steps_nonneg hT k w x z)
        _ ≤ steps T k (w + 1) x y := Finset.single_le_sum (f := fun z => steps T k w x z * T (k + w + 1) z y) (fun z _ => mul_nonneg (steps_nonneg hT k w x z) (hT _ z y)) (Finset.mem_univ z)

/-- The posteriors of the path model for two initial distributions approach each other; the rate depends on the grid, the transition model and the bound for the likelihood ratios only. -/
theorem kernel_forget (hE : Regular E) (hW : GaussPos E.ext) {tm : TM K} (hL : Linear E tm) (hR : ResetFree tm) (hA : ∀ a, Wanders E a tm) {c : K} (hc : 1 ≤ c) :
    ∃ (D q : K) (w : ℕ), 0 ≤ q ∧ q < 1 ∧ 0 < w ∧ ∀ (ρ π π' : Idx gs → K), (∀ x, 0 ≤ π x) → (∀ x, 0 ≤ π' x) → 0 < ∑ x, π x → 0 < ∑ x, π' x →
      ∀ (n : ℕ) (τ : Fin (n + 1) → K) (L : Fin (n + 1) → Idx gs → K), (∀ i x, 0 < L i x) → (∀ i x y, L i x ≤ c * L i y) → ∀ i : Fin (n + 1),
        ∑ x, |posterior π' (fun j : Fin n => kernel E ρ tm (τ j.castSucc)) L i x - posterior π (fun j : Fin n => kernel E ρ tm (τ j.castSucc)) L i x| ≤ D * q ^ (i.val / w) := by
  have := hE.nonempty
  obtain ⟨κ, hκ, hk⟩ := kernel_reach hE.gauss hW (ρ := fun _ => 0) tm hL hR
  obtain ⟨w, hw⟩ : ∃ w, ∀ b, gs b ≤ w + 1 := ⟨∑ b, gs b, fun b => (Finset.single_le_sum (f := gs) (fun _ _ => Nat.zero_le _) (Finset.mem_univ b)).trans (Nat.le_succ _)⟩
  have hκ' : 0 < κ ^ (w + 1) := pow_pos hκ _
  have hc0 : 0 ≤ c := zero_le_one.trans hc
  have hC0 : 0 ≤ c ^ w / κ ^ (w + 1) := div_nonneg (pow_nonneg hc0 _) hκ'.le
  obtain ⟨C, hC⟩ : ∃ C, C = c ^ w / κ ^ (w + 1) + 2 := ⟨_, rfl⟩
  have hC2 : 2 ≤ C := by rw [hC]; linarith
  have hCp : 0 < C := by linarith
  refine ⟨2 * C ^ 2, 1 - 1 / C, w + 1, ?_, ?_, Nat.succ_pos _, fun ρ π π' hπ hπ' hs hs' n τ L hLp hLc i => ?_⟩
  · rw [sub_nonneg, div_le_one hCp]; linarith
  · have : 0 < 1 / C := by positivity
    linarith
  have e : ∀ t, kernel E ρ tm t = kernel E (fun _ => 0) tm t := fun t => kernel_fresh tm hR t
  simp only [e]
  obtain ⟨T, hTd⟩ : ∃ T : ℕ → Idx gs → Idx gs → K, T = fun k => kernel E (fun _ => 0) tm (if h : k < n + 1 then τ ⟨k, h⟩ else 0) := ⟨_, rfl⟩
  obtain ⟨L', hLd⟩ : ∃ L' : ℕ → Idx gs → K, L' = fun k => if h : k < n + 1 then L ⟨k, h⟩ else fun _ => 1 := ⟨_, rfl⟩
  have eT : (fun j : Fin n => kernel E (fun _ => 0) tm (τ j.castSucc)) = fun j : Fin n => T j := by
    funext j
    rw [hTd]
    beta_reduce
    rw [dif_pos (by omega : j.val < n + 1)]
    rfl
  have eL : L = fun j : Fin (n + 1) => L' j := by
    funext j
    rw [hLd]
    beta_reduce
    rw [dif_pos j.isLt]
  have hT : ∀ i x y, 0 ≤ T i x y := fun i => by rw [hTd]; exact kernel_nonneg hE.gauss tm (Or.inl hR) _
  have hT1 : ∀ i x, ∑ y, T i x y = 1 := fun i => by rw [hTd]; exact kernel_sum hE.gauss tm hL (Or.inl hR) _
  have hT2 : ∀ i x y, Near (fun _ => True) x y → κ ≤ T i x y := fun i x y h => by
    rw [hTd]
    exact hk _ x y (near_mono (fun b _ => hA b) h)
  have hL0 : ∀ i x, 0 < L' i x := fun i x => by
    rw [hLd]
    dsimp only
    split
    · exact hLp _ x
    · exact one_pos
  have hL1 : ∀ i x y, L' i x ≤ c * L' i y := fun i x y => by
    rw [hLd]
    dsimp only
    split
    · exact hLc _ x y
    · simpa using hc
  have hmix : ∀ k, Mixes (between T L' k w) C := fun k => by
    refine (between_mixes hc hκ' hT (fun i x => (hL0 i x).le) hL1 k w (steps_le_one hT hT1 k w) fun x y => ?_).mono (by rw [hC]; linarith)
    refine steps_reach hκ hT hT2 k w x y fun b => ?_
    have := hw b
    have := (x b).isLt
    have := (y b).isLt
    omega
  have he : ∀ π : Idx gs → K, (∀ x, 0 ≤ π x) → 0 < ∑ x, π x → evidence π (fun j : Fin n => T j) (fun j : Fin (n + 1) => L' j) ≠ 0 := fun π hπ hs =>
    (evidence_pos hπ hs (fun i => hT _) (fun i => hT1 _) fun i => hL0 _).ne'
  rw [eT, eL]
  exact prior_forgotten hC2 hT (fun i x => (hL0 i x).le) hmix hπ hπ' (he π hπ hs) (he π' hπ' hs') i

end BL

namespace Props
open BL Spec
variable {K : Type} [Field K] [LinearOrder K] [IsStrictOrderedRing K] {d : ℕ} {gs : Fin d → ℕ}

/-- **C103.** Transition models assembled from Static, GaussianRandomWalk, Combined and Serial without resets, in which every parameter performs a random walk at all times.  There are constants `D`,
`q < 1` and `w`, which depend on the grid, the transition model and the bound `c` for the likelihood ratios of single data points only, such that for any two priors, any number of data points, all data
with these likelihood ratios, all time stamps (full fits: unit-spaced) both fits succeed and their posterior distributions at time step `i` differ at most by `D * q ^ (i / w)` (sum of the absolute
differences of the probabilities). -/
theorem C103 (E : Env K gs) (tm : TM K) (hE : Regular E) (hW : ∀ s, 0 < s → ∀ k : ℤ, |k| ≤ E.ext.gaussR s → 0 < E.ext.gaussW s k) (hL : Linear E tm) (hR : ResetFree tm)
    (hA : ∀ a, Wanders E a tm) (c : K) (hc : 1 ≤ c) :
    ∃ (D q : K) (w : ℕ), 0 ≤ q ∧ q < 1 ∧ 0 < w ∧
      ∀ (grid : (a : Fin d) → Fin (gs a) → K) (S S' : FitState K gs) (π π' : Idx gs → K), PriorMass E.cell S.prior π → PriorMass E.cell S'.prior π' → 0 < ∑ x, π x → 0 < ∑ x, π' x →
      ∀ (n : ℕ) (L : Fin (n + 1) → Idx gs → K) (τ : Fin (n + 1) → K) (fo : Bool), (∀ i x, 0 < L i x) → (∀ i x y, L i x ≤ c * L i y) → (fo = true ∨ ∀ i : Fin n, τ i.succ = τ i.castSucc + 1) →
        ∃ (A B : FitState K gs) (p p' : Fin (n + 1) → Idx gs → K),
          fit E grid tm (List.ofFn L) (List.ofFn τ) fo false S = .ok A ∧ A.posts = List.ofFn (fun i => .val (p i)) ∧
          fit E grid tm (List.ofFn L) (List.ofFn τ) fo false S' = .ok B ∧ B.posts = List.ofFn (fun i => .val (p' i)) ∧
          ∀ i, ∑ x, |p' i x - p i x| ≤ D * q ^ (i.val / w) := by
  obtain ⟨D, q, w, h1, h2, h3, h4⟩ := kernel_forget hE hW hL hR hA hc
  refine ⟨D, q, w, h1, h2, h3, fun grid S S' π π' hp hp' hs hs' n L τ fo hL0 hLc hmode => ?_⟩
  have := hE.nonempty
  have hcell := cell_pos hE.lattice_pos
  have hπ := priorMass_nonneg hcell hp
  have hπ' := priorMass_nonneg hcell hp'
  have hK : ∀ ρ : Idx gs → K, Stoch (kernel E ρ tm) := fun ρ => ⟨kernel_nonneg hE.gauss tm (Or.inl hR), kernel_sum hE.gauss tm hL (Or.inl hR)⟩
  have he : ∀ π : Idx gs → K, (∀ x, 0 ≤ π x) → 0 < ∑ x, π x → evidence π (fun i : Fin n => kernel E π tm (τ i.castSucc)) L ≠ 0 := fun π hπ hs =>
    (evidence_pos hπ hs (fun i => (hK π).nonneg _) (fun i => (hK π).sum _) hL0).ne'
  have e : ∀ t, kernel E π' tm t = kernel E π tm t := fun t => kernel_fresh tm hR t
  cases fo with
  | true =>
    obtain ⟨A, a1, a2⟩ := C03_filtering E grid tm hE hL S π hp (Or.inl hR) L (fun i x => (hL0 i x).le) τ (he π hπ hs)
    obtain ⟨B, b1, b2⟩ := C03_filtering E grid tm hE hL S' π' hp' (Or.inl hR) L (fun i x => (hL0 i x).le) τ (he π' hπ' hs')
    refine ⟨A, B, _, _, a1, a2, b1, b2, fun i => ?_⟩
    simp only [e]
    exact h4 π π π' hπ hπ' hs hs' i.val (upTo i τ) (upTo i L) (fun j => hL0 _) (fun j => hLc _) (Fin.last _)
  | false =>
    have hU := hmode.resolve_left (by simp)
    obtain ⟨A, a1, a2⟩ := smoothing_matched E grid tm hE hL S π hp (Or.inl hR) L (fun i x => (hL0 i x).le) τ (matched_of_unit hU) (he π hπ hs)
    obtain ⟨B, b1, b2⟩ := smoothing_matched E grid tm hE hL S' π' hp' (Or.inl hR) L (fun i x => (hL0 i x).le) τ (matched_of_unit hU) (he π' hπ' hs')
    refine ⟨A, B, _, _, a1, a2, b1, b2, fun i => ?_⟩
    simp only [e]
    exact h4 π π π' hπ hπ' hs hs' n τ L hL0 hLc i

theorem linearAll_mem {E : Env K gs} : ∀ {ms : List (TM K)}, (∀ m ∈ ms, Linear E m) → LinearAll E ms
  | [], _ => by rw [LinearAll]; trivial
  | m :: ms, h => by rw [LinearAll]; exact ⟨h m (by simp), linearAll_mem fun m hm => h m (by simp [hm])⟩

theorem resetFreeAll_mem : ∀ {ms : List (TM K)}, (∀ m ∈ ms, ResetFree m) → ResetFreeAll ms
  | [], _ => by rw [ResetFreeAll]; trivial
  | m :: ms, h => by rw [ResetFreeAll]; exact ⟨h m (by simp), resetFreeAll_mem fun m hm => h m (by simp [hm])⟩

theorem wandersAny_mem {E : Env K gs} {a : Fin d} : ∀ {ms : List (TM K)} {m : TM K}, m ∈ ms → Wanders E a m → WandersAny E a ms
  | m' :: ms, m, hm, h => by
      rw [WandersAny]
      rcases List.mem_cons.1 hm with rfl | hm
      · exact Or.inl h
      · exact Or.inr (wandersAny_mem hm h)

/-- **C103 (scipy's filter).** Real numbers and the filter of scipy.  If every parameter has a Gaussian random walk with a standard deviation of at least one eighth of its lattice constant, the influence
of the prior vanishes: for every `ε` there is a number `N` of time steps after which the posterior distributions of any two priors differ by at most `ε`, whatever the data (with bounded likelihood
ratios of single data points). -/
theorem C103_real (gs : Fin d → ℕ) (names : Fin d → String) (hn : Function.Injective names) (lattice : Fin d → ℝ) (hl : ∀ a, 0 < lattice a) (hne : Nonempty (Idx gs)) (pr : PriorSpec ℝ gs)
    (l : ℕ) (shift : Fin d → ℝ → (Idx gs → ℝ) → (Idx gs → ℝ)) (σ : Fin d → ℝ) (hσ : ∀ a, lattice a / 8 ≤ σ a) (c : ℝ) (hc : 1 ≤ c) (ε : ℝ) (hε : 0 < ε) :
    ∃ N : ℕ, ∀ (grid : (a : Fin d) → Fin (gs a) → ℝ) (S S' : FitState ℝ gs) (π π' : Idx gs → ℝ), PriorMass (∏ a, lattice a) S.prior π → PriorMass (∏ a, lattice a) S'.prior π' →
      0 < ∑ x, π x → 0 < ∑ x, π' x → ∀ (n : ℕ) (L : Fin (n + 1) → Idx gs → ℝ) (τ : Fin (n + 1) → ℝ) (fo : Bool), (∀ i x, 0 < L i x) → (∀ i x y, L i x ≤ c * L i y) →
      (fo = true ∨ ∀ i : Fin n, τ i.succ = τ i.castSucc + 1) →
        ∃ (A B : FitState ℝ gs) (p p' : Fin (n + 1) → Idx gs → ℝ),
          fit ⟨names, lattice, pr, realExt l shift⟩ grid (.combined (List.ofFn fun a => .leaf (.grw (names a)) ["sigma"] [.scalar (σ a)] none)) (List.ofFn L) (List.ofFn τ) fo false S = .ok A ∧
          A.posts = List.ofFn (fun i => .val (p i)) ∧
          fit ⟨names, lattice, pr, realExt l shift⟩ grid (.combined (List.ofFn fun a => .leaf (.grw (names a)) ["sigma"] [.scalar (σ a)] none)) (List.ofFn L) (List.ofFn τ) fo false S' = .ok B ∧
          B.posts = List.ofFn (fun i => .val (p' i)) ∧
          ∀ i, N ≤ i.val → ∑ x, |p' i x - p i x| ≤ ε := by
  obtain ⟨E, hEd⟩ : ∃ E : Env ℝ gs, E = ⟨names, lattice, pr, realExt l shift⟩ := ⟨_, rfl⟩
  obtain ⟨tm, htm⟩ : ∃ tm : TM ℝ, tm = .combined (List.ofFn fun a => .leaf (.grw (names a)) ["sigma"] [.scalar (σ a)] none) := ⟨_, rfl⟩
  have hE : Regular E := by rw [hEd]; exact ⟨hl, hne, realExt_gaussOK _ _⟩
  have hax : ∀ a, E.axis (names a) = .ok a := fun a => by
    rw [hEd]
    exact axis_distinct (E := ⟨names, lattice, pr, realExt l shift⟩) hn a
  have hL : Linear E tm := by
    rw [htm, Linear]
    refine linearAll_mem fun m hm => ?_
    obtain ⟨a, rfl⟩ := (List.mem_ofFn' _ _).1 hm
    rw [Linear]
    exact ⟨⟨a, hax a⟩, _, rfl⟩
  have hR : ResetFree tm := by
    rw [htm, ResetFree]
    refine resetFreeAll_mem fun m hm => ?_
    obtain ⟨a, rfl⟩ := (List.mem_ofFn' _ _).1 hm
    simp [ResetFree]
  have hA : ∀ a, Wanders E a tm := fun a => by
    rw [htm, Wanders]
    refine wandersAny_mem ((List.mem_ofFn' _ _).2 ⟨a, rfl⟩) ?_
    simp only [Wanders, val0]
    refine ⟨hax a, ?_, ?_⟩
    · rw [hEd]
      exact div_pos (lt_of_lt_of_le (by have := hl a; positivity) (hσ a)) (hl a)
    · rw [hEd]
      refine Nat.le_floor ?_
      have : 1 / 8 ≤ σ a / lattice a := by rw [le_div_iff₀ (hl a)]; linarith [hσ a]
      push_cast
      linarith
  have hW : ∀ s, 0 < s → ∀ k : ℤ, |k| ≤ E.ext.gaussR s → 0 < E.ext.gaussW s k := fun s _ k _ => by rw [hEd]; exact scipyWeight_pos s k
  obtain ⟨D, q, w, h1, h2, h3, h4⟩ := C103 E tm hE hW hL hR hA c hc
  have hD : ∃ M : ℕ, ∀ m ≥ M, D * q ^ m ≤ ε := by
    rcases le_or_gt D 0 with hD | hD
    · exact ⟨0, fun m _ => (mul_nonpos_of_nonpos_of_nonneg hD (pow_nonneg h1 m)).trans hε.le⟩
    · obtain ⟨M, hM⟩ := exists_pow_lt_of_lt_one (div_pos hε hD) h2
      refine ⟨M, fun m hm => ?_⟩
      have : q ^ m ≤ q ^ M := pow_le_pow_of_le_one h1 h2.le hm
      rw [lt_div_iff₀ hD] at hM
      nlinarith
  obtain ⟨M, hM⟩ := hD
  refine ⟨M * w, fun grid S S' π π' hp hp' hs hs' n L τ fo hL0 hLc hmode => ?_⟩
  have hcell : E.cell = ∏ a, lattice a := by rw [hEd]; rfl
  obtain ⟨A, B, p, p', k1, k2, k3, k4, k5⟩ := h4 grid S S' π π' (by rw [hcell]; exact hp) (by rw [hcell]; exact hp') hs hs' n L τ fo hL0 hLc hmode
  rw [hEd, htm] at k1 k3
  exact ⟨A, B, p, p', k1, k2, k3, k4, fun i hi => (k5 i).trans (hM _ ((Nat.le_div_iff_mul_le h3).2 hi))⟩

/-- **C103 (narrow random walks).** With scipy's filter a Gaussian random walk whose standard deviation is positive but smaller than one eighth of
the lattice constant does not move the parameter at all: the radius of the filter is zero.  The posterior distribution at time step `i` is the prior times all likelihoods so far, as for constant
parameters; the ratio of the posteriors of two priors is the ratio of the priors for ever. -/
theorem C103_narrow {gs : Fin d → ℕ} (E : Env ℝ gs) (l : ℕ) (shift : Fin d → ℝ → (Idx gs → ℝ) → (Idx gs → ℝ)) (hX : E.ext = realExt l shift) (hl : ∀ a, 0 < E.lattice a) (hne : Nonempty (Idx gs))
    (target : String) (a : Fin d) (ha : E.axis target = .ok a) (σ : ℝ) (hσ : 0 < σ) (hσ8 : σ < E.lattice a / 8) (hnames : List String) (pri : Option (Nest (HPrior ℝ)))
    (grid : (a : Fin d) → Fin (gs a) → ℝ) (S : FitState ℝ gs) (π : Idx gs → ℝ) (hp : PriorMass E.cell S.prior π) (hs : 0 < ∑ x, π x)
    (n : ℕ) (L : Fin (n + 1) → Idx gs → ℝ) (hL : ∀ i x, 0 < L i x) (τ : Fin (n + 1) → ℝ) :
    ∃ A, fit E grid (.leaf (.grw target) hnames [.scalar σ] pri) (List.ofFn L) (List.ofFn τ) true false S = .ok A ∧
      A.posts = List.ofFn fun i => .val fun x => π x * (∏ j, upTo i L j x) / ∑ y, π y * ∏ j, upTo i L j y := by
  have hE : Regular E := ⟨hl, hne, by rw [hX]; exact realExt_gaussOK _ _⟩
  have hlin : Linear E (.leaf (.grw target) hnames [.scalar σ] pri) := by rw [Linear]; exact ⟨⟨a, ha⟩, _, rfl⟩
  have hRF : ResetFree (.leaf (.grw target) hnames [.scalar σ] pri) := by simp [ResetFree]
  have hs0 : 0 < σ / E.lattice a := div_pos hσ (hl a)
  have hr : scipyRadius (σ / E.lattice a) = 0 := by
    refine Nat.floor_eq_zero.2 ?_
    have : σ / E.lattice a < 1 / 8 := by rw [div_lt_iff₀ (hl a)]; linarith
    linarith
  have hw : scipyWeight (σ / E.lattice a) 0 = 1 := by simp [scipyWeight, hr]
  have hwalk : ∀ (m : ℕ) (i j : Fin m), walk m (scipyRadius (σ / E.lattice a)) (scipyWeight (σ / E.lattice a)) i j = if i = j then 1 else 0 := fun m i j => by
    rw [hr, walk]
    simp only [Nat.cast_zero, neg_zero, Finset.Icc_self, Finset.sum_singleton, hw, one_mul, add_zero]
    refine if_congr ⟨fun h => ?_, fun h => Or.inl (by rw [h, sub_self]; exact dvd_zero _)⟩ rfl rfl
    have hi := i.isLt
    have hj := j.isLt
    rcases h with ⟨k, hk⟩ | ⟨k, hk⟩
    · have : k = 0 := by
        have h1 : -1 < k := by
          by_contra hn
          have : k ≤ -1 := by omega
          have : ((2 * m : ℕ) : ℤ) * k ≤ ((2 * m : ℕ) : ℤ) * (-1) := mul_le_mul_of_nonneg_left this (by positivity)
          push_cast at *
          omega
        have h2 : k < 1 := by
          by_contra hn
          have : 1 ≤ k := by omega
          have : ((2 * m : ℕ) : ℤ) * 1 ≤ ((2 * m : ℕ) : ℤ) * k := mul_le_mul_of_nonneg_left this (by positivity)
          push_cast at *
          omega
        omega
      rw [this, mul_zero] at hk
      exact Fin.ext (by omega)
    · exfalso
      have h1 : 0 < k := by
        by_contra hn
        have : k ≤ 0 := by omega
        have : ((2 * m : ℕ) : ℤ) * k ≤ ((2 * m : ℕ) : ℤ) * 0 := mul_le_mul_of_nonneg_left this (by positivity)
        push_cast at *
        omega
      have : ((2 * m : ℕ) : ℤ) * 1 ≤ ((2 * m : ℕ) : ℤ) * k := mul_le_mul_of_nonneg_left (by omega) (by positivity)
      push_cast at *
      omega
  have hk : ∀ t, kernel E π (.leaf (.grw target) hnames [.scalar σ] pri) t = fun x y => if x = y then (1 : ℝ) else 0 := fun t => by
    funext x y
    rw [kernel]
    simp only [ha, val0, if_pos hs0, hX]
    simp only [realExt, walkAxis, hwalk]
    by_cases h : x = y
    · subst h; simp
    · rw [if_neg h]
      by_cases h1 : ∀ b, b ≠ a → x b = y b
      · rw [if_pos h1, if_neg fun h2 => h (funext fun b => ?_)]
        by_cases hb : b = a
        · rw [hb]; exact h2
        · exact h1 b hb
      · rw [if_neg h1]
  have hπ := priorMass_nonneg (cell_pos hl) hp
  have he : evidence π (fun i : Fin n => kernel E π (.leaf (.grw target) hnames [.scalar σ] pri) (τ i.castSucc)) L ≠ 0 := by
    simp only [hk]
    rw [evidence_const]
    obtain ⟨x, -, hx⟩ := Finset.exists_lt_of_sum_lt (s := Finset.univ) (f := fun _ => (0 : ℝ)) (by simpa using hs)
    exact (Finset.sum_pos' (fun y _ => mul_nonneg (hπ y) (Finset.prod_nonneg fun i _ => (hL i y).le)) ⟨x, Finset.mem_univ x, mul_pos hx (Finset.prod_pos fun i _ => hL i x)⟩).ne'
  obtain ⟨A, h1, h2⟩ := C03_filtering E grid _ hE hlin S π hp (Or.inl hRF) L (fun i x => (hL i x).le) τ he
  refine ⟨A, h1, ?_⟩
  rw [h2]
  refine congrArg List.ofFn (funext fun i => congrArg Cell.val (funext fun x => ?_))
  simp only [hk, filtering, posterior]
  rw [evidence_const, marginal_const]

/-- **Refutation of C103 for all positive standard deviations.** One parameter with two values 0 and 1, a Gaussian random walk with standard deviation 1/10, and data that carry no information.  The posterior
distributions for the flat prior and for a prior with ratio 1:3 differ by 1/2 at all time steps. -/
theorem C103_refuted : ∃ (E : Env ℝ Ex.gs2) (tm : TM ℝ) (S S' : FitState ℝ Ex.gs2), E.ext = (realExt 2 fun _ _ p => p) ∧ tm = .leaf (.grw "x") ["sigma"] [.scalar (1 / 10)] none ∧
    ∀ (grid : (a : Fin 1) → Fin (Ex.gs2 a) → ℝ) (n : ℕ) (τ : Fin (n + 1) → ℝ), ∃ (A B : FitState ℝ Ex.gs2) (p p' : Fin (n + 1) → Idx Ex.gs2 → ℝ),
      fit E grid tm (List.ofFn fun _ : Fin (n + 1) => fun _ => 1) (List.ofFn τ) true false S = .ok A ∧ A.posts = List.ofFn (fun i => .val (p i)) ∧
      fit E grid tm (List.ofFn fun _ : Fin (n + 1) => fun _ => 1) (List.ofFn τ) true false S' = .ok B ∧ B.posts = List.ofFn (fun i => .val (p' i)) ∧
      ∀ i, ∑ x, |p' i x - p i x| = 1 / 2 := by
  obtain ⟨E, hE⟩ : ∃ E : Env ℝ Ex.gs2, E = ⟨fun _ => "x", fun _ => 1, .none, realExt 2 fun _ _ p => p⟩ := ⟨_, rfl⟩
  have hne : Nonempty (Idx Ex.gs2) := ⟨fun _ => ⟨0, by simp [Ex.gs2]⟩⟩
  obtain ⟨x0, hx0⟩ : ∃ x : Idx Ex.gs2, x = fun _ => ⟨0, by simp [Ex.gs2]⟩ := ⟨_, rfl⟩
  obtain ⟨x1, hx1⟩ : ∃ x : Idx Ex.gs2, x = fun _ => ⟨1, by simp [Ex.gs2]⟩ := ⟨_, rfl⟩
  have hsum : ∀ f : Idx Ex.gs2 → ℝ, ∑ x, f x = f x0 + f x1 := fun f => by
    have h1 : (Finset.univ : Finset (Idx Ex.gs2)) = {x0, x1} := by rw [hx0, hx1]; decide
    have h2 : x0 ≠ x1 := by rw [hx0, hx1]; decide
    rw [h1, Finset.sum_pair h2]
  obtain ⟨v, hv⟩ : ∃ v : Idx Ex.gs2 → ℝ, v = fun x => if (x 0).val = 0 then 1 else 3 := ⟨_, rfl⟩
  have hv0 : v x0 = 1 := by simp [hv, hx0]
  have hv1 : v x1 = 3 := by simp [hv, hx1]
  have hvs : ∑ x, v x = 4 := by rw [hsum, hv0, hv1]; norm_num
  have hcell : E.cell = 1 := by rw [hE]; simp [Env.cell]
  have hcard : (Fintype.card (Idx Ex.gs2) : ℝ) = 2 := by
    have : Fintype.card (Idx Ex.gs2) = 2 := by decide
    rw [this]; norm_num
  refine ⟨E, _, ⟨.none, [], fun _ => [], 0, []⟩, ⟨.func v, [], fun _ => [], 0, []⟩, by rw [hE], rfl, fun grid n τ => ?_⟩
  have hX : E.ext = (realExt 2 fun _ _ p => p) := by rw [hE]
  have hl : ∀ a, 0 < E.lattice a := fun a => by rw [hE]; exact one_pos
  have ha : E.axis "x" = .ok 0 := by rw [hE]; rfl
  have h8 : (1 / 10 : ℝ) < E.lattice 0 / 8 := by rw [hE]; norm_num
  have hp : PriorMass E.cell (.none : PriorSpec ℝ Ex.gs2) _ := .flat
  have hp' : PriorMass E.cell (.func v : PriorSpec ℝ Ex.gs2) _ := .func v (fun x => by rw [hv]; dsimp only; split <;> norm_num) (by rw [hvs]; norm_num) (Or.inr hcell)
  obtain ⟨A, a1, a2⟩ := C103_narrow E 2 _ hX hl hne "x" 0 ha (1 / 10) (by norm_num) h8 ["sigma"] none grid ⟨.none, [], fun _ => [], 0, []⟩ _ hp (by rw [hsum, hcard]; norm_num) n (fun _ _ => 1) (fun _ _ => one_pos) τ
  obtain ⟨B, b1, b2⟩ := C103_narrow E 2 _ hX hl hne "x" 0 ha (1 / 10) (by norm_num) h8 ["sigma"] none grid ⟨.func v, [], fun _ => [], 0, []⟩ _ hp' (by rw [hsum, hvs, hv0, hv1]; norm_num) n (fun _ _ => 1) (fun _ _ => one_pos) τ
  refine ⟨A, B, _, _, a1, a2, b1, b2, fun i => ?_⟩
  simp only [upTo, Finset.prod_const_one, mul_one, hsum, hv0, hv1, hcard]
  norm_num [abs_of_pos, abs_of_neg]

/-- Two parameters with random walks, standard deviations of one and three grid steps. -/
example := C103_real (d := 2) (fun _ => 5) ![ "mean", "std"] (by decide) (fun _ => 1 / 4) (fun _ => by norm_num) ⟨fun _ => ⟨0, by norm_num⟩⟩ .none 5 (fun _ _ p => p) ![1 / 4, 3 / 4]
  (by intro a; fin_cases a <;> norm_num) 100 (by norm_num) (1 / 1000) (by norm_num)

/-- The hypotheses are met by a serial model whose first segment combines a constant with a random walk, for likelihood ratios up to 3. -/
example := C103 (Ex.env Ex.gs3 (1 / 2)) (Ex.ser false 1 (.combined [Ex.static, Ex.grw 1]) (Ex.grw 2)) (Ex.regular3 (by norm_num))
  (by intro s _ k _; simp only [Ex.env, Ex.ext]; split <;> norm_num)
  (by simp [Ex.ser, Ex.grw, Ex.static, Linear, LinearAll, Ex.axis_x]) (by simp [Ex.ser, Ex.grw, Ex.static, ResetFree, ResetFreeAll])
  (by
    intro a
    obtain rfl : a = 0 := Subsingleton.elim _ _
    simp [Ex.ser, Ex.grw, Ex.static, Wanders, WandersAny, WandersEvery, val0, Ex.env, Ex.ext]
    rfl) 3 (by norm_num)

end Props
