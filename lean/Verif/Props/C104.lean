import Verif.Props.Ex
import Verif.Lemmas.RoundingFit
import Verif.Props.C01
import Verif.Props.C04
import Verif.Lemmas.Study
import Verif.Model.RealExt
import Mathlib.Algebra.Order.Ring.Pow
import Mathlib.Analysis.SpecialFunctions.Log.Basic

/-! # C104: rounding errors -/

set_option linter.unusedSectionVars false

namespace Spec
variable {K : Type} [Field K] [LinearOrder K]

/-- The usual bound for the relative error of `N` roundings: `N u / (1 - N u)`. -/
def gam (N : ℕ) (u : K) : K := N * u / (1 - N * u)

end Spec

namespace BL
open Spec
variable {K : Type} [Field K] [LinearOrder K] [IsStrictOrderedRing K] {d : ℕ} {gs : Fin d → ℕ} {u : K}

theorem pow_bernoulli (hu : 0 ≤ u) (hu1 : u < 1) (N : ℕ) : 1 - N * u ≤ (1 - u) ^ N := by
  have := one_add_mul_le_pow (a := -u) (by linarith) N
  rw [mul_neg, ← sub_eq_add_neg, ← sub_eq_add_neg] at this
  exact this

theorem u_lt_one (hu : 0 ≤ u) {N : ℕ} (hN : 1 ≤ N) (h : (N : K) * u < 1) : u < 1 := by
  have : (1 : K) ≤ N := by exact_mod_cast hN
  nlinarith

theorem inv_pow_le_gam (hu : 0 ≤ u) (hu1 : u < 1) {N : ℕ} (h : (N : K) * u < 1) : 1 / (1 - u) ^ N - 1 ≤ gam N u := by
  have h1 := pow_bernoulli hu hu1 N
  have h2 : 0 < 1 - (N : K) * u := by linarith
  have h3 : 1 / (1 - u) ^ N ≤ 1 / (1 - N * u) := one_div_le_one_div_of_le h2 h1
  have h4 : gam N u = 1 / (1 - N * u) - 1 := by rw [gam]; field_simp; ring
  linarith

theorem Acc.err (hu : 0 ≤ u) (hu1 : u < 1) {N : ℕ} {a b : K} (h : Acc u N a b) : |b - a| ≤ (1 / (1 - u) ^ N - 1) * a := by
  have hp : 0 < (1 - u) ^ N := pow_pos (by linarith) N
  have h1 : (1 - u) ^ N ≤ 1 := pow_le_one₀ (by linarith) (by linarith)
  have h2 : b ≤ 1 / (1 - u) ^ N * a := by
    rw [one_div_mul_eq_div, le_div_iff₀ hp]; linarith [h.upper, mul_comm b ((1 - u) ^ N)]
  rw [abs_le]
  constructor
  · have h3 : 2 ≤ 1 / (1 - u) ^ N + (1 - u) ^ N := by
      have : 0 ≤ (1 - (1 - u) ^ N) ^ 2 / (1 - u) ^ N := by positivity
      have e : (1 - (1 - u) ^ N) ^ 2 / (1 - u) ^ N = 1 / (1 - u) ^ N + (1 - u) ^ N - 2 := by field_simp; ring
      linarith
    nlinarith [h.lower, h.left]
  · linarith

theorem Acc.gam (hu : 0 ≤ u) (hu1 : u < 1) {N : ℕ} (hN : (N : K) * u < 1) {a b : K} (h : Acc u N a b) : |b - a| ≤ Spec.gam N u * a :=
  (h.err hu hu1).trans (mul_le_mul_of_nonneg_right (inv_pow_le_gam hu hu1 hN) h.left)

/-- sums of numbers with errors -/
theorem RSum.err (hu : 0 ≤ u) (hu1 : u < 1) {m : Multiset K} {r : K} (h : RSum u m r) {G : ℕ} (hG : m.card ≤ G + 1) : |r - m.sum| ≤ (1 / (1 - u) ^ G - 1) * (m.map fun a => |a|).sum := by
  have hp : 0 < (1 - u) ^ (m.card - 1) := pow_pos (by linarith) _
  have h1 := h.abs_le hu hu1
  have h0 : 0 ≤ (m.map fun a => |a|).sum := Multiset.sum_nonneg fun a ha => by obtain ⟨b, -, rfl⟩ := Multiset.mem_map.1 ha; exact abs_nonneg b
  have h2 : |r - m.sum| ≤ (1 / (1 - u) ^ (m.card - 1) - 1) * (m.map fun a => |a|).sum := by
    have e : (1 / (1 - u) ^ (m.card - 1) - 1) * (m.map fun a => |a|).sum = (1 - (1 - u) ^ (m.card - 1)) * (m.map fun a => |a|).sum / (1 - u) ^ (m.card - 1) := by field_simp
    rw [e, le_div_iff₀ hp]; linarith
  have h3 : (1 - u) ^ G ≤ (1 - u) ^ (m.card - 1) := pow_le_pow_of_le_one (by linarith) (by linarith) (by omega)
  have h4 : 1 / (1 - u) ^ (m.card - 1) ≤ 1 / (1 - u) ^ G := one_div_le_one_div_of_le (pow_pos (by linarith) _) h3
  exact h2.trans (mul_le_mul_of_nonneg_right (by linarith) h0)

theorem mean_acc (hu : 0 ≤ u) (hu1 : u < 1) {grid : (a : Fin d) → Fin (gs a) → K} {a : Fin d} {p p' : Idx gs → K} {m' : K} {N : ℕ} (h : ∀ x, Acc u N (p x) (p' x)) (hm : RMean u grid a p' m')
    (hN : ((N + 1 + Fintype.card (Idx gs) : ℕ) : K) * u < 1) : |m' - mean grid a p| ≤ Spec.gam (N + 1 + Fintype.card (Idx gs)) u * ∑ x, p x * |grid a (x a)| := by
  obtain ⟨q, h1, h2⟩ := hm
  have hq : ∀ x, |q x - p x * grid a (x a)| ≤ (1 / (1 - u) ^ (N + 1) - 1) * (p x * |grid a (x a)|) := by
    intro x
    rcases le_total 0 (grid a (x a)) with hg | hg
    · have h3 := (h x).mul hu1 (Acc.refl hu hu1 hg 0)
      have := (h3.trans hu1 ((h1 x).acc hu hu1 (mul_nonneg (h x).right hg))).err hu hu1
      rwa [abs_of_nonneg hg]
    · have h3 := (h x).mul hu1 (Acc.refl hu hu1 (neg_nonneg.2 hg) 0)
      have h4 : Rounded u (p' x * -grid a (x a)) (-q x) := by
        have := h1 x
        rw [Rounded] at this ⊢
        rw [mul_neg, abs_neg, neg_sub_neg, abs_sub_comm]
        exact this
      have := (h3.trans hu1 (h4.acc hu hu1 (mul_nonneg (h x).right (neg_nonneg.2 hg)))).err hu hu1
      rw [abs_of_nonpos hg]
      rw [mul_neg, neg_sub_neg, abs_sub_comm] at this
      rwa [mul_neg]
  have h3 := RSum.err hu hu1 h2 (G := Fintype.card (Idx gs)) (by rw [Multiset.card_map]; exact Nat.le_succ _)
  rw [Multiset.map_map] at h3
  change |m' - ∑ x, q x| ≤ _ * ∑ x, |q x| at h3
  have hS : 0 ≤ ∑ x, p x * |grid a (x a)| := Finset.sum_nonneg fun x _ => mul_nonneg (h x).left (abs_nonneg _)
  have h4 : |∑ x, q x - ∑ x, p x * grid a (x a)| ≤ (1 / (1 - u) ^ (N + 1) - 1) * ∑ x, p x * |grid a (x a)| := by
    rw [← Finset.sum_sub_distrib, Finset.mul_sum]
    exact (Finset.abs_sum_le_sum_abs _ _).trans (Finset.sum_le_sum fun x _ => hq x)
  have h5 : ∑ x, |q x| ≤ 1 / (1 - u) ^ (N + 1) * ∑ x, p x * |grid a (x a)| := by
    rw [Finset.mul_sum]
    refine Finset.sum_le_sum fun x _ => ?_
    have := abs_sub_abs_le_abs_sub (q x) (p x * grid a (x a))
    rw [abs_mul, abs_of_nonneg (h x).left] at this
    linarith [hq x]
  have hG : 0 ≤ 1 / (1 - u) ^ Fintype.card (Idx gs) - 1 := by
    have : 1 ≤ 1 / (1 - u) ^ Fintype.card (Idx gs) := one_le_one_div (pow_pos (by linarith) _) (pow_le_one₀ (by linarith) (by linarith))
    linarith
  have h6 : |m' - mean grid a p| ≤ |m' - ∑ x, q x| + |∑ x, q x - ∑ x, p x * grid a (x a)| := abs_sub_le _ _ _
  have h7 := mul_le_mul_of_nonneg_left h5 hG
  have h8 := mul_le_mul_of_nonneg_right (inv_pow_le_gam hu hu1 hN) hS
  rw [pow_add _ (N + 1), ← one_div_mul_one_div] at h8
  nlinarith

end BL

namespace Props
open BL Spec

variable {K : Type} [Field K] [LinearOrder K] [IsStrictOrderedRing K] {d : ℕ} {gs : Fin d → ℕ} {u : K}

theorem _root_.BL.RFwd.length {E : Env K gs} {tm : TM K} {e : ℕ} {a : Idx gs → K} {Ls : List (Idx gs → K)} {ts : List K} {ss : List (Step K gs)} {st : Bool} (h : RFwd E tm u e a Ls ts ss st) :
    st = false → ss.length = Ls.length := by
  induction h with
  | done => intro _; rfl
  | stop => intro h; cases h
  | step _ _ _ _ _ _ ih => intro h; rw [List.length_cons, List.length_cons, ih h]

/-- number of roundings that can accumulate in a result of `fit`: `T` time steps on a grid with `G` points, transition models with `k` elementary parts of accuracy `e`; prior and cell volume have the
accuracy `eP`, the likelihood values the accuracy `eL` -/
def _root_.Spec.roundings (T G k e eP eL : ℕ) : ℕ := 2 * (eP + (T + 1) * (eL + 2 + G + k * e))

/-- the run in exact arithmetic and the run with rounding -/
theorem rounded_core {E : Env K gs} (hE : Regular E) {tm : TM K} (hL : Linear E tm) (hu : 0 ≤ u) (hu1 : u < 1) {S : FitState K gs} {π : Idx gs → K} (hp : PriorMass E.cell S.prior π)
    (hR : ResetFree tm ∨ S.prior.isArray = false ∧ ∃ r, ({ E with prior := S.prior } : Env K gs).resetArr = some r)
    {eP eL e : ℕ} {a' : Idx gs → K} (ha : ∀ x, Acc u eP (π x / E.cell) (a' x)) {liks liks' : List (Idx gs → K)} {ts : List K} (hl : List.Forall₂ (fun L L' => ∀ x, Acc u eL (L x) (L' x)) liks liks')
    {pr0 : PriorSpec K gs} {a : Arr K gs} (hc : computePrior { E with prior := S.prior } = .ok (a, pr0)) {f : FwdOut K gs} (hf : fwdPass E tm pr0.isArray pr0 a liks ts = .ok f)
    {ss' : List (Step K gs)} {st : Bool} (h' : RFwd { E with prior := S.prior } tm u e a' liks' ts ss' st) :
    f.stopped = st ∧ (S.prior.isArray = false → f.prior = S.prior) ∧ StepsAcc u (Fintype.card (Idx gs)) eL (elements tm * e) eP 1 1 f.steps ss' := by
  have := hE.nonempty
  have hcell : 0 < E.cell := cell_pos hE.lattice_pos
  obtain ⟨pr, h1, h2, h3⟩ := computePrior_mass (E := { E with prior := S.prior }) hcell hp
  rw [hc, Except.ok.injEq, Prod.mk.injEq] at h1
  obtain ⟨rfl, rfl⟩ := h1
  have h2 : pr0.isArray = S.prior.isArray := h2
  have h3 : S.prior.isArray = false → pr0 = S.prior := h3
  obtain ⟨k1, k2, k3⟩ := fwd_acc (E := E) (E' := { E with prior := S.prior }) ⟨hE.gauss, rfl, rfl, rfl⟩ hu hu1 hL h' hl (al := pr0.isArray) (pr := pr0)
    (hR.imp id fun h => ⟨h2.trans h.1, (h3 h.1).symm, by rw [h3 h.1]; exact h.2⟩) one_pos one_pos (N := eP) (by
      intro x
      rw [one_mul, one_mul]
      have := ha x
      rwa [← one_div_mul_eq_div] at this) hf
  exact ⟨k1, fun h => (k2 (h2.trans h)).trans (h3 h), k3⟩

/-- accuracy of all results, in terms of `Acc` -/
theorem rounded_acc {E : Env K gs} {grid : (a : Fin d) → Fin (gs a) → K} (hE : Regular E) {tm : TM K} (hL : Linear E tm) (hu : 0 ≤ u) (hu1 : u < 1) {S A : FitState K gs} {π : Idx gs → K} (hp : PriorMass E.cell S.prior π)
    (hR : ResetFree tm ∨ S.prior.isArray = false ∧ ∃ r, ({ E with prior := S.prior } : Env K gs).resetArr = some r)
    {eP eL e : ℕ} {a' : Idx gs → K} (ha : ∀ x, Acc u eP (π x / E.cell) (a' x)) {c' : K} (hc' : Acc u eP E.cell c')
    {liks liks' : List (Idx gs → K)} {ts : List K} (hl : List.Forall₂ (fun L L' => ∀ x, Acc u eL (L x) (L' x)) liks liks')
    {fo : Bool} (hfit : fit E grid tm liks ts fo false S = .ok A) (hev : A.logEv.exp ≠ 0) {posts : List (Idx gs → K)} {norms : List K}
    (h' : RFit { E with prior := S.prior } tm u e a' liks' ts fo posts norms) {N : ℕ} (hN : N = roundings liks.length (Fintype.card (Idx gs)) (elements tm) e eP eL) :
    List.Forall₂ (fun c p' => ∃ p, c = Cell.val p ∧ ∀ x, Acc u N (p x) (p' x)) A.posts posts ∧ (∀ a, A.means a = A.posts.filterMap fun c => c.get?.map (mean grid a)) ∧
      Acc u N A.logEv.exp (norms.prod * c') ∧ norms.length = liks.length := by
  have := hE.nonempty
  obtain ⟨ss', h1, h2, h3⟩ := h'
  rw [roundings, Nat.add_one_mul liks.length] at hN
  unfold fit at hfit
  generalize hc : computePrior { E with prior := S.prior } = cp at hfit
  cases cp with
  | error _ => simp [bind, Except.bind] at hfit
  | ok cp =>
    obtain ⟨a, pr0⟩ := cp
    simp only [bind, Except.bind] at hfit
    generalize hf : fwdPass E tm pr0.isArray pr0 a liks ts = f at hfit
    cases f with
    | error _ => simp at hfit
    | ok f =>
      obtain ⟨k1, k2, k3⟩ := rounded_core hE hL hu hu1 hp hR ha hl hc hf h1
      have hlen2 : f.steps.length = liks.length := by rw [← k3.length, h1.length rfl, hl.length_eq]
      have hev' : ∀ {x : LogV K}, x = sumLog E f.steps → Acc u N x.exp (norms.prod * c') := by
        rintro x rfl
        rw [sumLog_exp, h2]
        have k4 := StepsAcc.prod hu hu1 (Acc.refl hu hu1 zero_le_one eP) k3
        rw [one_mul, one_mul, hlen2] at k4
        exact (k4.mul hu1 hc').mono hu hu1 (by omega)
      have hnl : norms.length = liks.length := by rw [h2, List.length_map, k3.length, hlen2]
      dsimp only at hfit
      rw [k1] at hfit
      simp only [Bool.false_eq_true, if_false] at hfit
      cases fo with
      | true =>
          simp only [if_true, Except.ok.injEq] at hfit h3
          subst hfit h3
          refine ⟨?_, ?_, hev' rfl, hnl⟩
          · dsimp only
            have k4 := k3.alpha hu hu1 one_pos one_pos (C := N) (by rw [hlen2]; omega)
            rw [List.forall₂_map_left_iff, List.forall₂_map_right_iff]
            exact k4.imp fun s s' h => ⟨_, rfl, h⟩
          · intro a
            dsimp only
            rw [List.filterMap_map, ← List.filterMap_eq_map]
            rfl
      | false =>
          simp only [Bool.false_eq_true, if_false] at hfit h3
          obtain ⟨β, hβ⟩ := h3
          generalize hb : bwdPass { E with prior := f.prior } tm f.steps = b at hfit
          cases b with
          | error _ => simp at hfit
          | ok b =>
            dsimp only at hfit
            split_ifs at hfit with hst
            · simp only [Except.ok.injEq] at hfit
              subst hfit
              exact absurd rfl hev
            · simp only [Except.ok.injEq] at hfit
              subst hfit
              refine ⟨?_, fun a => rfl, hev' rfl, hnl⟩
              refine (bwd_acc (E := { E with prior := f.prior }) (E' := { E with prior := S.prior }) ⟨hE.gauss, rfl, rfl, rfl⟩ hu hu1 (linear_prior _ tm hL)
                (hR.imp id fun h => ⟨(k2 h.1).symm, by rw [k2 h.1]; exact h.2⟩) hβ one_pos one_pos k3 ?_ hb (by simpa using hst)).1
              rw [hlen2]
              omega

/-- **C104.** Floating-point arithmetic.  Let `A` be the result of `fit` in exact arithmetic, with non-zero evidence, and let all operations of another run return results with a relative error of at most
`u` (prior and cell volume: `eP` roundings, likelihood values: `eL` roundings, elementary transitions: `e` roundings, sums in any order).  Then every posterior probability has a relative error of at most
`N u / (1 - N u)`, also probabilities far below one; so has the product of the normalisation constants, of which the log-evidence is the logarithm; and every mean value is accurate to
`N' u / (1 - N' u)` times the mean of the absolute value of the parameter.  `N` grows linearly with the number of time steps. -/
theorem C104 {E : Env K gs} {grid : (a : Fin d) → Fin (gs a) → K} (hE : Regular E) {tm : TM K} (hL : Linear E tm) {S A : FitState K gs} {π : Idx gs → K} (hp : PriorMass E.cell S.prior π)
    (hR : ResetFree tm ∨ S.prior.isArray = false ∧ ∃ r, ({ E with prior := S.prior } : Env K gs).resetArr = some r)
    (hu : 0 ≤ u) {eP eL e : ℕ} {a' : Idx gs → K} (ha : ∀ x, Acc u eP (π x / E.cell) (a' x)) {c' : K} (hc' : Acc u eP E.cell c')
    {liks liks' : List (Idx gs → K)} {ts : List K} (hl : List.Forall₂ (fun L L' => ∀ x, Acc u eL (L x) (L' x)) liks liks')
    {fo : Bool} (hfit : fit E grid tm liks ts fo false S = .ok A) (hev : A.logEv.exp ≠ 0) {posts : List (Idx gs → K)} {norms : List K}
    (h' : RFit { E with prior := S.prior } tm u e a' liks' ts fo posts norms) {N N' : ℕ} (hN : N = roundings liks.length (Fintype.card (Idx gs)) (elements tm) e eP eL)
    (hN' : N' = N + 1 + Fintype.card (Idx gs)) (hNu : N' * u < 1) :
    A.posts.length = posts.length ∧
      (∀ (i : ℕ) (c : Cell (Idx gs → K)) (p' : Idx gs → K), A.posts[i]? = some c → posts[i]? = some p' → ∃ p, c = Cell.val p ∧ (∀ x, |p' x - p x| ≤ gam N u * p x) ∧
        ∀ a m m', (A.means a)[i]? = some m → RMean u grid a p' m' → |m' - m| ≤ gam N' u * ∑ x, p x * |grid a (x a)|) ∧
      |norms.prod * c' - A.logEv.exp| ≤ gam N u * A.logEv.exp := by
  have hu1 : u < 1 := u_lt_one hu (N := N') (by omega) hNu
  have hNu' : (N : K) * u < 1 := by
    refine lt_of_le_of_lt (mul_le_mul_of_nonneg_right ?_ hu) hNu
    exact_mod_cast (by omega : N ≤ N')
  obtain ⟨h1, h2, h3, -⟩ := rounded_acc hE hL hu hu1 hp hR ha hc' hl hfit hev h' hN
  refine ⟨h1.length_eq, fun i c p' hc hp' => ?_, h3.gam hu hu1 hNu'⟩
  obtain ⟨hi, hci⟩ := List.getElem?_eq_some_iff.1 hc
  obtain ⟨hi', hpi⟩ := List.getElem?_eq_some_iff.1 hp'
  obtain ⟨p, hcp, h4⟩ := (List.forall₂_iff_get.1 h1).2 i hi hi'
  simp only [List.get_eq_getElem, hci, hpi] at hcp h4
  refine ⟨p, hcp, fun x => (h4 x).gam hu hu1 hNu', fun a m m' hm hm' => ?_⟩
  have h5 : A.means a = A.posts.map fun c => mean grid a (c.get?.getD 0) := by
    rw [h2]
    have : ∀ c ∈ A.posts, c.get?.map (mean grid a) = some (mean grid a (c.get?.getD 0)) := by
      intro c hc
      obtain ⟨j, hj, rfl⟩ := List.getElem_of_mem hc
      obtain ⟨q, hq, -⟩ := (List.forall₂_iff_get.1 h1).2 j hj (by rw [← h1.length_eq]; exact hj)
      simp only [List.get_eq_getElem] at hq
      rw [hq]; rfl
    rw [List.filterMap_congr this, List.filterMap_eq_map']
  rw [h5, List.getElem?_map, hc, hcp] at hm
  simp only [Option.map_some, Cell.get?, Option.getD_some, Option.some.injEq] at hm
  subst hm
  subst hN'
  exact mean_acc hu hu1 h4 hm' hNu

/-- **C104 (impossible data).** The run with rounding errors finds a vanishing normalisation constant if and only if the evidence is zero in exact arithmetic: rounding does not make possible data
impossible, or the other way round. -/
theorem C104_stop {E : Env K gs} {grid : (a : Fin d) → Fin (gs a) → K} (hE : Regular E) {tm : TM K} (hL : Linear E tm) {S A : FitState K gs} {π : Idx gs → K} (hp : PriorMass E.cell S.prior π)
    (hR : ResetFree tm ∨ S.prior.isArray = false ∧ ∃ r, ({ E with prior := S.prior } : Env K gs).resetArr = some r)
    (hu : 0 ≤ u) (hu1 : u < 1) {eP eL e : ℕ} {a' : Idx gs → K} (ha : ∀ x, Acc u eP (π x / E.cell) (a' x)) {liks liks' : List (Idx gs → K)} {ts : List K}
    (hl : List.Forall₂ (fun L L' => ∀ x, Acc u eL (L x) (L' x)) liks liks') {fo : Bool} (hfit : fit E grid tm liks ts fo true S = .ok A) {steps : List (Step K gs)} {stopped : Bool}
    (h' : RFwd { E with prior := S.prior } tm u e a' liks' ts steps stopped) : stopped = true ↔ A.logEv.exp = 0 := by
  have hcell : 0 < E.cell := cell_pos hE.lattice_pos
  unfold fit at hfit
  generalize hc : computePrior { E with prior := S.prior } = cp at hfit
  cases cp with
  | error _ => simp [bind, Except.bind] at hfit
  | ok cp =>
    obtain ⟨a, pr0⟩ := cp
    simp only [bind, Except.bind] at hfit
    generalize hf : fwdPass E tm pr0.isArray pr0 a liks ts = f at hfit
    cases f with
    | error _ => simp at hfit
    | ok f =>
      obtain ⟨k1, -, k3⟩ := rounded_core hE hL hu hu1 hp hR ha hl hc hf h'
      dsimp only at hfit
      cases stopped with
      | true =>
          rw [k1] at hfit
          simp only [if_true, Except.ok.injEq] at hfit
          subst hfit
          exact ⟨fun _ => rfl, fun _ => rfl⟩
      | false =>
          rw [k1] at hfit
          simp only [Bool.false_eq_true, if_false, if_true, Except.ok.injEq] at hfit
          subst hfit
          have : 0 < normProd f.steps := by
            have key : ∀ (ss ss' : List (Step K gs)) (N : ℕ) (Z Z' : K), StepsAcc u (Fintype.card (Idx gs)) eL (elements tm * e) N Z Z' ss ss' → 0 < normProd ss := by
              intro ss
              induction ss with
              | nil => intro _ _ _ _ _; simp [normProd]
              | cons s ss ih =>
                  intro ss' N Z Z' h
                  cases ss' with
                  | nil => simp [StepsAcc] at h
                  | cons s' ss' =>
                      rw [StepsAcc] at h
                      have := ih _ _ _ _ h.2.2.2.2.2.2
                      rw [normProd] at *
                      rw [List.map_cons, List.prod_cons]
                      exact mul_pos h.1 this
            exact key _ _ _ _ _ k3
          simp only [Bool.false_eq_true, false_iff]
          rw [sumLog_exp]
          exact (mul_pos this hcell).ne'

/-- the logarithm of the evidence, computed as a sum of logarithms -/
theorem log_acc {u : ℝ} (hu : 0 ≤ u) {N T : ℕ} {ev c' : ℝ} {norms : List ℝ} (hA : 0 < ev) (h3 : Acc u N ev (norms.prod * c')) (h4 : norms.length = T) (hN1 : T + 1 ≤ N) (hNu : N * u < 1)
    {l : ℝ} (hlog : RLogEv Real.log u norms c' l) : |l - Real.log ev| ≤ N * (u / (1 - u)) + gam (T + 1) u * ((norms.map fun n => |Real.log n|).sum + |Real.log c'|) := by
  have hu1 : u < 1 := u_lt_one hu (N := N) (by omega) hNu
  have hB : 0 < norms.prod * c' := h3.pos hu1 hA
  have hv : 0 < 1 - u := by linarith
  -- error of the evidence
  have hb : |Real.log (norms.prod * c') - Real.log ev| ≤ N * (u / (1 - u)) := by
    have hlog1 : -(u / (1 - u)) ≤ Real.log (1 - u) := by
      have := Real.one_sub_inv_le_log_of_pos hv
      have e : 1 - (1 - u)⁻¹ = -(u / (1 - u)) := by field_simp; ring
      linarith
    have hlogN : -(N * (u / (1 - u))) ≤ Real.log ((1 - u) ^ N) := by
      rw [Real.log_pow]
      have := mul_le_mul_of_nonneg_left hlog1 (Nat.cast_nonneg (α := ℝ) N)
      linarith
    have hp : 0 < (1 - u) ^ N := pow_pos hv N
    have h5 := Real.log_le_log (mul_pos hp hA) h3.lower
    have h6 := Real.log_le_log (mul_pos hp hB) h3.upper
    rw [Real.log_mul hp.ne' hA.ne'] at h5
    rw [Real.log_mul hp.ne' hB.ne'] at h6
    rw [abs_le]
    constructor <;> linarith
  -- rounding of the sum
  obtain ⟨ls, h5, h6⟩ := hlog
  have hlen : ls.length = T + 1 := by rw [← h5.length_eq, List.length_append, h4]; rfl
  have hsum : ∀ (ns ls : List ℝ), List.Forall₂ (fun n x => Rounded u (Real.log n) x) ns ls → |ls.sum - (ns.map Real.log).sum| ≤ u * (ns.map fun n => |Real.log n|).sum ∧
      (ls.map fun a => |a|).sum ≤ (1 + u) * (ns.map fun n => |Real.log n|).sum := by
    intro ns ls h
    induction h with
    | nil => simp
    | @cons n x ns ls h _ ih =>
        rw [Rounded] at h
        simp only [List.sum_cons, List.map_cons]
        have h7 := abs_add_le (x - Real.log n) (ls.sum - (ns.map Real.log).sum)
        have h8 := abs_sub_abs_le_abs_sub x (Real.log n)
        rw [show x + ls.sum - (Real.log n + (ns.map Real.log).sum) = x - Real.log n + (ls.sum - (ns.map Real.log).sum) by ring]
        constructor <;> nlinarith [ih.1, ih.2]
  obtain ⟨h7, h8⟩ := hsum _ _ h5
  have hlogs : ∀ (ns : List ℝ), ns.prod ≠ 0 → (ns.map Real.log).sum = Real.log ns.prod := by
    intro ns
    induction ns with
    | nil => simp
    | cons n ns ih =>
        intro h
        rw [List.prod_cons] at h ⊢
        rw [List.map_cons, List.sum_cons, ih (right_ne_zero_of_mul h), Real.log_mul (left_ne_zero_of_mul h) (right_ne_zero_of_mul h)]
  have hpr : (norms ++ [c']).prod = norms.prod * c' := by simp
  rw [hlogs _ (by rw [hpr]; exact hB.ne'), hpr] at h7
  have h9 := h6.err hu hu1 (G := T) (by simp [hlen])
  simp only [Multiset.sum_coe, Multiset.map_coe] at h9
  obtain ⟨W, hW⟩ : ∃ W, W = ((norms ++ [c']).map fun n => |Real.log n|).sum := ⟨_, rfl⟩
  have hW' : W = (norms.map fun n => |Real.log n|).sum + |Real.log c'| := by rw [hW]; simp
  rw [← hW'] 
  rw [← hW] at h7 h8
  have hW0 : 0 ≤ W := by
    rw [hW]
    refine List.sum_nonneg fun a ha => ?_
    obtain ⟨b, -, rfl⟩ := List.mem_map.1 ha
    exact abs_nonneg _
  have hG0 : 0 ≤ 1 / (1 - u) ^ T - 1 := by
    have : 1 ≤ 1 / (1 - u) ^ T := one_le_one_div (pow_pos hv _) (pow_le_one₀ hv.le (by linarith))
    linarith
  have hNu1 : ((T + 1 : ℕ) : ℝ) * u < 1 := lt_of_le_of_lt (mul_le_mul_of_nonneg_right (by exact_mod_cast hN1) hu) hNu
  have h10 := mul_le_mul_of_nonneg_right (inv_pow_le_gam hu hu1 hNu1) hW0
  have h11 : 1 + u ≤ 1 / (1 - u) := by rw [le_div_iff₀ hv]; nlinarith
  have h12 : 1 / (1 - u) ^ (T + 1) = (1 / (1 - u) ^ T - 1) * (1 / (1 - u)) + 1 / (1 - u) := by rw [pow_succ]; field_simp; ring
  have h13 := mul_le_mul_of_nonneg_left h8 hG0
  have h14 : (1 / (1 - u) ^ T - 1) * ((1 + u) * W) ≤ (1 / (1 - u) ^ T - 1) * (1 / (1 - u) * W) :=
    mul_le_mul_of_nonneg_left (mul_le_mul_of_nonneg_right h11 hW0) hG0
  have h15 := mul_le_mul_of_nonneg_right h11 hW0
  rw [h12] at h10
  have h16 : |l - Real.log ev| ≤ |l - ls.sum| + |ls.sum - Real.log (norms.prod * c')| + |Real.log (norms.prod * c') - Real.log ev| := by
    refine (abs_sub_le _ (Real.log (norms.prod * c')) _).trans ?_
    have := abs_sub_le l ls.sum (Real.log (norms.prod * c'))
    linarith
  nlinarith

/-- **C104 (log-evidence).** The reported log-evidence: the error of the evidence, which amounts to at most `N u / (1 - u)` in the logarithm, plus the rounding errors of the logarithms and of their sum. -/
theorem C104_log {gs : Fin d → ℕ} {u : ℝ} {E : Env ℝ gs} {grid : (a : Fin d) → Fin (gs a) → ℝ} (hE : Regular E) {tm : TM ℝ} (hL : Linear E tm) {S A : FitState ℝ gs} {π : Idx gs → ℝ}
    (hp : PriorMass E.cell S.prior π) (hR : ResetFree tm ∨ S.prior.isArray = false ∧ ∃ r, ({ E with prior := S.prior } : Env ℝ gs).resetArr = some r)
    (hu : 0 ≤ u) {eP eL e : ℕ} {a' : Idx gs → ℝ} (ha : ∀ x, Acc u eP (π x / E.cell) (a' x)) {c' : ℝ} (hc' : Acc u eP E.cell c')
    {liks liks' : List (Idx gs → ℝ)} {ts : List ℝ} (hl : List.Forall₂ (fun L L' => ∀ x, Acc u eL (L x) (L' x)) liks liks')
    {fo : Bool} (hfit : fit E grid tm liks ts fo false S = .ok A) (hev : A.logEv.exp ≠ 0) {posts : List (Idx gs → ℝ)} {norms : List ℝ}
    (h' : RFit { E with prior := S.prior } tm u e a' liks' ts fo posts norms) {N : ℕ} (hN : N = roundings liks.length (Fintype.card (Idx gs)) (elements tm) e eP eL) (hNu : N * u < 1)
    {l : ℝ} (hlog : RLogEv Real.log u norms c' l) :
    |l - Real.log A.logEv.exp| ≤ N * (u / (1 - u)) + gam (liks.length + 1) u * ((norms.map fun n => |Real.log n|).sum + |Real.log c'|) := by
  have hN1 : liks.length + 1 ≤ N := by
    rw [hN, roundings]
    have := hE.nonempty
    nlinarith [Nat.zero_le (liks.length * eL), Nat.zero_le (liks.length * Fintype.card (Idx gs)), Nat.zero_le (liks.length * (elements tm * e)), Nat.zero_le (elements tm * e)]
  have hu1 : u < 1 := u_lt_one hu (N := N) (by omega) hNu
  obtain ⟨-, -, h3, h4⟩ := rounded_acc hE hL hu hu1 hp hR ha hc' hl hfit hev h' hN
  exact log_acc hu (lt_of_le_of_ne h3.left (Ne.symm hev)) h3 h4 hN1 hNu hlog

/-- **C104 (Bayesian inference).** Together with C01 and C04: for models without resets and unit-spaced timestamps, the floating-point run yields the conditional probabilities of the parameter given all
data and the probability of the data, as sums over all parameter paths, with a relative error of at most `N u / (1 - N u)`. -/
theorem C104_bayes {E : Env K gs} (hE : Regular E) {tm : TM K} (hL : Linear E tm) (hR : ResetFree tm) {S : FitState K gs} {π : Idx gs → K} (hp : PriorMass E.cell S.prior π)
    (hu : 0 ≤ u) {eP eL e : ℕ} {a' : Idx gs → K} (ha : ∀ x, Acc u eP (π x / E.cell) (a' x)) {c' : K} (hc' : Acc u eP E.cell c')
    {n : ℕ} {L : Fin (n + 1) → Idx gs → K} {liks' : List (Idx gs → K)} (hl : List.Forall₂ (fun L L' => ∀ x, Acc u eL (L x) (L' x)) (List.ofFn L) liks')
    {τ : Fin (n + 1) → K} (hU : ∀ i : Fin n, τ i.succ = τ i.castSucc + 1) (hpos : evidence π (fun i : Fin n => kernel E π tm (τ i.castSucc)) L ≠ 0) {posts : List (Idx gs → K)} {norms : List K}
    (h' : RFit { E with prior := S.prior } tm u e a' liks' (List.ofFn τ) false posts norms) {N : ℕ} (hN : N = roundings (n + 1) (Fintype.card (Idx gs)) (elements tm) e eP eL) (hNu : N * u < 1) :
    posts.length = n + 1 ∧ (∀ (i : Fin (n + 1)) (p' : Idx gs → K), posts[i.val]? = some p' →
        ∀ x, |p' x - posterior π (fun i : Fin n => kernel E π tm (τ i.castSucc)) L i x| ≤ gam N u * posterior π (fun i : Fin n => kernel E π tm (τ i.castSucc)) L i x) ∧
      |norms.prod * c' - evidence π (fun i : Fin n => kernel E π tm (τ i.castSucc)) L| ≤ gam N u * evidence π (fun i : Fin n => kernel E π tm (τ i.castSucc)) L := by
  have hL0 : ∀ i x, 0 ≤ L i x := by
    intro i x
    have := (List.forall₂_iff_get.1 hl).2 i.val (by rw [List.length_ofFn]; exact i.isLt) (by rw [← hl.length_eq, List.length_ofFn]; exact i.isLt) x
    simpa using this.left
  have hN1 : 1 ≤ N := by rw [hN, roundings]; nlinarith [Nat.zero_le ((n + 1) * (eL + 2 + Fintype.card (Idx gs) + elements tm * e)), Nat.zero_le (elements tm * e)]
  have hu1 : u < 1 := u_lt_one hu hN1 hNu
  let grid : (a : Fin d) → Fin (gs a) → K := fun _ _ => 0
  obtain ⟨A, h1, h2⟩ := C04_smoothing E grid tm hE hL S π hp (Or.inl hR) L hL0 τ hU hpos
  obtain ⟨A', h3, h4⟩ := C01_evidence_is_path_sum E grid tm hE hL hR S π hp L hL0 τ false false (Or.inr (Or.inr hU))
  rw [h1, Except.ok.injEq] at h3
  subst h3
  obtain ⟨k1, -, k3, -⟩ := rounded_acc (N := N) hE hL hu hu1 hp (Or.inl hR) ha hc' hl h1 (by rw [h4]; exact hpos) h' (by rw [List.length_ofFn]; exact hN)
  rw [h4] at k3
  rw [h2] at k1
  refine ⟨by rw [← k1.length_eq, List.length_ofFn], fun i p' hp' x => ?_, k3.gam hu hu1 hNu⟩
  obtain ⟨hi, hpi⟩ := List.getElem?_eq_some_iff.1 hp'
  obtain ⟨p, hp1, hp2⟩ := (List.forall₂_iff_get.1 k1).2 i.val (by rw [List.length_ofFn]; exact i.isLt) hi
  simp only [List.get_eq_getElem, List.getElem_ofFn, Fin.eta, Cell.val.injEq] at hp1 hp2
  rw [hpi] at hp2
  rw [← hp1] at hp2
  exact (hp2 x).gam hu hu1 hNu

/-- sums of two numbers -/
theorem _root_.Ex.rsum2 {u a b s : ℚ} (h : Rounded u (a + b) s) : RSumGrid u (Ex.v2 a b) s := by
  have hu : (Finset.univ : Finset (Idx Ex.gs2)).val = {fun _ => ⟨0, by simp [Ex.gs2]⟩} + {fun _ => ⟨1, by simp [Ex.gs2]⟩} := by decide +kernel
  rw [RSumGrid, hu, Multiset.map_add, Multiset.map_singleton, Multiset.map_singleton]
  exact .add (.single _) (.single _) h

instance {u a b : ℚ} : Decidable (Rounded u a b) := inferInstanceAs (Decidable (_ ≤ _))

instance {u a b : ℚ} {N : ℕ} : Decidable (Acc u N a b) := decidable_of_iff (0 ≤ a ∧ 0 ≤ b ∧ (1 - u) ^ N * a ≤ b ∧ (1 - u) ^ N * b ≤ a)
  ⟨fun h => ⟨h.1, h.2.1, h.2.2.1, h.2.2.2⟩, fun h => ⟨h.left, h.right, h.lower, h.upper⟩⟩

/-- a run in decimal arithmetic with three digits: `u = 1/200` -/
theorem _root_.Ex.threeDigits : RFit { Ex.env Ex.gs2 (1 / 2) with prior := (Ex.S0 (gs := Ex.gs2) .none).prior } Ex.static (1 / 200 : ℚ) 0 (Ex.v2 1 1) [(Ex.v2 (1) (2)), (Ex.v2 (5) (3))] [0, 1] false
    [(Ex.v2 (227/500) (273/500)), (Ex.v2 (227/500) (273/500))] [3, 183/50] := by
  refine ⟨[⟨(Ex.v2 (333/1000) (667/1000)), 3, (Ex.v2 (1) (2)), 0⟩, ⟨(Ex.v2 (227/500) (273/500)), 183/50, (Ex.v2 (5) (3)), 1⟩], ?_, rfl, ?_⟩
  · exact .step (a' := (Ex.v2 (1) (2))) (norm := 3) (α := (Ex.v2 (333/1000) (667/1000))) (b := (Ex.v2 (333/1000) (667/1000))) (by decide +kernel) (Ex.rsum2 (by decide +kernel)) (by norm_num) (by decide +kernel) ⟨_, rfl, by decide +kernel⟩
      (.step (a' := (Ex.v2 (83/50) (2))) (norm := 183/50) (α := (Ex.v2 (227/500) (273/500))) (b := (Ex.v2 (227/500) (273/500))) (by decide +kernel) (Ex.rsum2 (by decide +kernel)) (by norm_num) (by decide +kernel) ⟨_, rfl, by decide +kernel⟩
      (.done _ _))
  · rw [if_neg (by decide)]
    exact ⟨(Ex.v2 (453/1000) (543/1000)), .step (q := (Ex.v2 (26/125) (1/4))) (norm := 229/500) (post := (Ex.v2 (227/500) (273/500))) (l := (Ex.v2 (5/8) (3/4))) (b := (Ex.v2 (5/8) (3/4))) (norm' := 69/50) (β' := (Ex.v2 (453/1000) (543/1000))) (.step (q := (Ex.v2 (227/1000) (273/1000))) (norm := 1/2) (post := (Ex.v2 (227/500) (273/500))) (l := (Ex.v2 (5/2) (3/2))) (b := (Ex.v2 (5/2) (3/2))) (norm' := 4) (β' := (Ex.v2 (5/8) (3/8))) (.start (s := 2) (β := (Ex.v2 (1/2) (1/2))) (by rw [show (fun _ : Idx Ex.gs2 => (1 : ℚ)) = Ex.v2 1 1 by decide +kernel]; exact Ex.rsum2 (by decide +kernel)) (by decide +kernel))
      (by decide +kernel) (Ex.rsum2 (by decide +kernel)) (by norm_num) (by decide +kernel) (by decide +kernel) ⟨_, rfl, by decide +kernel⟩ (Ex.rsum2 (by decide +kernel)) (by decide +kernel))
      (by decide +kernel) (Ex.rsum2 (by decide +kernel)) (by norm_num) (by decide +kernel) (by decide +kernel) ⟨_, rfl, by decide +kernel⟩ (Ex.rsum2 (by decide +kernel)) (by decide +kernel)⟩

/-- The hypotheses are met: a run with two data points in decimal arithmetic with three digits. -/
example : |(3 * (183 / 50) * (1 / 2) : ℚ) - evidence (fun _ => 1 / (Fintype.card (Idx Ex.gs2) : ℚ)) (fun i : Fin 1 => kernel (Ex.env Ex.gs2 (1 / 2)) (fun _ => 1 / (Fintype.card (Idx Ex.gs2) : ℚ)) Ex.static
      (![(0 : ℚ), 1] i.castSucc)) ![Ex.v2 1 2, Ex.v2 5 3]| ≤
    gam 24 (1 / 200) * evidence (fun _ => 1 / (Fintype.card (Idx Ex.gs2) : ℚ)) (fun i : Fin 1 => kernel (Ex.env Ex.gs2 (1 / 2)) (fun _ => 1 / (Fintype.card (Idx Ex.gs2) : ℚ)) Ex.static
      (![(0 : ℚ), 1] i.castSucc)) ![Ex.v2 1 2, Ex.v2 5 3] := by
  have := (C104_bayes (E := Ex.env Ex.gs2 (1 / 2)) (tm := Ex.static) (S := Ex.S0 .none) (u := 1 / 200) (eP := 0) (eL := 0) (e := 0) (a' := Ex.v2 1 1) (c' := 1 / 2) (n := 1)
    (L := ![Ex.v2 1 2, Ex.v2 5 3]) (liks' := [Ex.v2 1 2, Ex.v2 5 3]) (τ := ![0, 1]) (N := 24) (Ex.regular2 (by norm_num)) (by simp [Ex.static, Linear]) (by simp [Ex.static, ResetFree]) .flat (by norm_num)
    (by decide +kernel) (by decide +kernel) (.cons (by decide +kernel) (.cons (by decide +kernel) .nil)) (by decide +kernel) (by decide +kernel) Ex.threeDigits (by decide +kernel) (by norm_num)).2.2
  simpa using this

/-- … and of the theorem about `fit` -/
example : ∃ A, fit (Ex.env Ex.gs2 (1 / 2)) (Ex.grid Ex.gs2) Ex.static [Ex.v2 1 2, Ex.v2 5 3] [0, 1] false false (Ex.S0 .none) = .ok A ∧ A.posts.length = 2 ∧
    |(3 * (183 / 50) * (1 / 2) : ℚ) - A.logEv.exp| ≤ gam 24 (1 / 200) * A.logEv.exp := by
  obtain ⟨A, h1, h2⟩ := Ex.ok_of_ev (r := fit (Ex.env Ex.gs2 (1 / 2)) (Ex.grid Ex.gs2) Ex.static [Ex.v2 1 2, Ex.v2 5 3] [0, 1] false false (Ex.S0 .none)) (by decide +kernel)
  have := C104 (grid := Ex.grid Ex.gs2) (u := 1 / 200) (eP := 0) (eL := 0) (e := 0) (a' := Ex.v2 1 1) (c' := 1 / 2) (N := 24) (N' := 27) (Ex.regular2 (by norm_num)) (tm := Ex.static) (by simp [Ex.static, Linear]) .flat
    (Or.inl (by simp [Ex.static, ResetFree])) (by norm_num) (by decide +kernel) (by decide +kernel) (.cons (by decide +kernel) (.cons (by decide +kernel) .nil)) h1 (fun h => h2 (LogV.ext_exp h)) Ex.threeDigits
    (by decide +kernel) (by decide +kernel) (by norm_num)
  exact ⟨A, h1, this.1, by simpa using this.2.2⟩

/-- impossible data: the run with rounding errors stops -/
example : RFwd (Ex.env Ex.gs2 (1 / 2)) Ex.static (1 / 200 : ℚ) 0 (Ex.v2 1 1) [Ex.v2 1 0, Ex.v2 0 3] [0, 1] [⟨Ex.v2 1 0, 1, Ex.v2 1 0, 0⟩] true :=
  .step (a' := Ex.v2 1 0) (norm := 1) (α := Ex.v2 1 0) (b := Ex.v2 1 0) (by decide +kernel) (Ex.rsum2 (by decide +kernel)) (by norm_num) (by decide +kernel) ⟨_, rfl, by decide +kernel⟩
    (.stop (a' := Ex.v2 0 0) (norm := 0) (by decide +kernel) (Ex.rsum2 (by decide +kernel)) (by norm_num))

/-- the hypotheses of `C104_log`: one data point, three digits -/
example : ∃ A : FitState ℝ Ex.gs2, fit ⟨fun _ => "x", fun _ => 1 / 2, .none, realExt 2 fun _ _ p => p⟩ (fun _ _ => 0) (.leaf .static [] [] none) [fun x => if (x 0).val = 0 then 1 else 2] [0] true false
      (FitState.init .none) = .ok A ∧ |Real.log 3 + Real.log (1 / 2) - Real.log A.logEv.exp| ≤ 16 * (1 / 200 / (1 - 1 / 200)) + gam 2 (1 / 200) * (|Real.log 3| + |Real.log (1 / 2)|) := by
  obtain ⟨E, hEd⟩ : ∃ E : Env ℝ Ex.gs2, E = ⟨fun _ => "x", fun _ => 1 / 2, .none, realExt 2 fun _ _ p => p⟩ := ⟨_, rfl⟩
  obtain ⟨L, hLd⟩ : ∃ L : Idx Ex.gs2 → ℝ, L = fun x => if (x 0).val = 0 then 1 else 2 := ⟨_, rfl⟩
  rw [← hEd, ← hLd]
  have hE : Regular E := by
    rw [hEd]
    exact ⟨fun _ => by norm_num, ⟨fun _ => ⟨0, by simp [Ex.gs2]⟩⟩, realExt_gaussOK _ _⟩
  have hL : Linear E (.leaf .static [] [] none) := by simp [Linear]
  have hR : ResetFree (.leaf .static [] [] none : TM ℝ) := by simp [ResetFree]
  have hcell : E.cell = 1 / 2 := by rw [hEd]; simp [Env.cell]
  have hcard : (Fintype.card (Idx Ex.gs2) : ℝ) = 2 := by
    have : Fintype.card (Idx Ex.gs2) = 2 := by decide +kernel
    rw [this]; norm_num
  have hL0 : ∀ x, 0 < L x := by intro x; rw [hLd]; dsimp only; split <;> norm_num
  obtain ⟨A, h1, h2⟩ := C01_evidence_is_path_sum E (fun _ _ => 0) (.leaf .static [] [] none) hE hL hR (FitState.init .none) _ .flat (n := 0) (fun _ => L) (fun _ x => (hL0 x).le) (fun _ => 0) true false (Or.inr (Or.inl rfl))
  have := hE.nonempty
  have hev : A.logEv.exp ≠ 0 := by
    rw [h2, evidence_zero]
    refine (Finset.sum_pos (fun x _ => ?_) Finset.univ_nonempty).ne'
    rw [hcard]
    exact mul_pos (by norm_num) (hL0 x)
  have hu : (Finset.univ : Finset (Idx Ex.gs2)).val = {fun _ => ⟨0, by simp [Ex.gs2]⟩} + {fun _ => ⟨1, by simp [Ex.gs2]⟩} := by decide +kernel
  have hacc : Acc (1 / 200 : ℝ) 0 (1 / 2) (1 / 2) := by constructor <;> norm_num
  have hs : RSumGrid (1 / 200) L 3 := by
    rw [RSumGrid, hu, Multiset.map_add, Multiset.map_singleton, Multiset.map_singleton]
    exact .add (.single _) (.single _) (by rw [Rounded, hLd]; norm_num)
  have hrun : RFit { E with prior := (FitState.init (gs := Ex.gs2) (.none : PriorSpec ℝ Ex.gs2)).prior } (.leaf .static [] [] none) (1 / 200) 0 (fun _ => 1) [L] [0] true
      [fun x => if (x 0).val = 0 then 333 / 1000 else 667 / 1000] [3] := by
    refine ⟨[⟨fun x => if (x 0).val = 0 then 333 / 1000 else 667 / 1000, 3, L, 0⟩], ?_, rfl, rfl⟩
    refine .step (a' := L) (b := fun x => if (x 0).val = 0 then 333 / 1000 else 667 / 1000) (fun x => ?_) hs (by norm_num) (fun x => ?_) ⟨_, rfl, fun x => ?_⟩ (.done _ _)
    · rw [Rounded]; simp
    · rw [Rounded, hLd]; dsimp only; split <;> rw [abs_le] <;> norm_num [abs_of_pos]
    · have h0 : (0 : ℝ) ≤ if (x 0).val = 0 then 333 / 1000 else 667 / 1000 := by split <;> norm_num
      exact Acc.refl (by norm_num) (by norm_num) h0 0
  refine ⟨A, by simpa using h1, ?_⟩
  have := C104_log (u := 1 / 200) (eP := 0) (eL := 0) (e := 0) (c' := 1 / 2) (N := 16) (l := Real.log 3 + Real.log (1 / 2)) hE hL .flat (Or.inl hR) (by norm_num) (a' := fun _ => 1)
    (fun x => by rw [hcell, hcard]; norm_num; exact Acc.refl (by norm_num) (by norm_num) zero_le_one 0) (by rw [hcell]; exact hacc)
    (.cons (fun x => Acc.refl (by norm_num) (by norm_num) (hL0 x).le 0) .nil) (by simpa using h1) hev hrun (by rw [elements, show Fintype.card (Idx Ex.gs2) = 2 by decide +kernel]; rfl) (by norm_num)
    ⟨[Real.log 3, Real.log (1 / 2)], .cons (by simp [Rounded]) (.cons (by simp [Rounded]) .nil), .add (.single _) (.single _) (by simp [Rounded])⟩
  simpa using this

end Props
