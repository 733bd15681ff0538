import Verif.Model.Rounding
import Verif.Lemmas.FitMain
import Mathlib.Algebra.Order.BigOperators.Group.Multiset
import Mathlib.Algebra.Order.BigOperators.Ring.Multiset
import Mathlib.Algebra.BigOperators.Ring.Multiset
import Mathlib.Tactic.Positivity
import Mathlib.Tactic.FieldSimp
import Mathlib.Tactic.Linarith
import Mathlib.Tactic.Ring

/-! # Rounding errors of `fit` -/

set_option linter.unusedSectionVars false

namespace BL
open Spec
variable {K : Type} [Field K] [LinearOrder K] [IsStrictOrderedRing K] {d : ℕ} {gs : Fin d → ℕ} {u : K}

namespace Acc

theorem refl (hu : 0 ≤ u) (hu1 : u < 1) {a : K} (ha : 0 ≤ a) (N : ℕ) : Acc u N a a := by
  have : (1 - u) ^ N ≤ 1 := pow_le_one₀ (by linarith) (by linarith)
  exact ⟨ha, ha, by nlinarith, by nlinarith⟩

theorem mono (hu : 0 ≤ u) (hu1 : u < 1) {a b : K} {N M : ℕ} (h : Acc u N a b) (hNM : N ≤ M) : Acc u M a b := by
  have : (1 - u) ^ M ≤ (1 - u) ^ N := pow_le_pow_of_le_one (by linarith) (by linarith) hNM
  exact ⟨h.left, h.right, (mul_le_mul_of_nonneg_right this h.left).trans h.lower, (mul_le_mul_of_nonneg_right this h.right).trans h.upper⟩

theorem trans (hu1 : u < 1) {a b c : K} {N M : ℕ} (h : Acc u N a b) (h' : Acc u M b c) : Acc u (N + M) a c := by
  have h0 : ∀ k, 0 ≤ (1 - u) ^ k := fun k => pow_nonneg (by linarith) k
  refine ⟨h.left, h'.right, ?_, ?_⟩
  · rw [pow_add]
    calc (1 - u) ^ N * (1 - u) ^ M * a = (1 - u) ^ M * ((1 - u) ^ N * a) := by ring
      _ ≤ (1 - u) ^ M * b := mul_le_mul_of_nonneg_left h.lower (h0 M)
      _ ≤ c := h'.lower
  · rw [pow_add]
    calc (1 - u) ^ N * (1 - u) ^ M * c = (1 - u) ^ N * ((1 - u) ^ M * c) := by ring
      _ ≤ (1 - u) ^ N * b := mul_le_mul_of_nonneg_left h'.upper (h0 N)
      _ ≤ a := h.upper

theorem mul (hu1 : u < 1) {a b c d : K} {N M : ℕ} (h : Acc u N a b) (h' : Acc u M c d) : Acc u (N + M) (a * c) (b * d) := by
  have h0 : ∀ k, 0 ≤ (1 - u) ^ k := fun k => pow_nonneg (by linarith) k
  refine ⟨mul_nonneg h.left h'.left, mul_nonneg h.right h'.right, ?_, ?_⟩
  · rw [pow_add]
    calc (1 - u) ^ N * (1 - u) ^ M * (a * c) = ((1 - u) ^ N * a) * ((1 - u) ^ M * c) := by ring
      _ ≤ b * d := mul_le_mul h.lower h'.lower (mul_nonneg (h0 M) h'.left) h.right
  · rw [pow_add]
    calc (1 - u) ^ N * (1 - u) ^ M * (b * d) = ((1 - u) ^ N * b) * ((1 - u) ^ M * d) := by ring
      _ ≤ a * c := mul_le_mul h.upper h'.upper (mul_nonneg (h0 M) h'.right) h.left

/-- quotient -/
theorem div (hu1 : u < 1) {a b c d : K} {N M : ℕ} (h : Acc u N a b) (h' : Acc u M c d) (hc : 0 < c) (hd : 0 < d) : Acc u (N + M) (a / c) (b / d) := by
  have h0 : ∀ k, 0 ≤ (1 - u) ^ k := fun k => pow_nonneg (by linarith) k
  refine ⟨div_nonneg h.left hc.le, div_nonneg h.right hd.le, ?_, ?_⟩
  · rw [mul_div_assoc', div_le_div_iff₀ hc hd, pow_add]
    calc (1 - u) ^ N * (1 - u) ^ M * a * d = ((1 - u) ^ N * a) * ((1 - u) ^ M * d) := by ring
      _ ≤ b * c := mul_le_mul h.lower h'.upper (mul_nonneg (h0 M) h'.right) h.right
  · rw [mul_div_assoc', div_le_div_iff₀ hd hc, pow_add]
    calc (1 - u) ^ N * (1 - u) ^ M * b * c = ((1 - u) ^ N * b) * ((1 - u) ^ M * c) := by ring
      _ ≤ a * d := mul_le_mul h.upper h'.lower (mul_nonneg (h0 M) h'.left) h.left

theorem pos (hu1 : u < 1) {a b : K} {N : ℕ} (h : Acc u N a b) (ha : 0 < a) : 0 < b :=
  (mul_pos (pow_pos (by linarith) N) ha).trans_le h.lower

theorem symm {a b : K} {N : ℕ} (h : Acc u N a b) : Acc u N b a := ⟨h.right, h.left, h.upper, h.lower⟩

theorem sum {ι : Type} (s : Finset ι) {f g : ι → K} {N : ℕ} (h : ∀ i ∈ s, Acc u N (f i) (g i)) : Acc u N (∑ i ∈ s, f i) (∑ i ∈ s, g i) := by
  refine ⟨Finset.sum_nonneg fun i hi => (h i hi).left, Finset.sum_nonneg fun i hi => (h i hi).right, ?_, ?_⟩
  · rw [Finset.mul_sum]
    exact Finset.sum_le_sum fun i hi => (h i hi).lower
  · rw [Finset.mul_sum]
    exact Finset.sum_le_sum fun i hi => (h i hi).upper

/-- multiplication of both numbers with a weight -/
theorem weight {a b w : K} {N : ℕ} (h : Acc u N a b) (hw : 0 ≤ w) : Acc u N (w * a) (w * b) :=
  ⟨mul_nonneg hw h.left, mul_nonneg hw h.right, by rw [mul_left_comm]; exact mul_le_mul_of_nonneg_left h.lower hw, by rw [mul_left_comm]; exact mul_le_mul_of_nonneg_left h.upper hw⟩

end Acc

theorem Rounded.acc (hu : 0 ≤ u) {a b : K} (hu1 : u < 1) (ha : 0 ≤ a) (h : Rounded u a b) : Acc u 1 a b := by
  rw [Rounded, abs_of_nonneg ha, abs_le] at h
  refine ⟨ha, by nlinarith, by rw [pow_one]; linarith, ?_⟩
  rw [pow_one]
  calc (1 - u) * b ≤ (1 - u) * ((1 + u) * a) := mul_le_mul_of_nonneg_left (by linarith) (by linarith)
    _ = a - u ^ 2 * a := by ring
    _ ≤ a := by have := mul_nonneg (sq_nonneg u) ha; linarith

theorem RSum.card_pos {m : Multiset K} {r : K} (h : RSum u m r) : 1 ≤ m.card := by
  induction h with
  | single a => simp
  | add h1 h2 h3 i1 i2 => rw [Multiset.card_add]; omega

/-- sums of non-negative numbers -/
theorem RSum.acc (hu : 0 ≤ u) (hu1 : u < 1) {m : Multiset K} {r : K} (h : RSum u m r) (h0 : ∀ a ∈ m, 0 ≤ a) : Acc u (m.card - 1) m.sum r := by
  induction h with
  | single a => simpa using Acc.refl hu hu1 (h0 a (by simp)) 0
  | @add l l' s s' r h1 h2 h3 i1 i2 =>
      have j1 := i1 fun a ha => h0 a (by simp [ha])
      have j2 := i2 fun a ha => h0 a (by simp [ha])
      have c1 := h1.card_pos
      have c2 := h2.card_pos
      rw [Multiset.sum_add, Multiset.card_add]
      have k1 := j1.mono hu hu1 (show l.card - 1 ≤ l.card + l'.card - 2 by omega)
      have k2 := j2.mono hu hu1 (show l'.card - 1 ≤ l.card + l'.card - 2 by omega)
      have k : Acc u (l.card + l'.card - 2) (l.sum + l'.sum) (s + s') :=
        ⟨add_nonneg k1.left k2.left, add_nonneg k1.right k2.right, by rw [mul_add]; exact add_le_add k1.lower k2.lower, by rw [mul_add]; exact add_le_add k1.upper k2.upper⟩
      exact (k.trans hu1 (h3.acc hu hu1 k.right)).mono hu hu1 (by omega)

theorem RSumGrid.acc (hu : 0 ≤ u) (hu1 : u < 1) {p : Idx gs → K} {s : K} (h : RSumGrid u p s) (h0 : ∀ x, 0 ≤ p x) : Acc u (Fintype.card (Idx gs)) (∑ x, p x) s := by
  have := RSum.acc hu hu1 h (fun a ha => by obtain ⟨x, -, rfl⟩ := Multiset.mem_map.1 ha; exact h0 x)
  rw [Multiset.card_map] at this
  refine this.mono hu hu1 ?_
  exact Nat.sub_le _ _

/-- sums of arbitrary numbers -/
theorem RSum.abs_le (hu : 0 ≤ u) (hu1 : u < 1) {m : Multiset K} {r : K} (h : RSum u m r) : (1 - u) ^ (m.card - 1) * |r - m.sum| ≤ (1 - (1 - u) ^ (m.card - 1)) * (m.map fun a => |a|).sum := by
  induction h with
  | single a => simp
  | @add l l' s s' r h1 h2 h3 i1 i2 =>
      have c1 := h1.card_pos
      have c2 := h2.card_pos
      obtain ⟨k, hk⟩ : ∃ k, k = l.card + l'.card - 2 := ⟨_, rfl⟩
      have hv : 0 < 1 - u := by linarith
      have e : ∀ (n : ℕ) (x S : K), n ≤ k → 0 ≤ x → 0 ≤ S → (1 - u) ^ n * x ≤ (1 - (1 - u) ^ n) * S → (1 - u) ^ k * x ≤ (1 - (1 - u) ^ k) * S := fun n x S hn hx hS h => by
        obtain ⟨j, rfl⟩ := Nat.exists_eq_add_of_le hn
        have h1 : (1 - u) ^ j ≤ 1 := pow_le_one₀ hv.le (by linarith)
        have h2 : 0 ≤ (1 - u) ^ j := pow_nonneg hv.le j
        have h3 : 0 ≤ (1 - u) ^ n := pow_nonneg hv.le n
        have h4 := mul_le_mul_of_nonneg_left h h2
        rw [pow_add]
        nlinarith [mul_nonneg hS (sub_nonneg.2 h1)]
      have S0 : ∀ l : Multiset K, 0 ≤ (l.map fun a => |a|).sum := fun l => Multiset.sum_nonneg fun a ha => by obtain ⟨b, -, rfl⟩ := Multiset.mem_map.1 ha; exact abs_nonneg b
      have j1 := e _ _ _ (by omega) (abs_nonneg _) (S0 l) i1
      have j2 := e _ _ _ (by omega) (abs_nonneg _) (S0 l') i2
      rw [Rounded] at h3
      rw [Multiset.sum_add, Multiset.map_add, Multiset.sum_add, Multiset.card_add, show l.card + l'.card - 1 = k + 1 by omega, pow_succ]
      obtain ⟨S, hS⟩ : ∃ S, S = (l.map fun a => |a|).sum := ⟨_, rfl⟩
      obtain ⟨S', hS'⟩ : ∃ S', S' = (l'.map fun a => |a|).sum := ⟨_, rfl⟩
      have hS0 := S0 l
      have hS0' := S0 l'
      rw [← hS] at j1 hS0 ⊢
      rw [← hS'] at j2 hS0' ⊢
      have b1 : |l.sum| ≤ S := by rw [hS]; exact Multiset.abs_sum_le_sum_abs
      have b2 : |l'.sum| ≤ S' := by rw [hS']; exact Multiset.abs_sum_le_sum_abs
      have t1 : |r - (l.sum + l'.sum)| ≤ |r - (s + s')| + |s - l.sum| + |s' - l'.sum| := by
        have : r - (l.sum + l'.sum) = (r - (s + s')) + (s - l.sum) + (s' - l'.sum) := by ring
        rw [this]
        exact (abs_add_le _ _).trans (by gcongr; exact abs_add_le _ _)
      have t2 : |s + s'| ≤ |s - l.sum| + S + (|s' - l'.sum| + S') := by
        have : s + s' = (s - l.sum) + l.sum + ((s' - l'.sum) + l'.sum) := by ring
        rw [this]
        refine (abs_add_le _ _).trans (add_le_add ((abs_add_le _ _).trans (by gcongr)) ((abs_add_le _ _).trans (by gcongr)))
      have hk0 : 0 ≤ (1 - u) ^ k := pow_nonneg hv.le k
      have hk1 : (1 - u) ^ k ≤ 1 := pow_le_one₀ hv.le (by linarith)
      obtain ⟨D, hD⟩ : ∃ D, D = |s - l.sum| + |s' - l'.sum| := ⟨_, rfl⟩
      have q1 : |r - (l.sum + l'.sum)| ≤ (1 + u) * D + u * (S + S') := by
        have := mul_le_mul_of_nonneg_left t2 hu
        rw [hD]
        linarith
      have q2 : (1 - u) ^ k * D ≤ (1 - (1 - u) ^ k) * (S + S') := by rw [hD]; linarith
      have q3 := mul_le_mul_of_nonneg_left q1 (mul_nonneg hk0 hv.le)
      have q4 := mul_le_mul_of_nonneg_left q2 (mul_nonneg hv.le (by linarith : 0 ≤ 1 + u))
      have hSS : 0 ≤ S + S' := add_nonneg hS0 hS0'
      have q5 : 0 ≤ u ^ 2 * (1 - (1 - u) ^ k) * (S + S') := mul_nonneg (mul_nonneg (sq_nonneg u) (by linarith)) hSS
      nlinarith

end BL

namespace Spec
open BL
variable {K : Type}

mutual
/-- number of elementary models (change-points of serial models count once more) -/
def elements : TM K → ℕ
  | .leaf _ _ _ _ => 1
  | .combined ms => elementsAll ms
  | .serial _ _ _ _ ms => elementsAll ms + 1
/-- total number -/
def elementsAll : List (TM K) → ℕ
  | [] => 0
  | m :: ms => elements m + elementsAll ms
end

end Spec

namespace BL
open Spec
variable {K : Type} [Field K] [LinearOrder K] [IsStrictOrderedRing K] {d : ℕ} {gs : Fin d → ℕ} {u : K}

/-- exact array and its rounded version: either close to each other, whatever the arrays before were (reset), or as close as the arrays before, up to a common factor -/
def Passes (u : K) (k : ℕ) (p p' q q' : Idx gs → K) : Prop :=
  (∀ x, Acc u k (q x) (q' x)) ∨ ∀ (c : K) (N : ℕ), 0 ≤ c → (∀ x, Acc u N (p x) (c * p' x)) → ∀ x, Acc u (N + k) (q x) (c * q' x)

theorem Passes.mono (hu : 0 ≤ u) (hu1 : u < 1) {k k' : ℕ} (hk : k ≤ k') {p p' q q' : Idx gs → K} (h : Passes u k p p' q q') : Passes u k' p p' q q' :=
  h.imp (fun h x => (h x).mono hu hu1 hk) fun h c N hc hp x => (h c N hc hp x).mono hu hu1 (by omega)

theorem Passes.comp (hu : 0 ≤ u) (hu1 : u < 1) {k l : ℕ} {p p' q q' r r' : Idx gs → K} (h : Passes u k p p' q q') (h' : Passes u l q q' r r') : Passes u (k + l) p p' r r' := by
  rcases h' with h' | h'
  · exact Or.inl fun x => (h' x).mono hu hu1 (by omega)
  · rcases h with h | h
    · refine Or.inl fun x => ?_
      have := h' 1 k zero_le_one (fun x => by rw [one_mul]; exact h x) x
      rwa [one_mul] at this
    · refine Or.inr fun c N hc hp x => ?_
      have := h' c (N + k) hc (h c N hc hp) x
      rwa [add_assoc] at this

theorem Passes.same {p p' : Idx gs → K} : Passes u 0 p p' p p' := Or.inr fun _ _ _ h => h

/-- an elementary step of the exact and of the rounded run -/
theorem leaf_passes {E E' : Env K gs} (hG : GaussOK E.ext) (hn : E'.names = E.names) (hl : E'.lattice = E.lattice) (hx : E'.ext = E.ext) (hu1 : u < 1) {e : ℕ}
    {k : Leaf K} {ns : List String} {vs : List (HVal K)} {pr : Option (Nest (HPrior K))} (hL : Linear E (.leaf k ns vs pr)) (hR : ResetFree (.leaf k ns vs pr) ∨ E'.prior = E.prior)
    {o t : K} {p p' q r q' : Idx gs → K} (h : leafFwd E o k vs (some p) t = .ok (some q)) (h' : leafFwd E' 0 k vs (some p') t = .ok (some r)) (ha : ∀ x, Acc u e (r x) (q' x)) :
    Passes u e p p' q q' := by
  have hax : ∀ target, E'.axis target = E.axis target := fun target => by unfold Env.axis; rw [hn]
  match k, hL, hR, h, h' with
  | .static, hL, hR, h, h' =>
      simp only [leafFwd, Except.ok.injEq, Option.some.injEq] at h h'
      subst h h'
      exact Or.inr fun c N hc hp x => (hp x).trans hu1 ((ha x).weight hc)
  | .grw target, hL, hR, h, h' =>
      rw [Linear] at hL
      obtain ⟨⟨a, hta⟩, σ, rfl⟩ := hL
      simp only [leafFwd, grwFwd, hax, hta, scalarAt, hl, hx, bind, Except.bind, List.getElem?_cons_zero] at h h'
      by_cases h0 : E.lattice a = 0
      · rw [if_pos h0] at h h'
        by_cases hs : 0 < σ
        · rw [if_pos hs] at h; exact absurd h (by simp)
        · rw [if_neg hs] at h h'
          simp only [Except.ok.injEq, Option.some.injEq] at h h'
          subst h h'
          exact Or.inr fun c N hc hp x => (hp x).trans hu1 ((ha x).weight hc)
      · rw [if_neg h0] at h h'
        by_cases hs : 0 < σ / E.lattice a
        · rw [if_pos hs] at h h'
          simp only [Option.map_some, Except.ok.injEq, Option.some.injEq] at h h'
          subst h h'
          refine Or.inr fun c N hc hp x => Acc.trans hu1 ?_ ((ha x).weight hc)
          simp only [filterAxis]
          rw [Finset.mul_sum]
          refine Acc.sum _ fun k _ => ?_
          rw [mul_left_comm]
          exact (hp _).weight (hG.nonneg _ _)
        · rw [if_neg hs] at h h'
          simp only [Except.ok.injEq, Option.some.injEq] at h h'
          subst h h'
          exact Or.inr fun c N hc hp x => (hp x).trans hu1 ((ha x).weight hc)
  | .changePoint, hL, hR, h, h' =>
      rw [Linear] at hL
      obtain ⟨v, rfl⟩ := hL
      have hpr := hR.resolve_left (by simp [ResetFree])
      simp only [leafFwd, cpHit, bind, Except.bind, List.getElem?_cons_zero] at h h'
      by_cases ht : t = v
      · simp only [ht, decide_true, if_true] at h h'
        have : E'.resetCell = E.resetCell := by unfold Env.resetCell Env.resetArr Env.cell; rw [hpr, hl]
        rw [this] at h'
        rw [h] at h'
        simp only [Except.ok.injEq, Option.some.injEq] at h'
        subst h'
        exact Or.inl ha
      · simp only [ht, decide_false, Bool.false_eq_true, if_false, Except.ok.injEq, Option.some.injEq] at h h'
        subst h h'
        exact Or.inr fun c N hc hp x => (hp x).trans hu1 ((ha x).weight hc)
  | .independent, hL, hR, h, h' =>
      have hpr := hR.resolve_left (by simp [ResetFree])
      simp only [leafFwd] at h h'
      have : E'.resetArr = E.resetArr := by unfold Env.resetArr; rw [hpr]
      rw [this, h] at h'
      simp only [Except.ok.injEq, Option.some.injEq] at h'
      subst h'
      exact Or.inl ha
  | .alphaStable _, hL, _, _, _ => simp [Linear] at hL
  | .regimeSwitch, hL, _, _, _ => simp [Linear] at hL
  | .notEqual, hL, _, _, _ => simp [Linear] at hL
  | .deterministic _ _, hL, _, _, _ => simp [Linear] at hL
  | .bivariate, hL, _, _, _ => simp [Linear] at hL
  | .breakPoint, hL, _, _, _ => simp [Linear] at hL

/-- linear leaves turn arrays into arrays -/
theorem leaf_some {E : Env K gs} {k : Leaf K} {ns : List String} {vs : List (HVal K)} {pr : Option (Nest (HPrior K))} (hL : Linear E (.leaf k ns vs pr))
    (hR : ResetFree (.leaf k ns vs pr) ∨ ∃ r, E.resetArr = some r) {o t : K} {p : Idx gs → K} {q : Arr K gs} (h : leafFwd E o k vs (some p) t = .ok q) : ∃ q0, q = some q0 := by
  match k, hL, hR, h with
  | .static, hL, _, h => simp only [leafFwd, Except.ok.injEq] at h; exact ⟨p, h.symm⟩
  | .grw target, hL, _, h =>
      rw [Linear] at hL
      obtain ⟨⟨a, hta⟩, σ, rfl⟩ := hL
      simp only [leafFwd, grwFwd, hta, scalarAt, bind, Except.bind, List.getElem?_cons_zero] at h
      split at h
      · split at h
        · simp at h
        · simp only [Except.ok.injEq] at h; exact ⟨_, h.symm⟩
      · split at h <;> simp only [Option.map_some, Except.ok.injEq] at h <;> exact ⟨_, h.symm⟩
  | .changePoint, hL, hR, h =>
      rw [Linear] at hL
      obtain ⟨v, rfl⟩ := hL
      obtain ⟨r, hr⟩ := hR.resolve_left (by simp [ResetFree])
      simp only [leafFwd, cpHit, bind, Except.bind, List.getElem?_cons_zero] at h
      split at h
      · simp only [Env.resetCell, hr, Option.map_some, Except.ok.injEq] at h; exact ⟨_, h.symm⟩
      · simp only [Except.ok.injEq] at h; exact ⟨_, h.symm⟩
  | .independent, hL, hR, h =>
      obtain ⟨r, hr⟩ := hR.resolve_left (by simp [ResetFree])
      simp only [leafFwd, hr, Except.ok.injEq] at h
      exact ⟨_, h.symm⟩
  | .alphaStable _, hL, _, _ => simp [Linear] at hL
  | .regimeSwitch, hL, _, _ => simp [Linear] at hL
  | .notEqual, hL, _, _ => simp [Linear] at hL
  | .deterministic _ _, hL, _, _ => simp [Linear] at hL
  | .bivariate, hL, _, _ => simp [Linear] at hL
  | .breakPoint, hL, _, _ => simp [Linear] at hL

/-- what the exact run and the rounded run have in common -/
structure Twin (E E' : Env K gs) : Prop where
  gauss : GaussOK E.ext
  names : E'.names = E.names
  lattice : E'.lattice = E.lattice
  ext : E'.ext = E.ext

mutual
/-- a transition of the exact and of the rounded run -/
theorem fwd_passes {E E' : Env K gs} (hE : Twin E E') (hu : 0 ≤ u) (hu1 : u < 1) (e : ℕ) : ∀ (tm : TM K), Linear E tm → (ResetFree tm ∨ E'.prior = E.prior ∧ ∃ r, E.resetArr = some r) →
    ∀ (o t : K) (p p' q' : Idx gs → K) (q : Arr K gs), tm.fwd E o (some p) t = .ok q → tm.rounded E' u e p' t q' → ∃ q0, q = some q0 ∧ Passes u (elements tm * e) p p' q0 q'
  | .leaf k ns vs pr, hL, hR, o, t, p, p', q', q, h, h' => by
      rw [TM.fwd] at h
      rw [TM.rounded] at h'
      obtain ⟨r, h1, h2⟩ := h'
      obtain ⟨q0, rfl⟩ := leaf_some hL (hR.imp id And.right) h
      refine ⟨q0, rfl, ?_⟩
      rw [elements, one_mul]
      exact leaf_passes hE.gauss hE.names hE.lattice hE.ext hu1 hL (hR.imp id And.left) h h1 h2
  | .combined ms, hL, hR, o, t, p, p', q', q, h, h' => by
      rw [TM.fwd] at h
      rw [TM.rounded] at h'
      rw [elements]
      exact fwdAll_passes hE hu hu1 e ms (by simpa only [Linear] using hL) (by simpa only [ResetFree] using hR) o t p p' q' q h h'
  | .serial _ vs _ mask ms, hL, hR, o, t, p, p', q', q, h, h' => by
      rw [Linear] at hL
      rw [TM.fwd, scalars_eq _ hL.1] at h
      rw [TM.rounded] at h'
      obtain ⟨vs', r, h1, h2, h3⟩ := h'
      rw [scalars_eq _ hL.1, Except.ok.injEq] at h1
      subst h1
      have hR' : (true ∉ mask ∧ ResetFreeAll ms) ∨ E'.prior = E.prior ∧ ∃ r, E.resetArr = some r := by simpa only [ResetFree] using hR
      simp only [bind, Except.bind] at h
      generalize hm : TM.fwdNth E (breakOffset (vals vs) (modelIndex (vals vs) t)) ms (modelIndex (vals vs) t) (some p) t = m at h
      cases m with
      | error x => simp at h
      | ok m =>
        simp only [Except.ok.injEq] at h
        obtain ⟨m0, rfl, hp⟩ := fwdNth_passes hE hu hu1 e ms hL.2.2 (hR'.imp And.right id) _ _ t p p' r m hm h2
        rw [cpCheck] at h
        rw [elements]
        by_cases hc : cpIn (vals vs) mask t
        · rw [if_pos hc] at h h3
          obtain ⟨r', h4, h5⟩ := h3
          have hr := hR'.resolve_left fun hr => absurd ((cpIn_iff _ _ _).1 hc) (isChange_mask hr.1)
          have : E'.resetCell = E.resetCell := by unfold Env.resetCell Env.resetArr Env.cell; rw [hr.1, hE.lattice]
          rw [this, h] at h4
          refine ⟨r', h4, Or.inl fun x => (h5 x).mono hu hu1 ?_⟩
          exact Nat.le_mul_of_pos_left _ (Nat.succ_pos _)
        · rw [if_neg hc] at h h3
          subst h h3
          exact ⟨m0, rfl, hp.mono hu hu1 (Nat.mul_le_mul_right _ (Nat.le_succ _))⟩
theorem fwdAll_passes {E E' : Env K gs} (hE : Twin E E') (hu : 0 ≤ u) (hu1 : u < 1) (e : ℕ) : ∀ (ms : List (TM K)), LinearAll E ms → (ResetFreeAll ms ∨ E'.prior = E.prior ∧ ∃ r, E.resetArr = some r) →
    ∀ (o t : K) (p p' q' : Idx gs → K) (q : Arr K gs), TM.fwdAll E o ms (some p) t = .ok q → TM.roundedAll E' u e ms p' t q' → ∃ q0, q = some q0 ∧ Passes u (elementsAll ms * e) p p' q0 q'
  | [], _, _, o, t, p, p', q', q, h, h' => by
      rw [TM.fwdAll, Except.ok.injEq] at h
      rw [TM.roundedAll] at h'
      subst h h'
      exact ⟨p, rfl, by rw [elementsAll, Nat.zero_mul]; exact Passes.same⟩
  | m :: ms, hL, hR, o, t, p, p', q', q, h, h' => by
      rw [LinearAll] at hL
      have hR' : (ResetFree m ∧ ResetFreeAll ms) ∨ E'.prior = E.prior ∧ ∃ r, E.resetArr = some r := by simpa only [ResetFreeAll] using hR
      rw [TM.fwdAll] at h
      rw [TM.roundedAll] at h'
      obtain ⟨r, h1, h2⟩ := h'
      simp only [bind, Except.bind] at h
      generalize hm : TM.fwd E o m (some p) t = y at h
      cases y with
      | error x => simp at h
      | ok y =>
        obtain ⟨y0, rfl, hp⟩ := fwd_passes hE hu hu1 e m hL.1 (hR'.imp And.left id) o t p p' r y hm h1
        obtain ⟨q0, rfl, hq⟩ := fwdAll_passes hE hu hu1 e ms hL.2 (hR'.imp And.right id) o t y0 r q' q h h2
        exact ⟨q0, rfl, by rw [elementsAll, Nat.add_mul]; exact hp.comp hu hu1 hq⟩
theorem fwdNth_passes {E E' : Env K gs} (hE : Twin E E') (hu : 0 ≤ u) (hu1 : u < 1) (e : ℕ) : ∀ (ms : List (TM K)), LinearAll E ms → (ResetFreeAll ms ∨ E'.prior = E.prior ∧ ∃ r, E.resetArr = some r) →
    ∀ (i : ℕ) (o t : K) (p p' q' : Idx gs → K) (q : Arr K gs), TM.fwdNth E o ms i (some p) t = .ok q → TM.roundedNth E' u e ms i p' t q' → ∃ q0, q = some q0 ∧ Passes u (elementsAll ms * e) p p' q0 q'
  | [], _, _, i, o, t, p, p', q', q, h, h' => by rw [TM.roundedNth] at h'; exact h'.elim
  | m :: ms, hL, hR, 0, o, t, p, p', q', q, h, h' => by
      rw [LinearAll] at hL
      have hR' : (ResetFree m ∧ ResetFreeAll ms) ∨ E'.prior = E.prior ∧ ∃ r, E.resetArr = some r := by simpa only [ResetFreeAll] using hR
      rw [TM.fwdNth] at h
      rw [TM.roundedNth] at h'
      obtain ⟨q0, rfl, hp⟩ := fwd_passes hE hu hu1 e m hL.1 (hR'.imp And.left id) o t p p' q' q h h'
      exact ⟨q0, rfl, hp.mono hu hu1 (Nat.mul_le_mul_right _ (by rw [elementsAll]; omega))⟩
  | m :: ms, hL, hR, i + 1, o, t, p, p', q', q, h, h' => by
      rw [LinearAll] at hL
      have hR' : (ResetFree m ∧ ResetFreeAll ms) ∨ E'.prior = E.prior ∧ ∃ r, E.resetArr = some r := by simpa only [ResetFreeAll] using hR
      rw [TM.fwdNth] at h
      rw [TM.roundedNth] at h'
      obtain ⟨q0, rfl, hp⟩ := fwdNth_passes hE hu hu1 e ms hL.2 (hR'.imp And.right id) i o t p p' q' q h h'
      exact ⟨q0, rfl, hp.mono hu hu1 (Nat.mul_le_mul_right _ (by rw [elementsAll]; omega))⟩
end

end BL
