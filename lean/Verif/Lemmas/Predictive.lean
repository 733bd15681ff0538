import Verif.Spec.Predictive
import Verif.Lemmas.FitMain
import Mathlib.Topology.Algebra.InfiniteSum.Ring
import Mathlib.Analysis.Normed.Ring.InfiniteSum
import Mathlib.Topology.Algebra.InfiniteSum.Real

/-! # Transitions that conserve total probability; sums over data sets -/

set_option linter.unusedSectionVars false

namespace BL
open Spec
variable {K : Type} [Field K] [LinearOrder K] [IsStrictOrderedRing K] {d : ℕ} {gs : Fin d → ℕ}

theorem normalize_dist {v : Idx gs → K} (h0 : ∀ x, 0 ≤ v x) (h1 : 0 < ∑ x, v x) : ∃ q, BL.normalize v = some q ∧ IsDist q := by
  refine ⟨_, normalize_pos h1, fun x => div_nonneg (h0 x) h1.le, ?_⟩
  rw [← Finset.sum_div, div_self h1.ne']

theorem convSame_dist {ker : (Fin d → ℤ) → K} (h0 : ∀ v, 0 ≤ ker v) (h1 : 0 < ker 0) {p : Idx gs → K} (hp : IsDist p) :
    ∃ q, BL.normalize (convSame ker p) = some q ∧ IsDist q := by
  have hn : ∀ y, 0 ≤ convSame ker p y := fun y => Finset.sum_nonneg fun x _ => mul_nonneg (hp.nonneg x) (h0 _)
  refine normalize_dist hn ?_
  have : ∀ y, p y * ker 0 ≤ convSame ker p y := by
    intro y
    unfold convSame
    have := Finset.single_le_sum (f := fun x => p x * ker (fun a => ((y a : ℕ) : ℤ) - ((x a : ℕ) : ℤ))) (fun x _ => mul_nonneg (hp.nonneg x) (h0 _)) (Finset.mem_univ y)
    simp only [sub_self] at this
    exact this
  calc 0 < ker 0 := h1
    _ = ∑ y, p y * ker 0 := by rw [← Finset.sum_mul, hp.sum_one, one_mul]
    _ ≤ _ := Finset.sum_le_sum fun y _ => this y

theorem resetArr_dist [Nonempty (Idx gs)] {E : Env K gs} (h : ProperPrior E.prior) : ∃ q, E.resetArr = some q ∧ IsDist q := by
  have hflat : ∃ q, BL.normalize (fun _ : Idx gs => (1 : K)) = some q ∧ IsDist q :=
    normalize_dist (fun _ => zero_le_one) (by rw [sum_const_card, mul_one]; exact card_pos_K)
  unfold Env.resetArr
  cases hp : E.prior with
  | none => exact hflat
  | rvs n ok v => exact hflat
  | func v => rw [hp] at h; exact normalize_dist h.1 h.2
  | array a =>
      rw [hp] at h
      cases a with
      | none => exact h.elim
      | some v => exact normalize_dist h.1 h.2
  | badArray => rw [hp] at h; exact h.elim
  | funcConst c => rw [hp] at h; exact h.elim

theorem resetCell_dist [Nonempty (Idx gs)] {E : Env K gs} (h : ProperPrior E.prior) (hc : E.cell = 1) : ∃ q, E.resetCell = some q ∧ IsDist q := by
  obtain ⟨q, h1, h2⟩ := resetArr_dist h
  refine ⟨q, ?_, h2⟩
  rw [Env.resetCell, h1, hc]
  simp

theorem floorAt_dist {l : K} {p : Idx gs → K} (hp : IsDist p) : ∃ q, BL.normalize (floorAt l p) = some q ∧ IsDist q := by
  have h : ∀ x, p x ≤ floorAt l p x := by
    intro x; unfold floorAt; split
    · rename_i h; exact h.le
    · exact le_rfl
  refine normalize_dist (fun x => (hp.nonneg x).trans (h x)) ?_
  calc 0 < ∑ x, p x := by rw [hp.sum_one]; exact zero_lt_one
    _ ≤ _ := Finset.sum_le_sum fun x _ => h x

theorem bindNorm {f : (Idx gs → K) → Idx gs → K} {p : Idx gs → K} (h : ∃ q, BL.normalize (f p) = some q ∧ IsDist q) :
    ∃ q, (Except.ok ((some p).bind fun q => BL.normalize (f q)) : Except PyErr (Arr K gs)) = .ok (some q) ∧ IsDist q := by
  obtain ⟨q, h1, h2⟩ := h
  exact ⟨q, by rw [Option.bind_some, h1], h2⟩

section
variable {E : Env K gs}

theorem leaf_dist [Nonempty (Idx gs)] (hl : ∀ a, 0 < E.lattice a) (hX : ProperExt E.ext) (hpr : ProperPrior E.prior) (k : Leaf K) (nm : List String) (vs : List (HVal K)) (hp : Option (Nest (HPrior K)))
    (hc : Conserving E (.leaf k nm vs hp)) (toff : K) (p : Idx gs → K) (t : K) (hd : IsDist p) :
    ∃ q, leafFwd E toff k vs (some p) t = .ok (some q) ∧ IsDist q := by
  cases k with
  | static => exact ⟨p, rfl, hd⟩
  | grw target =>
      have hc' : (∃ a, E.axis target = .ok a) ∧ ∃ σ, vs = [.scalar σ] := by simpa only [Conserving] using hc
      have hL : Linear E (.leaf (.grw target) nm vs hp) := by simpa only [Linear] using hc'
      have hR : ResetFree (.leaf (.grw target) nm vs hp) := by simp [ResetFree]
      have h := fwd_linear (R := 1) (ρ := p) hl hX.gauss _ hL (Or.inl hR) toff p t 1 hd.sum_one zero_lt_one
      rw [massOut_resetFree _ hR, div_one, TM.fwd] at h
      simp only [one_mul] at h
      refine ⟨_, h, fun y => Finset.sum_nonneg fun x _ => mul_nonneg (hd.nonneg x) (kernel_nonneg hX.gauss _ (Or.inl hR) t x y), ?_⟩
      rw [push_sum (kernel_sum hX.gauss _ hL (Or.inl hR) t), hd.sum_one]
  | alphaStable target =>
      obtain ⟨h12, a, c, al, ha, rfl, k0, k1⟩ := (by simpa only [Conserving] using hc : (d = 1 ∨ (d = 2 ∧ ∀ b, gs b % 2 = 0)) ∧ ∃ a c α, E.axis target = .ok a ∧ vs = [.scalar c, .scalar α] ∧
        (∀ k, 0 ≤ E.ext.stableKer (c / E.lattice a) α k) ∧ 0 < E.ext.stableKer (c / E.lattice a) α 0)
      have e0 : scalarAt [HVal.scalar c, .scalar al] 0 = .ok c := rfl
      have e1 : scalarAt [HVal.scalar c, .scalar al] 1 = .ok al := rfl
      simp only [leafFwd, alphaFwd, e0, e1, ha, bind, Except.bind, if_pos h12]
      rw [if_neg (hl a).ne']
      refine bindNorm (f := convSame _) ?_
      refine convSame_dist (fun v => ?_) ?_ hd
      · split
        · exact k0 _
        · exact le_rfl
      · simpa using k1
  | changePoint =>
      obtain ⟨hcell, v, rfl⟩ := (by simpa only [Conserving] using hc : E.cell = 1 ∧ ∃ v, vs = [.scalar v])
      have hs' : cpHit [HVal.scalar v] t = .ok (decide (t = v)) := rfl
      simp only [leafFwd, hs', bind, Except.bind, decide_eq_true_eq]
      split
      · obtain ⟨q, h1, h2⟩ := resetCell_dist hpr hcell
        exact ⟨q, by rw [h1], h2⟩
      · exact ⟨p, rfl, hd⟩
  | independent =>
      obtain ⟨q, h1, h2⟩ := resetArr_dist hpr
      exact ⟨q, by rw [leafFwd, h1], h2⟩
  | regimeSwitch =>
      obtain ⟨v, rfl⟩ := (by simpa only [Conserving] using hc : ∃ v, vs = [.scalar v])
      have e0 : scalarAt [HVal.scalar v] 0 = .ok v := rfl
      simp only [leafFwd, regimeFwd, e0, bind, Except.bind]
      exact bindNorm (floorAt_dist hd)
  | notEqual => simp [Conserving] at hc
  | deterministic f target =>
      obtain ⟨⟨a, ha, hsh⟩, hs⟩ := (by simpa only [Conserving] using hc : (∃ a, E.axis target = .ok a ∧ ∀ s p, IsDist p → (∀ x, 0 ≤ E.ext.shift a s p x) ∧ 0 < ∑ x, E.ext.shift a s p x) ∧
        ∀ v ∈ vs, ∃ c, v = .scalar c)
      simp only [leafFwd, ha, scalars_eq vs hs, bind, Except.bind, detShift, (hl a).ne', if_false]
      exact bindNorm (f := fun q => E.ext.shift a _ q) (normalize_dist (hsh _ _ hd).1 (hsh _ _ hd).2)
  | bivariate =>
      obtain ⟨h2, s1, s2, rho, hs1, hs2, hrho, rfl⟩ := (by simpa only [Conserving] using hc : d = 2 ∧ ∃ s1 s2 ρ, 0 < s1 ∧ 0 < s2 ∧ ρ * ρ < 1 ∧ vs = [.scalar s1, .scalar s2, .scalar ρ])
      have e0 : numberAt [HVal.scalar s1, .scalar s2, .scalar rho] 0 = .ok s1 := rfl
      have e1 : numberAt [HVal.scalar s1, .scalar s2, .scalar rho] 1 = .ok s2 := rfl
      have e2 : numberAt [HVal.scalar s1, .scalar s2, .scalar rho] 2 = .ok rho := rfl
      simp only [leafFwd, bivFwd, e0, e1, e2, bind, Except.bind, dif_pos h2]
      rw [if_neg (by rintro (h | h) <;> exact absurd h (hl _).ne'), if_neg (by rintro (h | h | h) <;> exact absurd h (not_le.2 (by assumption)))]
      refine bindNorm (f := convSame _) ?_
      refine convSame_dist (fun v => ?_) ?_ hd
      · exact hX.biv_nonneg _ _ _ _ _
      · simpa using hX.biv_pos (s1 / E.lattice ⟨0, by omega⟩) (s2 / E.lattice ⟨1, by omega⟩) rho (div_pos hs1 (hl _)) (div_pos hs2 (hl _)) hrho
  | breakPoint => simp [Conserving] at hc

mutual
theorem fwd_dist [Nonempty (Idx gs)] (hl : ∀ a, 0 < E.lattice a) (hX : ProperExt E.ext) (hpr : ProperPrior E.prior) :
    ∀ (tm : TM K), Conserving E tm → ∀ (toff : K) (p : Idx gs → K) (t : K), IsDist p → ∃ q, tm.fwd E toff (some p) t = .ok (some q) ∧ IsDist q
  | .leaf k nm vs hp, hc, toff, p, t, hd => by rw [TM.fwd]; exact leaf_dist hl hX hpr k nm vs hp hc toff p t hd
  | .combined ms, hc, toff, p, t, hd => by
      rw [TM.fwd]; exact fwdAll_dist hl hX hpr ms (by simpa only [Conserving] using hc) toff p t hd
  | .serial _ vs _ mask ms, hc, toff, p, t, hd => by
      have hc' : (true ∈ mask → E.cell = 1) ∧ (∀ v ∈ vs, ∃ c, v = .scalar c) ∧ ms.length = vs.length + 1 ∧ ConservingAll E ms := by simpa only [Conserving] using hc
      have hi : breaksUpTo (vals vs) t < ms.length := by
        have := breaksUpTo_le (vals vs) t
        rw [vals_length] at this
        omega
      obtain ⟨q, h1, h2⟩ := fwdNth_dist hl hX hpr ms hc'.2.2.2 (breakOffset (vals vs) (breaksUpTo (vals vs) t)) _ hi p t hd
      rw [TM.fwd, scalars_eq vs hc'.2.1]
      simp only [bind, Except.bind, modelIndex_eq, h1, cpCheck]
      split
      · rename_i hcp
        have hm : true ∈ mask := by
          by_contra hm
          exact isChange_mask hm ((cpIn_iff _ _ _).1 hcp)
        obtain ⟨q', h3, h4⟩ := resetCell_dist hpr (hc'.1 hm)
        exact ⟨q', by rw [h3], h4⟩
      · exact ⟨q, rfl, h2⟩
theorem fwdAll_dist [Nonempty (Idx gs)] (hl : ∀ a, 0 < E.lattice a) (hX : ProperExt E.ext) (hpr : ProperPrior E.prior) :
    ∀ (ms : List (TM K)), ConservingAll E ms → ∀ (toff : K) (p : Idx gs → K) (t : K), IsDist p → ∃ q, TM.fwdAll E toff ms (some p) t = .ok (some q) ∧ IsDist q
  | [], _, toff, p, t, hd => ⟨p, by rw [TM.fwdAll], hd⟩
  | m :: ms, hc, toff, p, t, hd => by
      have hc' : Conserving E m ∧ ConservingAll E ms := by simpa only [ConservingAll] using hc
      obtain ⟨q, h1, h2⟩ := fwd_dist hl hX hpr m hc'.1 toff p t hd
      obtain ⟨r, h3, h4⟩ := fwdAll_dist hl hX hpr ms hc'.2 toff q t h2
      refine ⟨r, ?_, h4⟩
      rw [TM.fwdAll, h1]
      exact h3
theorem fwdNth_dist [Nonempty (Idx gs)] (hl : ∀ a, 0 < E.lattice a) (hX : ProperExt E.ext) (hpr : ProperPrior E.prior) :
    ∀ (ms : List (TM K)), ConservingAll E ms → ∀ (toff : K) (i : ℕ), i < ms.length → ∀ (p : Idx gs → K) (t : K), IsDist p → ∃ q, TM.fwdNth E toff ms i (some p) t = .ok (some q) ∧ IsDist q
  | [], _, _, i, hi, _, _, _ => by simp at hi
  | m :: ms, hc, toff, 0, _, p, t, hd => by
      have hc' : Conserving E m ∧ ConservingAll E ms := by simpa only [ConservingAll] using hc
      rw [TM.fwdNth]
      exact fwd_dist hl hX hpr m hc'.1 toff p t hd
  | m :: ms, hc, toff, i + 1, hi, p, t, hd => by
      have hc' : Conserving E m ∧ ConservingAll E ms := by simpa only [ConservingAll] using hc
      rw [TM.fwdNth]
      exact fwdNth_dist hl hX hpr ms hc'.2 toff i (by simpa using hi) p t hd
end

mutual
theorem conserving_prior (pr : PriorSpec K gs) : ∀ (tm : TM K), Conserving E tm → Conserving { E with prior := pr } tm
  | .leaf k _ vs _, h => by cases k <;> (simp only [Conserving] at h ⊢; try exact h)
  | .combined ms, h => by rw [Conserving] at *; exact conservingAll_prior pr ms h
  | .serial _ vs _ mask ms, h => by rw [Conserving] at *; exact ⟨h.1, h.2.1, h.2.2.1, conservingAll_prior pr ms h.2.2.2⟩
theorem conservingAll_prior (pr : PriorSpec K gs) : ∀ (ms : List (TM K)), ConservingAll E ms → ConservingAll { E with prior := pr } ms
  | [], _ => by rw [ConservingAll]; trivial
  | m :: ms, h => by rw [ConservingAll] at *; exact ⟨conserving_prior pr m h.1, conservingAll_prior pr ms h.2⟩
end

/-- product of the norms of a finished forward pass, zero if it was stopped -/
def evOf (r : Except PyErr (FwdOut K gs)) : K :=
  match r with
  | .ok r => if r.stopped then 0 else normProd r.steps
  | .error _ => 0

theorem fwdPass_data {X : Type} [Fintype X] [DecidableEq X] [Nonempty (Idx gs)] (hl : ∀ a, 0 < E.lattice a) (hX : ProperExt E.ext) {tm : TM K} (hc : Conserving E tm)
    {lik : List X → X → Idx gs → K} (hlik : Normalised lik) :
    ∀ (n : ℕ) (h : List X) (al : Bool) (pr : PriorSpec K gs) (a : Idx gs → K) (ts : List K), ProperPrior pr → (∀ x, 0 ≤ a x) → ts.length = n →
    (∀ xs : Fin n → X, ∃ r, fwdPass E tm al pr (some a) (likelihoods lik h (List.ofFn xs)) ts = .ok r) ∧
    ∑ xs : Fin n → X, evOf (fwdPass E tm al pr (some a) (likelihoods lik h (List.ofFn xs)) ts) = if n = 0 then 1 else ∑ θ, a θ
  | 0, h, al, pr, a, ts, hpr, ha, hts => by
      constructor
      · intro xs
        rw [List.ofFn_zero, likelihoods, fwdPass]
        exact ⟨_, rfl⟩
      · simp [likelihoods, fwdPass, evOf, normProd]
  | n + 1, h, al, pr, a, [], hpr, ha, hts => by simp at hts
  | n + 1, h, al, pr, a, t :: ts, hpr, ha, hts => by
      have hts' : ts.length = n := by simpa using hts
      have key : ∀ x : X, (∀ xs : Fin n → X, ∃ r, fwdPass E tm al pr (some a) (likelihoods lik h (x :: List.ofFn xs)) (t :: ts) = .ok r) ∧
          ∑ xs : Fin n → X, evOf (fwdPass E tm al pr (some a) (likelihoods lik h (x :: List.ofFn xs)) (t :: ts)) = ∑ θ, a θ * lik h x θ := by
        intro x
        have hnn : ∀ θ, 0 ≤ a θ * lik h x θ := fun θ => mul_nonneg (ha θ) (hlik.nonneg h x θ)
        by_cases hn : 0 < ∑ θ, a θ * lik h x θ
        · have hd : IsDist fun θ => a θ * lik h x θ / ∑ θ, a θ * lik h x θ :=
            ⟨fun θ => div_nonneg (hnn θ) hn.le, by rw [← Finset.sum_div, div_self hn.ne']⟩
          have hpr' : ProperPrior (if al then PriorSpec.array (some fun θ => a θ * lik h x θ / ∑ θ, a θ * lik h x θ) else pr) := by
            cases al with
            | true =>
                rw [if_pos rfl]
                exact ⟨hd.nonneg, by rw [hd.sum_one]; exact zero_lt_one⟩
            | false => simpa using hpr
          obtain ⟨q, hq, hqd⟩ := fwd_dist (E := { E with prior := if al then PriorSpec.array (some fun θ => a θ * lik h x θ / ∑ θ, a θ * lik h x θ) else pr })
            hl hX hpr' tm (conserving_prior _ tm hc) 0 _ t hd
          obtain ⟨ih1, ih2⟩ := fwdPass_data hl hX hc hlik n (h ++ [x]) (al && tm.returnsArg t) _ q ts hpr' hqd.nonneg hts'
          rw [hqd.sum_one, ite_self] at ih2
          have heq : ∀ xs : Fin n → X, ∀ r, fwdPass E tm (al && tm.returnsArg t)
              (if al then PriorSpec.array (some fun θ => a θ * lik h x θ / ∑ θ, a θ * lik h x θ) else pr) (some q) (likelihoods lik (h ++ [x]) (List.ofFn xs)) ts = .ok r →
              fwdPass E tm al pr (some a) (likelihoods lik h (x :: List.ofFn xs)) (t :: ts) =
                .ok { r with steps := ⟨fun θ => a θ * lik h x θ / ∑ θ, a θ * lik h x θ, ∑ θ, a θ * lik h x θ, lik h x, t⟩ :: r.steps } := by
            intro xs r hr
            rw [likelihoods, fwdPass]
            simp only [hn, if_true, bind, Except.bind, hq, hr]
          constructor
          · intro xs
            obtain ⟨r, hr⟩ := ih1 xs
            exact ⟨_, heq xs r hr⟩
          · rw [← mul_one (∑ θ, a θ * lik h x θ), ← ih2, Finset.mul_sum]
            refine Finset.sum_congr rfl fun xs _ => ?_
            obtain ⟨r, hr⟩ := ih1 xs
            rw [heq xs r hr, hr]
            simp only [evOf]
            split
            · rw [mul_zero]
            · simp [normProd]
        · have hz : ∑ θ, a θ * lik h x θ = 0 := le_antisymm (not_lt.1 hn) (Finset.sum_nonneg fun θ _ => hnn θ)
          have heq : ∀ xs : Fin n → X, ∃ pr', fwdPass E tm al pr (some a) (likelihoods lik h (x :: List.ofFn xs)) (t :: ts) = .ok ⟨[], true, pr'⟩ := by
            intro xs
            rw [likelihoods, fwdPass]
            simp only [hn, if_false]
            exact ⟨_, rfl⟩
          constructor
          · intro xs
            obtain ⟨pr', h'⟩ := heq xs
            exact ⟨_, h'⟩
          · rw [hz]
            refine Finset.sum_eq_zero fun xs _ => ?_
            obtain ⟨pr', h'⟩ := heq xs
            rw [h']; rfl
      constructor
      · intro xs
        rw [List.ofFn_succ]
        exact (key (xs 0)).1 fun i => xs i.succ
      · rw [if_neg (Nat.succ_ne_zero n), sum_cons]
        simp only [List.ofFn_succ, Fin.cons_zero, Fin.cons_succ]
        rw [Finset.sum_congr rfl fun x _ => (key x).2, Finset.sum_comm]
        refine Finset.sum_congr rfl fun θ _ => ?_
        rw [← Finset.mul_sum, hlik.total, mul_one]

theorem fwdPass_norm_pos {tm : TM K} : ∀ (Ls : List (Idx gs → K)) (ts : List K) (al : Bool) (pr : PriorSpec K gs) (a : Arr K gs) (r : FwdOut K gs),
    fwdPass E tm al pr a Ls ts = .ok r → ∀ s ∈ r.steps, 0 < s.norm
  | [], ts, al, pr, a, r, h => by rw [fwdPass] at h; cases h; simp
  | L :: Ls, ts, al, pr, none, r, h => by rw [fwdPass] at h; cases h; simp
  | L :: Ls, ts, al, pr, some a, r, h => by
      rw [fwdPass] at h
      simp only [bind, Except.bind] at h
      split at h
      · rename_i hn
        cases ts with
        | nil => simp at h
        | cons t ts =>
            simp only at h
            split at h
            · simp at h
            · split at h
              · simp at h
              · rename_i r' hr'
                cases h
                intro s hs
                rw [List.mem_cons] at hs
                rcases hs with rfl | hs
                · exact hn
                · exact fwdPass_norm_pos Ls ts _ _ _ _ hr' s hs
      · cases h; simp

theorem normProd_nonneg {st : List (Step K gs)} (h : ∀ s ∈ st, 0 < s.norm) : 0 ≤ normProd st := by
  unfold normProd
  refine List.prod_nonneg ?_
  intro x hx
  obtain ⟨s, hs, rfl⟩ := List.mem_map.1 hx
  exact (h s hs).le

theorem hasSum_of_eq {α : Type} {f g : α → ℝ} {s : ℝ} (h : HasSum f s) (e : ∀ x, g x = f x) : HasSum g s := by
  have : g = f := funext e
  rw [this]; exact h

theorem hasSum_prod {α β : Type} {f : α × β → ℝ} {g : α → ℝ} {s : ℝ} (h0 : ∀ x y, 0 ≤ f (x, y)) (h1 : ∀ x, HasSum (fun y => f (x, y)) (g x)) (h2 : HasSum g s) : HasSum f s := by
  have hs : Summable f := by
    refine (summable_prod_of_nonneg fun q => h0 q.1 q.2).2 ⟨fun x => (h1 x).summable, ?_⟩
    have : (fun x => ∑' y, f (x, y)) = g := funext fun x => (h1 x).tsum_eq
    rw [this]; exact h2.summable
  have := hs.hasSum.prod_fiberwise h1
  rw [h2.unique this]
  exact hs.hasSum

theorem evOf_nonneg {tm : TM K} {al : Bool} {pr : PriorSpec K gs} {a : Arr K gs} {Ls : List (Idx gs → K)} {ts : List K} : 0 ≤ evOf (fwdPass E tm al pr a Ls ts) := by
  generalize hr : fwdPass E tm al pr a Ls ts = r
  cases r with
  | error e => exact le_rfl
  | ok r =>
      simp only [evOf]
      split
      · exact le_rfl
      · exact normProd_nonneg (fwdPass_norm_pos _ _ _ _ _ _ hr)

/-- the same for infinitely many possible observations -/
theorem fwdPass_hasSum {E : Env ℝ gs} {X : Type} [Nonempty (Idx gs)] (hl : ∀ a, 0 < E.lattice a) (hX : ProperExt E.ext) {tm : TM ℝ} (hc : Conserving E tm)
    {lik : List X → X → Idx gs → ℝ} (h0 : ∀ h x θ, 0 ≤ lik h x θ) (hlik : ∀ h θ, HasSum (fun x => lik h x θ) 1) :
    ∀ (n : ℕ) (h : List X) (al : Bool) (pr : PriorSpec ℝ gs) (a : Idx gs → ℝ) (ts : List ℝ), ProperPrior pr → (∀ x, 0 ≤ a x) → ts.length = n →
    (∀ xs : Fin n → X, ∃ r, fwdPass E tm al pr (some a) (likelihoods lik h (List.ofFn xs)) ts = .ok r) ∧
    HasSum (fun xs : Fin n → X => evOf (fwdPass E tm al pr (some a) (likelihoods lik h (List.ofFn xs)) ts)) (if n = 0 then 1 else ∑ θ, a θ)
  | 0, h, al, pr, a, ts, hpr, ha, hts => by
      constructor
      · intro xs
        rw [List.ofFn_zero, likelihoods, fwdPass]
        exact ⟨_, rfl⟩
      · have := hasSum_unique (fun xs : Fin 0 → X => evOf (fwdPass E tm al pr (some a) (likelihoods lik h (List.ofFn xs)) ts))
        convert this using 1
        simp [likelihoods, fwdPass, evOf, normProd]
  | n + 1, h, al, pr, a, [], hpr, ha, hts => by simp at hts
  | n + 1, h, al, pr, a, t :: ts, hpr, ha, hts => by
      have hts' : ts.length = n := by simpa using hts
      have key : ∀ x : X, (∀ xs : Fin n → X, ∃ r, fwdPass E tm al pr (some a) (likelihoods lik h (x :: List.ofFn xs)) (t :: ts) = .ok r) ∧
          HasSum (fun xs : Fin n → X => evOf (fwdPass E tm al pr (some a) (likelihoods lik h (x :: List.ofFn xs)) (t :: ts))) (∑ θ, a θ * lik h x θ) := by
        intro x
        have hnn : ∀ θ, 0 ≤ a θ * lik h x θ := fun θ => mul_nonneg (ha θ) (h0 h x θ)
        by_cases hn : 0 < ∑ θ, a θ * lik h x θ
        · have hd : IsDist fun θ => a θ * lik h x θ / ∑ θ, a θ * lik h x θ :=
            ⟨fun θ => div_nonneg (hnn θ) hn.le, by rw [← Finset.sum_div, div_self hn.ne']⟩
          have hpr' : ProperPrior (if al then PriorSpec.array (some fun θ => a θ * lik h x θ / ∑ θ, a θ * lik h x θ) else pr) := by
            cases al with
            | true =>
                rw [if_pos rfl]
                exact ⟨hd.nonneg, by rw [hd.sum_one]; exact zero_lt_one⟩
            | false => simpa using hpr
          obtain ⟨q, hq, hqd⟩ := fwd_dist (E := { E with prior := if al then PriorSpec.array (some fun θ => a θ * lik h x θ / ∑ θ, a θ * lik h x θ) else pr })
            hl hX hpr' tm (conserving_prior _ tm hc) 0 _ t hd
          obtain ⟨ih1, ih2⟩ := fwdPass_hasSum hl hX hc h0 hlik n (h ++ [x]) (al && tm.returnsArg t) _ q ts hpr' hqd.nonneg hts'
          rw [hqd.sum_one, ite_self] at ih2
          have heq : ∀ xs : Fin n → X, ∀ r, fwdPass E tm (al && tm.returnsArg t)
              (if al then PriorSpec.array (some fun θ => a θ * lik h x θ / ∑ θ, a θ * lik h x θ) else pr) (some q) (likelihoods lik (h ++ [x]) (List.ofFn xs)) ts = .ok r →
              fwdPass E tm al pr (some a) (likelihoods lik h (x :: List.ofFn xs)) (t :: ts) =
                .ok { r with steps := ⟨fun θ => a θ * lik h x θ / ∑ θ, a θ * lik h x θ, ∑ θ, a θ * lik h x θ, lik h x, t⟩ :: r.steps } := by
            intro xs r hr
            rw [likelihoods, fwdPass]
            simp only [hn, if_true, bind, Except.bind, hq, hr]
          constructor
          · intro xs
            obtain ⟨r, hr⟩ := ih1 xs
            exact ⟨_, heq xs r hr⟩
          · rw [← mul_one (∑ θ, a θ * lik h x θ)]
            refine hasSum_of_eq (ih2.mul_left (∑ θ, a θ * lik h x θ)) fun xs => ?_
            obtain ⟨r, hr⟩ := ih1 xs
            rw [heq xs r hr, hr]
            simp only [evOf]
            split
            · rw [mul_zero]
            · simp [normProd]
        · have hz : ∑ θ, a θ * lik h x θ = 0 := le_antisymm (not_lt.1 hn) (Finset.sum_nonneg fun θ _ => hnn θ)
          have heq : ∀ xs : Fin n → X, ∃ pr', fwdPass E tm al pr (some a) (likelihoods lik h (x :: List.ofFn xs)) (t :: ts) = .ok ⟨[], true, pr'⟩ := by
            intro xs
            rw [likelihoods, fwdPass]
            simp only [hn, if_false]
            exact ⟨_, rfl⟩
          constructor
          · intro xs
            obtain ⟨pr', h'⟩ := heq xs
            exact ⟨_, h'⟩
          · rw [hz]
            refine hasSum_of_eq hasSum_zero fun xs => ?_
            obtain ⟨pr', h'⟩ := heq xs
            rw [h']; rfl
      constructor
      · intro xs
        rw [List.ofFn_succ]
        exact (key (xs 0)).1 fun i => xs i.succ
      · rw [if_neg (Nat.succ_ne_zero n), ← (Fin.consEquiv fun _ : Fin (n + 1) => X).hasSum_iff]
        refine hasSum_prod (fun x xs => ?_) (fun x => ?_) (g := fun x => ∑ θ, a θ * lik h x θ) ?_
        · exact evOf_nonneg
        · refine hasSum_of_eq (key x).2 fun xs => ?_
          simp [Fin.consEquiv, List.ofFn_succ]
        · have := hasSum_sum (s := Finset.univ) fun θ _ => (hlik h θ).mul_left (a θ)
          simpa using this

theorem fit_evOf {grid : (a : Fin d) → Fin (gs a) → K} {tm : TM K} {S : FitState K gs} {a : Arr K gs} {pr0 : PriorSpec K gs} {Ls : List (Idx gs → K)} {ts : List K} {r : FwdOut K gs}
    (h1 : computePrior { E with prior := S.prior } = .ok (a, pr0)) (hr : fwdPass E tm pr0.isArray pr0 a Ls ts = .ok r) {fo eo : Bool} (hmode : eo = true ∨ fo = true) :
    ∃ S', fit E grid tm Ls ts fo eo S = .ok S' ∧ S'.logEv.exp = evOf (.ok r) * E.cell := by
  unfold fit
  simp only [h1, bind, Except.bind, hr, evOf]
  cases hst : r.stopped with
  | true => exact ⟨_, rfl, by simp⟩
  | false =>
      simp only [Bool.false_eq_true, if_false]
      cases eo
      · have : fo = true := by simpa using hmode
        subst this
        simp only [Bool.false_eq_true, if_false, if_true]
        exact ⟨_, rfl, sumLog_exp E r.steps⟩
      · simp only [if_true]
        exact ⟨_, rfl, sumLog_exp E r.steps⟩

theorem computePrior_proper [Nonempty (Idx gs)] {π : Idx gs → K} (hcell : 0 < E.cell) (hp : PriorMass E.cell E.prior π) (hpr : ProperPrior E.prior) (hπ : ∑ x, π x = 1) :
    ∃ pr0, computePrior E = .ok (some fun x => 1 / E.cell * π x, pr0) ∧ ProperPrior pr0 := by
  obtain ⟨pr0, h1, h2, h3⟩ := computePrior_mass hcell hp
  refine ⟨pr0, h1, ?_⟩
  cases ha : E.prior.isArray with
  | false => rw [h3 ha]; exact hpr
  | true =>
      generalize hq : E.prior = pp at hp ha
      cases hp with
      | array v h0 h1' h2' =>
          unfold computePrior at h1
          rw [hq] at h1
          simp only at h1
          by_cases hs : ∑ x, v x = 1
          · rw [if_neg (not_not.2 hs)] at h1
            simp only [Except.ok.injEq, Prod.mk.injEq] at h1
            rw [← h1.2]
            exact ⟨h0, h1'⟩
          · rw [if_pos hs] at h1
            simp only [Except.ok.injEq, Prod.mk.injEq] at h1
            rw [← h1.2, h1.1]
            refine ⟨fun x => mul_nonneg (div_nonneg zero_le_one hcell.le) (div_nonneg (h0 x) h1'.le), ?_⟩
            rw [← Finset.mul_sum, hπ, mul_one]
            exact div_pos zero_lt_one hcell
      | flat => simp [PriorSpec.isArray] at ha
      | func v _ _ _ => simp [PriorSpec.isArray] at ha
      | const c _ _ => simp [PriorSpec.isArray] at ha
      | rvs v _ => simp [PriorSpec.isArray] at ha

theorem evidence_ones {ι : Type} [Fintype ι] [DecidableEq ι] : ∀ {n : ℕ} (π : ι → K) (T : Fin n → ι → ι → K), (∀ i x, ∑ y, T i x y = 1) →
    evidence π T (fun _ _ => 1) = ∑ x, π x
  | 0, π, T, _ => by rw [evidence_zero]; simp
  | n + 1, π, T, h => by
      rw [evidence_succ]
      refine (evidence_ones _ _ fun i => h i.succ).trans ?_
      simp only [advance]
      rw [Finset.sum_comm]
      refine Finset.sum_congr rfl fun x _ => ?_
      rw [← Finset.mul_sum, h 0 x]; simp

end
end BL
