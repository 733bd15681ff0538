import Verif.Props.C61

/-! # C69: the evidence of a data set is the total evidence of its continuations -/

set_option linter.unusedSectionVars false

open MeasureTheory

namespace Spec

/-- iterated integral of a function of `n` observations, the last one innermost -/
noncomputable def iterated {X : Type} [MeasurableSpace X] (μ : Measure X) : (n : ℕ) → ((Fin n → X) → ℝ) → ℝ
  | 0, F => F Fin.elim0
  | n + 1, F => ∫ x, iterated μ n (fun xs => F (Fin.cons x xs)) ∂μ

end Spec

namespace BL
open Spec
variable {K : Type} [Field K] [LinearOrder K] [IsStrictOrderedRing K] {d : ℕ} {gs : Fin d → ℕ} {E : Env K gs}

theorem likelihoods_length {X : Type} (lik : List X → X → Idx gs → K) : ∀ (xs h : List X), (likelihoods lik h xs).length = xs.length
  | [], _ => rfl
  | x :: xs, h => by rw [likelihoods, List.length_cons, List.length_cons, likelihoods_length lik xs]

theorem likelihoods_nonneg {X : Type} {lik : List X → X → Idx gs → K} (h0 : ∀ h x θ, 0 ≤ lik h x θ) : ∀ (xs h : List X), ∀ L ∈ likelihoods lik h xs, ∀ θ, 0 ≤ L θ
  | [], _ => by simp [likelihoods]
  | x :: xs, h => by
      intro L hL
      rw [likelihoods, List.mem_cons] at hL
      rcases hL with rfl | hL
      · exact h0 _ _
      · exact likelihoods_nonneg h0 xs _ L hL

/-- One step of the forward pass: it stops, or it continues with a probability distribution that does not depend on later data. -/
theorem fwdPass_step [Nonempty (Idx gs)] (hl : ∀ a, 0 < E.lattice a) (hX : ProperExt E.ext) {tm : TM K} (hc : Conserving E tm) (al : Bool) (pr : PriorSpec K gs) (hpr : ProperPrior pr)
    {a L : Idx gs → K} (ha : ∀ x, 0 ≤ a x) (hL : ∀ θ, 0 ≤ L θ) (t : K) :
    (∑ θ, a θ * L θ = 0 ∧ ∃ pr', ∀ Ls ts, fwdPass E tm al pr (some a) (L :: Ls) (t :: ts) = .ok ⟨[], true, pr'⟩) ∨
    ∃ q al' pr', IsDist q ∧ ProperPrior pr' ∧ ∀ Ls ts r, fwdPass E tm al' pr' (some q) Ls ts = .ok r →
      ∃ r', fwdPass E tm al pr (some a) (L :: Ls) (t :: ts) = .ok r' ∧ evOf (.ok r') = (∑ θ, a θ * L θ) * evOf (.ok r) := by
  have hnn : ∀ θ, 0 ≤ a θ * L θ := fun θ => mul_nonneg (ha θ) (hL θ)
  by_cases hn : 0 < ∑ θ, a θ * L θ
  · right
    have hd : IsDist fun θ => a θ * L θ / ∑ θ, a θ * L θ := ⟨fun θ => div_nonneg (hnn θ) hn.le, by rw [← Finset.sum_div, div_self hn.ne']⟩
    have hpr' : ProperPrior (if al then PriorSpec.array (some fun θ => a θ * L θ / ∑ θ, a θ * L θ) else pr) := by
      cases al with
      | true =>
          rw [if_pos rfl]
          exact ⟨hd.nonneg, by rw [hd.sum_one]; exact zero_lt_one⟩
      | false => simpa using hpr
    obtain ⟨q, hq, hqd⟩ := fwd_dist (E := { E with prior := if al then PriorSpec.array (some fun θ => a θ * L θ / ∑ θ, a θ * L θ) else pr })
      hl hX hpr' tm (conserving_prior _ tm hc) 0 _ t hd
    refine ⟨q, al && tm.returnsArg t, _, hqd, hpr', fun Ls ts r hr => ⟨{ r with steps := ⟨fun θ => a θ * L θ / ∑ θ, a θ * L θ, ∑ θ, a θ * L θ, L, t⟩ :: r.steps }, ?_, ?_⟩⟩
    · rw [fwdPass]
      simp only [hn, if_true, bind, Except.bind, hq, hr]
    · simp only [evOf]
      split
      · rw [mul_zero]
      · simp [normProd]
  · left
    refine ⟨le_antisymm (not_lt.1 hn) (Finset.sum_nonneg fun θ _ => hnn θ), ?_⟩
    refine ⟨if al then .array (some fun θ => a θ * L θ) else pr, fun Ls ts => ?_⟩
    rw [fwdPass]
    simp only [hn, if_false]

theorem fwdPass_ok [Nonempty (Idx gs)] (hl : ∀ a, 0 < E.lattice a) (hX : ProperExt E.ext) {tm : TM K} (hc : Conserving E tm) :
    ∀ (Ls : List (Idx gs → K)) (al : Bool) (pr : PriorSpec K gs) (a : Idx gs → K) (ts : List K), ProperPrior pr → (∀ x, 0 ≤ a x) → (∀ L ∈ Ls, ∀ θ, 0 ≤ L θ) → ts.length = Ls.length →
      ∃ r, fwdPass E tm al pr (some a) Ls ts = .ok r
  | [], al, pr, a, ts, _, _, _, _ => ⟨_, by rw [fwdPass]⟩
  | L :: Ls, al, pr, a, [], _, _, _, h => by simp at h
  | L :: Ls, al, pr, a, t :: ts, hpr, ha, hL, h => by
      rcases fwdPass_step hl hX hc al pr hpr ha (hL L List.mem_cons_self) t with ⟨-, pr', h'⟩ | ⟨q, al', pr', hq, hpr', h'⟩
      · exact ⟨_, h' Ls ts⟩
      · obtain ⟨r, hr⟩ := fwdPass_ok hl hX hc Ls al' pr' q ts hpr' hq.nonneg (fun L' h => hL L' (List.mem_cons_of_mem _ h)) (by simpa using h)
        obtain ⟨r', h1, -⟩ := h' Ls ts r hr
        exact ⟨r', h1⟩

variable {E : Env ℝ gs} {X : Type} [MeasurableSpace X] {μ : Measure X} {lik : List X → X → Idx gs → ℝ}

theorem integral_lik (hlik : ∀ h θ, ∫ x, lik h x θ ∂μ = 1) (h : List X) (a : Idx gs → ℝ) : ∫ x, ∑ θ, a θ * lik h x θ ∂μ = ∑ θ, a θ := by
  have hint : ∀ θ, Integrable (fun x => lik h x θ) μ := fun θ => by
    by_contra hn
    have := hlik h θ
    rw [integral_undef hn] at this
    exact zero_ne_one this
  rw [integral_finsetSum _ fun θ _ => (hint θ).const_mul _]
  refine Finset.sum_congr rfl fun θ _ => ?_
  rw [integral_const_mul, hlik, mul_one]

/-- the total over one further observation -/
theorem fwdPass_extend [Nonempty (Idx gs)] (hl : ∀ a, 0 < E.lattice a) (hX : ProperExt E.ext) {tm : TM ℝ} (hc : Conserving E tm) (h0 : ∀ h x θ, 0 ≤ lik h x θ)
    (hlik : ∀ h θ, ∫ x, lik h x θ ∂μ = 1) (t' : ℝ) :
    ∀ (xs h : List X) (al : Bool) (pr : PriorSpec ℝ gs) (a : Idx gs → ℝ) (ts : List ℝ), ProperPrior pr → (∀ x, 0 ≤ a x) → ts.length = xs.length →
      ∫ x, evOf (fwdPass E tm al pr (some a) (likelihoods lik h (xs ++ [x])) (ts ++ [t'])) ∂μ =
        if xs = [] then ∑ θ, a θ else evOf (fwdPass E tm al pr (some a) (likelihoods lik h xs) ts)
  | [], h, al, pr, a, ts, hpr, ha, hts => by
      rw [List.length_eq_zero_iff.1 hts, if_pos rfl, ← integral_lik hlik h a]
      congr 1
      funext x
      change evOf (fwdPass E tm al pr (some a) [lik h x] [t']) = _
      rcases fwdPass_step hl hX hc al pr hpr ha (h0 h x) t' with ⟨hz, pr', h'⟩ | ⟨q, al', pr', hq, hpr', h'⟩
      · rw [h', hz]; rfl
      · obtain ⟨r', h1, h2⟩ := h' [] [] ⟨[], false, pr'⟩ (by rw [fwdPass])
        rw [h1, h2]
        simp [evOf, normProd]
  | x0 :: xs, h, al, pr, a, [], hpr, ha, hts => by simp at hts
  | x0 :: xs, h, al, pr, a, t :: ts, hpr, ha, hts => by
      rw [if_neg (by simp)]
      simp only [List.cons_append, likelihoods]
      rcases fwdPass_step hl hX hc al pr hpr ha (h0 h x0) t with ⟨hz, pr', h'⟩ | ⟨q, al', pr', hq, hpr', h'⟩
      · simp only [h', evOf, if_true, integral_zero]
      · have hts' : ts.length = xs.length := by simpa using hts
        have hok : ∀ (ys : List X) (us : List ℝ), us.length = ys.length → evOf (fwdPass E tm al pr (some a) (lik h x0 :: likelihoods lik (h ++ [x0]) ys) (t :: us)) =
            (∑ θ, a θ * lik h x0 θ) * evOf (fwdPass E tm al' pr' (some q) (likelihoods lik (h ++ [x0]) ys) us) := by
          intro ys us hy
          obtain ⟨r, hr⟩ := fwdPass_ok hl hX hc (likelihoods lik (h ++ [x0]) ys) al' pr' q us hpr' hq.nonneg (likelihoods_nonneg h0 _ _) (by rw [likelihoods_length, hy])
          obtain ⟨r', h1, h2⟩ := h' _ us r hr
          rw [h1, h2, hr]
        have ih := fwdPass_extend hl hX hc h0 hlik t' xs (h ++ [x0]) al' pr' q ts hpr' hq.nonneg hts'
        have : ∀ x, evOf (fwdPass E tm al pr (some a) (lik h x0 :: likelihoods lik (h ++ [x0]) (xs ++ [x])) (t :: (ts ++ [t']))) =
            (∑ θ, a θ * lik h x0 θ) * evOf (fwdPass E tm al' pr' (some q) (likelihoods lik (h ++ [x0]) (xs ++ [x])) (ts ++ [t'])) := fun x => hok _ _ (by simp [hts'])
        simp only [this]
        rw [integral_const_mul, ih, hok xs ts hts']
        split
        · rename_i hx
          subst hx
          rw [hq.sum_one, List.length_eq_zero_iff.1 hts']
          simp [likelihoods, fwdPass, evOf, normProd]
        · rfl

/-- the total over all data sets -/
theorem fwdPass_iterated [Nonempty (Idx gs)] (hl : ∀ a, 0 < E.lattice a) (hX : ProperExt E.ext) {tm : TM ℝ} (hc : Conserving E tm) (h0 : ∀ h x θ, 0 ≤ lik h x θ)
    (hlik : ∀ h θ, ∫ x, lik h x θ ∂μ = 1) :
    ∀ (n : ℕ) (h : List X) (al : Bool) (pr : PriorSpec ℝ gs) (a : Idx gs → ℝ) (ts : List ℝ) (c : ℝ), ProperPrior pr → (∀ x, 0 ≤ a x) → ts.length = n →
      iterated μ n (fun xs => c * evOf (fwdPass E tm al pr (some a) (likelihoods lik h (List.ofFn xs)) ts)) = c * if n = 0 then 1 else ∑ θ, a θ
  | 0, h, al, pr, a, ts, c, hpr, ha, hts => by simp [iterated, likelihoods, fwdPass, evOf, normProd]
  | n + 1, h, al, pr, a, [], c, hpr, ha, hts => by simp at hts
  | n + 1, h, al, pr, a, t :: ts, c, hpr, ha, hts => by
      have hts' : ts.length = n := by simpa using hts
      rw [iterated, if_neg (Nat.succ_ne_zero n), ← integral_lik hlik h a, ← integral_const_mul]
      congr 1
      funext x
      simp only [List.ofFn_succ, Fin.cons_zero, Fin.cons_succ, likelihoods]
      rcases fwdPass_step hl hX hc al pr hpr ha (h0 h x) t with ⟨hz, pr', h'⟩ | ⟨q, al', pr', hq, hpr', h'⟩
      · have : ∀ k, iterated μ k (fun _ : Fin k → X => (0 : ℝ)) = 0 := by
          intro k
          induction k with
          | zero => rfl
          | succ k ih => rw [iterated]; simp [ih]
        simp only [h', evOf, if_true, hz, mul_zero, this]
      · have hok : ∀ xs : Fin n → X, evOf (fwdPass E tm al pr (some a) (lik h x :: likelihoods lik (h ++ [x]) (List.ofFn xs)) (t :: ts)) =
            (∑ θ, a θ * lik h x θ) * evOf (fwdPass E tm al' pr' (some q) (likelihoods lik (h ++ [x]) (List.ofFn xs)) ts) := by
          intro xs
          obtain ⟨r, hr⟩ := fwdPass_ok hl hX hc (likelihoods lik (h ++ [x]) (List.ofFn xs)) al' pr' q ts hpr' hq.nonneg (likelihoods_nonneg h0 _ _) (by rw [likelihoods_length, hts', List.length_ofFn])
          obtain ⟨r', h1, h2⟩ := h' _ ts r hr
          rw [h1, h2, hr]
        simp only [hok, ← mul_assoc]
        rw [fwdPass_iterated hl hX hc h0 hlik n (h ++ [x]) al' pr' q ts _ hpr' hq.nonneg hts', hq.sum_one, ite_self, mul_one]

end BL

namespace Props
open BL Spec
variable {K : Type} [Field K] [LinearOrder K] [IsStrictOrderedRing K] {d : ℕ} {gs : Fin d → ℕ} {X : Type} [MeasurableSpace X]

/-- **C69, partial.** Any observation model whose likelihoods have total one over all possible observations, with respect to any measure (sums, integrals), and may depend on earlier observations; a transition model of any
kind and nesting: a data set of any length has the evidence that results from adding one further observation, at any time, and integrating over it.
Missing: NotEqual (undefined for flat distributions); change-points if the cells of the grid do not have volume one, for which the claim is false (`C69_refuted`). -/
theorem C69_partial (μ : Measure X) (E : Env ℝ gs) (grid : (a : Fin d) → Fin (gs a) → ℝ) (tm : TM ℝ) (S : FitState ℝ gs) (π : Idx gs → ℝ)
    (hne : Nonempty (Idx gs)) (hl : ∀ a, 0 < E.lattice a) (hX : ProperExt E.ext) (hc : Conserving E tm) (hp : PriorMass E.cell S.prior π) (hpr : ProperPrior S.prior) (hπ : ∑ x, π x = 1)
    (lik : List X → X → Idx gs → ℝ) (h0 : ∀ h x θ, 0 ≤ lik h x θ) (hlik : ∀ h θ, ∫ x, lik h x θ ∂μ = 1) (xs : List X) (hxs : xs ≠ []) (ts : List ℝ) (hts : ts.length = xs.length) (t' : ℝ)
    (fo eo : Bool) (hmode : eo = true ∨ fo = true) :
    ∃ (before : FitState ℝ gs) (after : X → FitState ℝ gs),
      fit E grid tm (likelihoods lik [] xs) ts fo eo S = .ok before ∧
      (∀ x, fit E grid tm (likelihoods lik [] (xs ++ [x])) (ts ++ [t']) fo eo S = .ok (after x)) ∧
      ∫ x, (after x).logEv.exp ∂μ = before.logEv.exp := by
  have hcell : 0 < E.cell := cell_pos hl
  obtain ⟨pr0, h1, hpr0⟩ := computePrior_proper (E := { E with prior := S.prior }) hcell hp hpr hπ
  have ha : ∀ x, 0 ≤ 1 / E.cell * π x := fun x => mul_nonneg (div_nonneg zero_le_one hcell.le) (priorMass_nonneg hcell hp x)
  have hev : ∀ (ys : List X) (us : List ℝ), us.length = ys.length → ∃ S', fit E grid tm (likelihoods lik [] ys) us fo eo S = .ok S' ∧
      S'.logEv.exp = evOf (fwdPass E tm pr0.isArray pr0 (some fun x => 1 / E.cell * π x) (likelihoods lik [] ys) us) * E.cell := by
    intro ys us hy
    obtain ⟨r, hr⟩ := fwdPass_ok hl hX hc (likelihoods lik [] ys) pr0.isArray pr0 _ us hpr0 ha (likelihoods_nonneg h0 _ _) (by rw [likelihoods_length, hy])
    obtain ⟨S', h2, h3⟩ := fit_evOf (grid := grid) h1 hr hmode
    exact ⟨S', h2, by rw [hr]; exact h3⟩
  obtain ⟨before, hb1, hb2⟩ := hev xs ts hts
  choose after ha1 ha2 using fun x : X => hev (xs ++ [x]) (ts ++ [t']) (by simp [hts])
  refine ⟨before, after, hb1, ha1, ?_⟩
  simp only [ha2, hb2]
  rw [integral_mul_const, fwdPass_extend hl hX hc h0 hlik t' xs [] pr0.isArray pr0 _ ts hpr0 ha hts, if_neg hxs]

/-- **C61, all kinds of observations.** The evidence, integrated over all data sets of a given length (the last observation innermost), is one. -/
theorem C61_iterated_partial (μ : Measure X) (E : Env ℝ gs) (grid : (a : Fin d) → Fin (gs a) → ℝ) (tm : TM ℝ) (S : FitState ℝ gs) (π : Idx gs → ℝ)
    (hne : Nonempty (Idx gs)) (hl : ∀ a, 0 < E.lattice a) (hX : ProperExt E.ext) (hc : Conserving E tm) (hp : PriorMass E.cell S.prior π) (hpr : ProperPrior S.prior) (hπ : ∑ x, π x = 1)
    (lik : List X → X → Idx gs → ℝ) (h0 : ∀ h x θ, 0 ≤ lik h x θ) (hlik : ∀ h θ, ∫ x, lik h x θ ∂μ = 1) (n : ℕ) (ts : List ℝ) (hts : ts.length = n + 1)
    (fo eo : Bool) (hmode : eo = true ∨ fo = true) :
    ∃ result : (Fin (n + 1) → X) → FitState ℝ gs,
      (∀ xs, fit E grid tm (likelihoods lik [] (List.ofFn xs)) ts fo eo S = .ok (result xs)) ∧ (∀ xs, 0 ≤ (result xs).logEv.exp) ∧
      iterated μ (n + 1) (fun xs => (result xs).logEv.exp) = 1 := by
  have hcell : 0 < E.cell := cell_pos hl
  obtain ⟨pr0, h1, hpr0⟩ := computePrior_proper (E := { E with prior := S.prior }) hcell hp hpr hπ
  have ha : ∀ x, 0 ≤ 1 / E.cell * π x := fun x => mul_nonneg (div_nonneg zero_le_one hcell.le) (priorMass_nonneg hcell hp x)
  have hev : ∀ xs : Fin (n + 1) → X, ∃ S', fit E grid tm (likelihoods lik [] (List.ofFn xs)) ts fo eo S = .ok S' ∧
      S'.logEv.exp = E.cell * evOf (fwdPass E tm pr0.isArray pr0 (some fun x => 1 / E.cell * π x) (likelihoods lik [] (List.ofFn xs)) ts) := by
    intro xs
    obtain ⟨r, hr⟩ := fwdPass_ok hl hX hc (likelihoods lik [] (List.ofFn xs)) pr0.isArray pr0 _ ts hpr0 ha (likelihoods_nonneg h0 _ _) (by rw [likelihoods_length, hts, List.length_ofFn])
    obtain ⟨S', h2, h3⟩ := fit_evOf (grid := grid) h1 hr hmode
    exact ⟨S', h2, by rw [hr, mul_comm]; exact h3⟩
  choose result hres hexp using hev
  refine ⟨result, hres, fun xs => ?_, ?_⟩
  · rw [hexp]; exact mul_nonneg hcell.le evOf_nonneg
  · simp only [hexp]
    rw [fwdPass_iterated hl hX hc h0 hlik (n + 1) [] pr0.isArray pr0 _ ts _ hpr0 ha hts, if_neg (Nat.succ_ne_zero n), ← Finset.mul_sum, hπ, mul_one, mul_one_div_cancel hcell.ne']

/-- **C69 for the real-valued models** (Gaussian, Laplace, WhiteNoise): integral over all values of the next observation. -/
theorem C69_real (E : Env ℝ gs) (grid : (a : Fin d) → Fin (gs a) → ℝ) (tm : TM ℝ) (S : FitState ℝ gs) (π : Idx gs → ℝ)
    (hne : Nonempty (Idx gs)) (hl : ∀ a, 0 < E.lattice a) (hX : ProperExt E.ext) (hc : Conserving E tm) (hp : PriorMass E.cell S.prior π) (hpr : ProperPrior S.prior) (hπ : ∑ x, π x = 1)
    (m : OM) (hm : RealValued m) (h1 : m.segmentLength = 1) (hgrid : ∀ i, Admissible m (gridPoint grid i)) (ys : List ℝ) (hys : ys ≠ []) (ts : List ℝ) (hts : ts.length = ys.length) (t' : ℝ)
    (fo eo : Bool) (hmode : eo = true ∨ fo = true) :
    ∃ (before : FitState ℝ gs) (after : ℝ → FitState ℝ gs),
      fit E grid tm (ys.map fun y => m.likelihood grid (.flat [some y])) ts fo eo S = .ok before ∧
      (∀ y, fit E grid tm ((ys ++ [y]).map fun y => m.likelihood grid (.flat [some y])) (ts ++ [t']) fo eo S = .ok (after y)) ∧
      ∫ y, (after y).logEv.exp = before.logEv.exp := by
  have hd : ∀ θ, IsDensity fun y : ℝ => m.likelihood grid (.flat [some y]) θ := by
    intro θ
    have := (C57 m hm grid θ (hgrid θ) 0).2
    simpa [dataSegment, h1] using this
  have hlist : ∀ (l h : List ℝ), likelihoods (fun (_ : List ℝ) (y : ℝ) => m.likelihood grid (.flat [some y])) h l = l.map fun y => m.likelihood grid (.flat [some y]) := by
    intro l
    induction l with
    | nil => intro h; rfl
    | cons x l ih => intro h; simp only [likelihoods, List.map_cons, ih]
  obtain ⟨before, after, e1, e2, e3⟩ := C69_partial volume E grid tm S π hne hl hX hc hp hpr hπ (fun (_ : List ℝ) (y : ℝ) => m.likelihood grid (.flat [some y]))
    (fun _ y θ => (hd θ).nonneg y) (fun _ θ => (hd θ).total) ys hys ts hts t' fo eo hmode
  simp only [hlist] at e1 e2
  exact ⟨before, after, e1, e2, e3⟩

/-- The hypotheses are met: a Gaussian-like white-noise width that follows regime-switching after a walk, two observations and a third one later (functions of numpy and scipy). -/
example (y1 y2 : ℝ) : ∃ (before : FitState ℝ Ex.gs2) (after : ℝ → FitState ℝ Ex.gs2),
    fit ⟨fun _ => "std", fun _ => 1 / 2, .none, realExt 2 fun _ _ p => p⟩ (fun _ i => (i.val + 1) / 2)
      (.combined [.leaf (.grw "std") ["sigma"] [.scalar 1] none, .leaf .regimeSwitch ["log10pMin"] [.scalar (-3)] none])
      ([y1, y2].map fun y => OM.whiteNoise.likelihood (fun _ i => (i.val + 1) / 2) (.flat [some y])) [0, 1] true false ⟨.none, [], fun _ => [], 0, []⟩ = .ok before ∧
    (∀ y, fit ⟨fun _ => "std", fun _ => 1 / 2, .none, realExt 2 fun _ _ p => p⟩ (fun _ i => (i.val + 1) / 2)
      (.combined [.leaf (.grw "std") ["sigma"] [.scalar 1] none, .leaf .regimeSwitch ["log10pMin"] [.scalar (-3)] none])
      (([y1, y2] ++ [y]).map fun y => OM.whiteNoise.likelihood (fun _ i => (i.val + 1) / 2) (.flat [some y])) ([0, 1] ++ [7]) true false ⟨.none, [], fun _ => [], 0, []⟩ = .ok (after y)) ∧
    ∫ y, (after y).logEv.exp = before.logEv.exp := by
  have hne : Nonempty (Idx Ex.gs2) := ⟨fun _ => ⟨0, by simp [Ex.gs2]⟩⟩
  refine C69_real ⟨fun _ => "std", fun _ => 1 / 2, .none, realExt 2 fun _ _ p => p⟩ _ _ ⟨.none, [], fun _ => [], 0, []⟩ (fun _ => 1 / (Fintype.card (Idx Ex.gs2) : ℝ)) hne (fun _ => ?_) (realExt_proper _ _) ?_ ?_ ?_ ?_ _ (Or.inr (Or.inr (Or.inl rfl))) rfl ?_ [y1, y2] (by simp) [0, 1] rfl 7 true false (Or.inr rfl)
  · norm_num
  · simp [Conserving, ConservingAll, Env.axis, List.finRange_succ]
  · exact .flat
  · exact trivial
  · rw [Finset.sum_const, nsmul_eq_mul]
    exact mul_one_div_cancel (Nat.cast_ne_zero.2 Fintype.card_ne_zero)
  · intro i
    simp only [Admissible, gridPoint, Nat.lt_one_iff, dite_true]
    positivity

/-- **C69 fails for change-points** if the cells of the parameter grid do not have volume one: with cells of volume 1/2, adding an observation after a change-point and summing over its values halves the evidence. -/
theorem C69_refuted : ∃ (E : Env ℚ Ex.gs2) (tm : TM ℚ), (∀ a, 0 < E.lattice a) ∧ ProperExt E.ext ∧ PriorMass E.cell .none (fun _ : Idx Ex.gs2 => (1 / 2 : ℚ)) ∧ Normalised sticky ∧
    ∃ (before : FitState ℚ Ex.gs2) (after : Fin 2 → FitState ℚ Ex.gs2),
      fit E (Ex.grid Ex.gs2) tm (likelihoods sticky [] [0]) [0] true false (Ex.S0 .none) = .ok before ∧
      (∀ x, fit E (Ex.grid Ex.gs2) tm (likelihoods sticky [] ([0] ++ [x])) ([0] ++ [1]) true false (Ex.S0 .none) = .ok (after x)) ∧
      before.logEv.exp = 1 / 2 ∧ ∑ x, (after x).logEv.exp = 1 / 4 := by
  refine ⟨Ex.env Ex.gs2 (1 / 2), Ex.cp 0, by intro a; norm_num [Ex.env], ext_proper, ?_, sticky_normalised, ?_⟩
  · have h : (fun _ : Idx Ex.gs2 => (1 / 2 : ℚ)) = fun _ => 1 / (Fintype.card (Idx Ex.gs2) : ℚ) := by decide +kernel
    rw [h]; exact .flat
  · have hb : Ex.ev (fit (Ex.env Ex.gs2 (1 / 2)) (Ex.grid Ex.gs2) (Ex.cp 0) (likelihoods sticky [] [0]) [0] true false (Ex.S0 .none)) = some (1 / 2) := by decide +kernel
    have ha : ∀ x : Fin 2, Ex.ev (fit (Ex.env Ex.gs2 (1 / 2)) (Ex.grid Ex.gs2) (Ex.cp 0) (likelihoods sticky [] ([0] ++ [x])) ([0] ++ [1]) true false (Ex.S0 .none)) = some (1 / 8) := by decide +kernel
    obtain ⟨b, hb1, -⟩ := Ex.ok_of_ev (r := fit (Ex.env Ex.gs2 (1 / 2)) (Ex.grid Ex.gs2) (Ex.cp 0) (likelihoods sticky [] [0]) [0] true false (Ex.S0 .none)) (by rw [hb]; decide +kernel)
    choose a ha1 ha2 using fun x : Fin 2 => Ex.ok_of_ev (r := fit (Ex.env Ex.gs2 (1 / 2)) (Ex.grid Ex.gs2) (Ex.cp 0) (likelihoods sticky [] ([0] ++ [x])) ([0] ++ [1]) true false (Ex.S0 .none))
      (by rw [ha]; decide +kernel)
    refine ⟨b, a, hb1, ha1, ?_, ?_⟩
    · rw [hb1] at hb; exact Option.some.inj hb
    · have : ∀ x, (a x).logEv.exp = 1 / 8 := fun x => by
        have := ha x
        rw [ha1 x] at this
        exact Option.some.inj this
      simp only [this]
      decide +kernel

end Props
