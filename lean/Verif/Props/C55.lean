import Verif.Props.C07
import Verif.Lemmas.OnlineQuery
import Verif.Lemmas.ParserLoad
import Mathlib.Tactic.FieldSimp

/-! # C55: marginal parameter distributions -/

set_option linter.unusedSectionVars false

namespace Spec
open BL
variable {K : Type} [Field K] [LinearOrder K] {d : ℕ} {gs : Fin d → ℕ}

/-- probability that parameter `a` has its `i`-th value, if the joint distribution is `p` -/
def marginalProb (p : Idx gs → K) (a : Fin d) (i : Fin (gs a)) : K := ∑ x with x a = i, p x

/-- expectation of a quantity with the given values and probabilities -/
def expectation (values probs : List K) : K := (List.zipWith (· * ·) values probs).sum

end Spec

namespace BL
open Spec
variable {K : Type} [Field K] [LinearOrder K] [IsStrictOrderedRing K] {d : ℕ} {gs : Fin d → ℕ}

theorem marginal_ofFn (a : Fin d) (p : Idx gs → K) : marginal a p = List.ofFn (marginalProb p a) := by
  rw [marginal, List.ofFn_eq_map]
  apply List.map_congr_left
  intro i _
  rw [marginalProb, Finset.sum_filter]

theorem marginal_total (a : Fin d) (p : Idx gs → K) : (List.ofFn (marginalProb p a)).sum = ∑ x, p x := by
  rw [List.sum_ofFn]
  simp only [marginalProb]
  rw [Finset.sum_fiberwise (s := Finset.univ) (g := fun x : Idx gs => x a) (f := p)]

theorem marginal_mean (grid : (a : Fin d) → Fin (gs a) → K) (a : Fin d) (p : Idx gs → K) :
    expectation (List.ofFn (grid a)) (List.ofFn (marginalProb p a)) = mean grid a p := by
  have : List.zipWith (· * ·) (List.ofFn (grid a)) (List.ofFn (marginalProb p a)) = List.ofFn fun i => grid a i * marginalProb p a i := by
    apply List.ext_getElem
    · simp
    · intro i h1 h2; simp
  rw [expectation, this, List.sum_ofFn, mean]
  rw [← Finset.sum_fiberwise (s := Finset.univ) (g := fun x : Idx gs => x a) (f := fun x => p x * grid a (x a))]
  apply Finset.sum_congr rfl
  intro i _
  rw [marginalProb, Finset.mul_sum]
  apply Finset.sum_congr rfl
  intro x hx
  rw [(Finset.mem_filter.1 hx).2, mul_comm]

theorem paramIndex_inj {names : Fin d → String} (h : Function.Injective names) (a : Fin d) : paramIndex names (names a) = some a := by
  obtain ⟨b, h1, h2⟩ := paramIndex_some (names := names) (name := names a) ⟨a, rfl⟩
  rw [h1, h h2]

theorem filterMap_val (f : (Idx gs → K) → K) : ∀ l : List (Cell (Idx gs → K)), (∀ c ∈ l, ∃ p, c = .val p ∧ ∑ x, p x = 1) →
    (l.filterMap fun c => c.get?.map f).map some = l.map fun c => c.get?.map f
  | [], _ => rfl
  | c :: l, h => by
      obtain ⟨p, rfl, -⟩ := h c (by simp)
      rw [List.filterMap_cons, List.map_cons, ← filterMap_val f l fun c hc => h c (by simp [hc])]
      rfl

/-- the stored means are the means of the stored posteriors -/
theorem fit_means (E : Env K gs) (grid : (a : Fin d) → Fin (gs a) → K) (tm : TM K) (Ls : List (Idx gs → K)) (ts : List K)
    (fo : Bool) (S S' : FitState K gs) (h : fit E grid tm Ls ts fo false S = .ok S') (hfin : S'.logEv ≠ LogV.ninf) (a : Fin d) :
    (S'.means a).map some = S'.posts.map fun c => c.get?.map (mean grid a) := by
  obtain ⟨-, hsum⟩ := Props.C07_normalised E grid tm Ls ts fo S S' h hfin
  simp only [fit, bind, Except.bind] at h
  split at h
  · simp at h
  · split at h
    · simp at h
    · split at h
      · cases h; simp at hfin
      · simp only [Bool.false_eq_true, if_false] at h
        split at h
        · cases h
          simp [List.map_map, Function.comp_def, Cell.get?]
        · split at h
          · simp at h
          · split at h
            · cases h; simp at hfin
            · cases h
              exact filterMap_val _ _ hsum

end BL

namespace Props
open BL Spec
variable {K : Type} [Field K] [LinearOrder K] [IsStrictOrderedRing K] {d : ℕ} {gs : Fin d → ℕ}

/-- **C55.** After every successful fit with stored posteriors and non-zero evidence (any model, prior, data, `forwardOnly` or not; distinct
parameter names and time stamps, one per data point): let `p` be the joint posterior stored for the `k`-th time stamp `t`.  Then for every parameter
1. `getParameterDistribution(t, name, density=False)` returns the grid values and, for each of them, the sum of `p` over all values of the other
parameters; these sum to one, and their expectation is the `k`-th entry of `getParameterMeanValues(name)`;
2. with `density=True` it returns these probabilities divided by the lattice constant, so that they integrate to one;
3. if there are at least two time stamps, `getParameterDistributions(name)` returns the same in its `k`-th row. -/
theorem C55 (E : Env K gs) (grid : (a : Fin d) → Fin (gs a) → K) (tm : TM K) (Ls : List (Idx gs → K)) (ts : List K)
    (fo : Bool) (S S' : FitState K gs) (h : fit E grid tm Ls ts fo false S = .ok S') (hfin : S'.logEv ≠ LogV.ninf)
    (hnames : Function.Injective E.names) (hl : ∀ a, E.lattice a ≠ 0) (hts : ts.Nodup) (hlen : ts.length = Ls.length) (k : ℕ) (t : K) (hk : ts[k]? = some t) (a : Fin d) :
    let F := S'.fitted E grid ts
    ∃ (p : Idx gs → K) (m : List K), S'.posts[k]? = some (.val p) ∧
      F.distribution (.at t) (E.names a) false = .ok (List.ofFn (grid a), some (List.ofFn (marginalProb p a))) ∧
      (List.ofFn (marginalProb p a)).sum = 1 ∧
      F.meanValues (E.names a) = .ok m ∧ m[k]? = some (expectation (List.ofFn (grid a)) (List.ofFn (marginalProb p a))) ∧
      (∃ q, F.distribution (.at t) (E.names a) true = .ok (List.ofFn (grid a), some q) ∧ q.map (· * E.lattice a) = List.ofFn (marginalProb p a) ∧
        (q.map (· * E.lattice a)).sum = 1) ∧
      (2 ≤ ts.length → ∀ density, ∃ rows r, F.distributions (E.names a) density = .ok (List.ofFn (grid a), rows) ∧ rows.length = ts.length ∧ rows[k]? = some r ∧
        F.distribution (.at t) (E.names a) density = .ok (List.ofFn (grid a), r)) := by
  intro F
  obtain ⟨hpl, hsum⟩ := C07_normalised E grid tm Ls ts fo S S' h hfin
  have hmeans := fit_means E grid tm Ls ts fo S S' h hfin a
  have hkl : k < S'.posts.length := by
    obtain ⟨h1, -⟩ := List.getElem?_eq_some_iff.1 hk
    omega
  obtain ⟨p, hp, hp1⟩ := hsum _ (List.getElem_mem hkl)
  have hpk : S'.posts[k]? = some (.val p) := by rw [List.getElem?_eq_getElem hkl, hp]
  have hcomp : F.computed = true := by
    change (!S'.posts.isEmpty) = true
    cases hS : S'.posts with
    | nil => rw [hS] at hkl; simp at hkl
    | cons c l => rfl
  have hidx : indexOf? ts t = some k := indexOf_nodup hts hk
  have hpa : paramIndex F.names (E.names a) = some a := paramIndex_inj hnames a
  have hFk : F.posts[k]? = some (some p) := by
    change (S'.posts.map Cell.get?)[k]? = _
    rw [List.getElem?_map, hpk]; rfl
  have hpick : F.pick (.at t) = .ok (some p) := by
    unfold Fitted.pick
    have : indexOf? F.ts t = some k := hidx
    simp only [this, hFk]
  have hd : ∀ density, F.distribution (.at t) (E.names a) density = .ok (List.ofFn (grid a), toDensity density (E.lattice a) (List.ofFn (marginalProb p a))) := by
    intro density
    unfold Fitted.distribution
    rw [if_neg (by rw [hcomp]; simp), hpick]
    simp only [hpa, Option.bind_some, marginal_ofFn]
    rfl
  refine ⟨p, S'.means a, hpk, hd false, by rw [marginal_total, hp1], ?_, ?_, ?_, ?_⟩
  · unfold Fitted.meanValues
    rw [hpa]
    rfl
  · rw [marginal_mean]
    have := congrArg (·[k]?) hmeans
    simp only [List.getElem?_map, hpk, Option.map_some, Cell.get?] at this
    cases hm : (S'.means a)[k]? with
    | none => rw [hm] at this; simp at this
    | some y => rw [hm] at this; simpa using this
  · refine ⟨(List.ofFn (marginalProb p a)).map (· / E.lattice a), ?_, ?_, ?_⟩
    · rw [hd true, toDensity, if_pos rfl, if_neg (hl a)]
    · rw [List.map_map]
      conv_rhs => rw [← List.map_id (List.ofFn (marginalProb p a))]
      apply List.map_congr_left
      intro x _
      simp [hl a]
    · rw [List.map_map]
      have : (List.ofFn (marginalProb p a)).map ((· * E.lattice a) ∘ (· / E.lattice a)) = List.ofFn (marginalProb p a) := by
        conv_rhs => rw [← List.map_id (List.ofFn (marginalProb p a))]
        apply List.map_congr_left
        intro x _
        simp [hl a]
      rw [this, marginal_total, hp1]
  · intro h2 density
    refine ⟨F.posts.map fun p => p.bind fun p => toDensity density (E.lattice a) (marginal a p), toDensity density (E.lattice a) (List.ofFn (marginalProb p a)), ?_, ?_, ?_, hd density⟩
    · unfold Fitted.distributions
      rw [if_neg (by rw [hcomp]; simp), if_neg (by change ¬ ts.length < 2; omega), hpa]
      rfl
    · rw [List.length_map]
      change (S'.posts.map Cell.get?).length = _
      rw [List.length_map, hpl, hlen]
    · rw [List.getElem?_map, hFk]
      simp only [Option.map_some, Option.bind_some, marginal_ofFn]

/-- **C55, time average.** `getParameterDistribution('avg', name)` sums to one; each entry is the average of the entries at the single time stamps, and the
expectation is the average of `getParameterMeanValues(name)`. -/
theorem C55_average (E : Env K gs) (grid : (a : Fin d) → Fin (gs a) → K) (tm : TM K) (Ls : List (Idx gs → K)) (ts : List K)
    (fo : Bool) (S S' : FitState K gs) (h : fit E grid tm Ls ts fo false S = .ok S') (hfin : S'.logEv ≠ LogV.ninf)
    (hnames : Function.Injective E.names) (hne : Ls ≠ []) (a : Fin d) :
    ∃ (ps : List (Idx gs → K)) (q : List K), S'.posts = ps.map Cell.val ∧
      (S'.fitted E grid ts).distribution .avg (E.names a) false = .ok (List.ofFn (grid a), some q) ∧
      q = List.ofFn (fun i => (ps.map fun p => marginalProb p a i).sum / (Ls.length : K)) ∧ q.sum = 1 ∧
      expectation (List.ofFn (grid a)) q = (S'.means a).sum / (Ls.length : K) := by
  obtain ⟨hpl, hsum⟩ := C07_normalised E grid tm Ls ts fo S S' h hfin
  have hmeans := fit_means E grid tm Ls ts fo S S' h hfin a
  obtain ⟨ps, hps⟩ : ∃ ps : List (Idx gs → K), S'.posts = ps.map Cell.val := by
    revert hsum
    clear * -
    generalize S'.posts = l
    intro hsum
    induction l with
    | nil => exact ⟨[], rfl⟩
    | cons c l ih =>
        obtain ⟨p, rfl, -⟩ := hsum c (by simp)
        obtain ⟨ps, rfl⟩ := ih fun c hc => hsum c (by simp [hc])
        exact ⟨p :: ps, rfl⟩
  have hn : ps.length = Ls.length := by rw [← hpl, hps, List.length_map]
  have hL : (Ls.length : K) ≠ 0 := by
    have := List.length_pos_of_ne_nil hne
    exact_mod_cast this.ne'
  have hsum1 : ∀ p ∈ ps, ∑ x, p x = 1 := by
    intro p hp
    obtain ⟨p', h1, h2⟩ := hsum (.val p) (by rw [hps]; exact List.mem_map_of_mem hp)
    cases h1; exact h2
  have hm : S'.means a = ps.map (mean grid a) := by
    rw [hps, List.map_map] at hmeans
    have : (S'.means a).map some = (ps.map (mean grid a)).map some := by
      rw [hmeans, List.map_map]; rfl
    exact List.map_injective_iff.2 (Option.some_injective _) this
  have havg : timeAverage (S'.fitted E grid ts).posts = some fun x => (ps.map fun p => p x).sum / (Ls.length : K) := by
    have e : (S'.fitted E grid ts).posts = ps.map some := by
      change S'.posts.map Cell.get? = _
      rw [hps, List.map_map]; rfl
    rw [timeAverage, e, if_neg (by rw [List.length_map, hn]; have := List.length_pos_of_ne_nil hne; omega), show ps.map some = ps.map (fun x => some (id x)) from rfl, allSome_map, List.length_map, hn, List.map_id]
    rfl
  have key : ∀ (ps : List (Idx gs → K)) (c : K) (i : Fin (gs a)), marginalProb (fun x => (ps.map fun p => p x).sum / c) a i = (ps.map fun p => marginalProb p a i).sum / c := by
    intro ps c i
    unfold marginalProb
    rw [← Finset.sum_div]
    congr 1
    induction ps with
    | nil => simp
    | cons p ps ih => simp only [List.map_cons, List.sum_cons, Finset.sum_add_distrib, ih]
  have keyt : ∀ (ps : List (Idx gs → K)) (c : K), ∑ x, (ps.map fun p => p x).sum / c = (ps.map fun p => ∑ x, p x).sum / c := by
    intro ps c
    rw [← Finset.sum_div]
    congr 1
    induction ps with
    | nil => simp
    | cons p ps ih => simp only [List.map_cons, List.sum_cons, Finset.sum_add_distrib, ih]
  have keym : ∀ (ps : List (Idx gs → K)) (c : K), mean grid a (fun x => (ps.map fun p => p x).sum / c) = (ps.map (mean grid a)).sum / c := by
    intro ps c
    unfold mean
    simp only [div_mul_eq_mul_div]
    rw [← Finset.sum_div]
    congr 1
    induction ps with
    | nil => simp
    | cons p ps ih => simp only [List.map_cons, List.sum_cons, add_mul, Finset.sum_add_distrib, ih]
  refine ⟨ps, List.ofFn (marginalProb (fun x => (ps.map fun p => p x).sum / (Ls.length : K)) a), hps, ?_, ?_, ?_, ?_⟩
  · have hcomp : (S'.fitted E grid ts).computed = true := by
      change (!S'.posts.isEmpty) = true
      rw [hps]
      cases ps with
      | nil => exact absurd (List.length_eq_zero_iff.1 hn.symm) hne
      | cons c l => rfl
    unfold Fitted.distribution
    rw [if_neg (by rw [hcomp]; simp)]
    have hpa : paramIndex (S'.fitted E grid ts).names (E.names a) = some a := paramIndex_inj hnames a
    simp only [Fitted.pick, havg, hpa, Option.bind_some, marginal_ofFn]
    rfl
  · congr 1
    funext i
    exact key ps _ i
  · rw [marginal_total, keyt, List.map_congr_left hsum1]
    simp [hn, hL]
  · rw [marginal_mean, keym, hm]

/-- two parameters with two and three values -/
def _root_.Ex.gs23 : Fin 2 → ℕ := ![2, 3]

/-- a study with the parameters `x`, `y` -/
def _root_.Ex.env23 : Env ℚ Ex.gs23 := ⟨![ "x", "y"], ![1 / 2, 2], .none, Ex.ext Ex.gs23⟩

/-- a likelihood -/
def _root_.Ex.lik23 (a b c : ℚ) : Idx Ex.gs23 → ℚ := fun x => (if (x 0).val = 0 then a else 1) * (if (x 1).val = 0 then b else c)

/-- the hypotheses are met: two parameters, three data points -/
example : ∃ S', fit Ex.env23 (fun a i => (i.val : ℚ)) (.combined [Ex.grw 1, Ex.regime])
    [Ex.lik23 1 2 3, Ex.lik23 0 1 2, Ex.lik23 3 1 1] [0, 1, 2] false false (Ex.S0 (.none)) = .ok S' ∧
    S'.logEv ≠ LogV.ninf ∧ Function.Injective Ex.env23.names ∧ (∀ a, Ex.env23.lattice a ≠ 0) ∧ ([0, 1, 2] : List ℚ).Nodup := by
  obtain ⟨S', h1, h2⟩ := Ex.ok_of_ev (r := fit Ex.env23 (fun a i => (i.val : ℚ)) (.combined [Ex.grw 1, Ex.regime])
    [Ex.lik23 1 2 3, Ex.lik23 0 1 2, Ex.lik23 3 1 1] [0, 1, 2] false false (Ex.S0 (.none))) (by decide +kernel)
  exact ⟨S', h1, h2, by decide +kernel, by decide +kernel, by decide +kernel⟩

end Props
