import Verif.Props.C55

/-! # C60: simulated observations -/

set_option linter.unusedSectionVars false

namespace Spec
open BL
variable {K : Type} [Field K] [LinearOrder K] {d : ℕ} {gs : Fin d → ℕ}

/-- probability (density) of the observation `x` if the parameters have the distribution `p` -/
def predicted {D : Type} (pdf : D → Idx gs → K) (p : Idx gs → K) (x : D) : K := ∑ θ, p θ * pdf x θ

/-- the average of the distributions `ps` -/
def averageOf (ps : List (Idx gs → K)) : Idx gs → K := fun x => (ps.map fun p => p x).sum / (ps.length : K)

end Spec

namespace Props
open BL Spec
variable {K : Type} [Field K] [LinearOrder K] [IsStrictOrderedRing K] {d : ℕ} {gs : Fin d → ℕ}

/-- what `simulate` returns for a distribution `p` of the parameters -/
def Simulated {D : Type} (sim : Bool → Except PyErr (Option (List K))) (pdf : D → Idx gs → K) (xs : List D) (p : Idx gs → K) : Prop :=
  sim true = .ok (some (xs.map (predicted pdf p))) ∧ (∀ x ∈ xs, 0 ≤ predicted pdf p x) ∧
  ((xs.map (predicted pdf p)).sum ≠ 0 → ∃ r, sim false = .ok (some r) ∧ r = xs.map (fun x => predicted pdf p x / (xs.map (predicted pdf p)).sum) ∧
    (∀ y ∈ r, 0 ≤ y) ∧ r.sum = 1) ∧
  ((∀ θ, (xs.map fun x => pdf x θ).sum = 1) → (xs.map (predicted pdf p)).sum = 1 ∧ sim false = sim true)

theorem simulated_of {D : Type} {F : Fitted K gs} {seg : ℕ} (hseg : seg ≤ 1) {pdf : D → Idx gs → K} (hpdf : ∀ x θ, 0 ≤ pdf x θ) (xs : List D) (t : Option K) {p : Idx gs → K}
    (hp0 : ∀ θ, 0 ≤ p θ) (hp1 : ∑ θ, p θ = 1) (h : F.pick (t.elim .avg .at) = .ok (some p)) : Simulated (F.simulate seg pdf xs t) pdf xs p := by
  have hx : ∀ x, 0 ≤ predicted pdf p x := fun x => Finset.sum_nonneg fun θ _ => mul_nonneg (hp0 θ) (hpdf x θ)
  have e : (xs.map fun xi => ∑ g, pdf xi g * p g) = xs.map (predicted pdf p) := by
    apply List.map_congr_left
    intro x _
    exact Finset.sum_congr rfl fun _ _ => mul_comm _ _
  have e1 : F.simulate seg pdf xs t true = .ok (some (xs.map (predicted pdf p))) := by
    unfold Fitted.simulate
    rw [if_neg (by omega), h]
    simp only [e, ↓reduceIte]
  have e2 : (xs.map (predicted pdf p)).sum ≠ 0 → F.simulate seg pdf xs t false = .ok (some (xs.map fun x => predicted pdf p x / (xs.map (predicted pdf p)).sum)) := by
    intro hs
    unfold Fitted.simulate
    rw [if_neg (by omega), h]
    have hne : xs.isEmpty = false := by cases xs <;> simp at hs ⊢
    simp only [e, hne, Bool.false_eq_true, if_false, if_neg hs, List.map_map]
    rfl
  refine ⟨e1, fun x _ => hx x, ?_, ?_⟩
  · intro hs
    have hpos : 0 ≤ (xs.map (predicted pdf p)).sum := List.sum_nonneg (by
      intro y hy
      obtain ⟨x, -, rfl⟩ := List.mem_map.1 hy
      exact hx x)
    refine ⟨_, e2 hs, rfl, ?_, ?_⟩
    · intro y hy
      obtain ⟨x, -, rfl⟩ := List.mem_map.1 hy
      exact div_nonneg (hx x) hpos
    · have : ∀ (xs : List D) (s : K), (xs.map fun x => predicted pdf p x / s).sum = (xs.map (predicted pdf p)).sum / s := by
        intro xs s
        induction xs with
        | nil => simp
        | cons x xs ih => simp only [List.map_cons, List.sum_cons, ih, add_div]
      rw [this, div_self hs]
  · intro hsum
    have hs : (xs.map (predicted pdf p)).sum = 1 := by
      have : ∀ xs : List D, (xs.map (predicted pdf p)).sum = ∑ θ, p θ * (xs.map fun x => pdf x θ).sum := by
        intro xs
        induction xs with
        | nil => simp
        | cons x xs ih =>
            simp only [List.map_cons, List.sum_cons, mul_add, Finset.sum_add_distrib, ih]
            rfl
      rw [this]
      simp only [hsum, mul_one, hp1]
    refine ⟨hs, ?_⟩
    rw [e1, e2 (by rw [hs]; exact one_ne_zero), hs]
    simp

/-- **C60.** After every successful fit with stored posteriors and non-zero evidence (hypotheses of C07: non-negative likelihoods and prior, external
functions that do not create negative values) of a study with segment length one and a non-negative likelihood `pdf`: for every time stamp `t` (the `k`-th) and every list of
observations `xs`, with `p` the posterior stored for `t`,
`simulate(xs, t, density=True)` returns the posterior-weighted likelihood of each observation, `simulate(xs, t)` these values divided by their sum (if not zero), which are
non-negative and sum to one.  If the likelihoods of the observations `xs` sum to one for all parameter values, both agree.  The same holds without time stamp
for the average of all posteriors. -/
theorem C60 {D : Type} (E : Env K gs) (grid : (a : Fin d) → Fin (gs a) → K) (tm : TM K) (Ls : List (Idx gs → K)) (ts : List K)
    (fo : Bool) (S S' : FitState K gs) (hX : ExtNN E.ext) (hl : ∀ a, 0 ≤ E.lattice a) (hpr : PriorNN S.prior)
    (hL : ∀ L ∈ Ls, ∀ x, 0 ≤ L x) (h : fit E grid tm Ls ts fo false S = .ok S') (hfin : S'.logEv ≠ LogV.ninf)
    (hts : ts.Nodup) (hlen : ts.length = Ls.length) (hne : Ls ≠ []) (seg : ℕ) (hseg : seg ≤ 1) (pdf : D → Idx gs → K) (hpdf : ∀ x θ, 0 ≤ pdf x θ) (xs : List D) :
    ∃ ps : List (Idx gs → K), S'.posts = ps.map .val ∧ ps.length = ts.length ∧
      (∀ (k : ℕ) (t : K) (p : Idx gs → K), ts[k]? = some t → ps[k]? = some p → Simulated ((S'.fitted E grid ts).simulate seg pdf xs (some t)) pdf xs p) ∧
      Simulated ((S'.fitted E grid ts).simulate seg pdf xs none) pdf xs (averageOf ps) := by
  obtain ⟨hall, -⟩ := C07_distribution E grid tm Ls ts fo S S' hX hl hpr hL h hfin
  obtain ⟨hpl, -⟩ := C07_normalised E grid tm Ls ts fo S S' h hfin
  obtain ⟨ps, hps⟩ : ∃ ps : List (Idx gs → K), S'.posts = ps.map Cell.val := by
    revert hall
    clear * -
    generalize S'.posts = l
    intro hall
    induction l with
    | nil => exact ⟨[], rfl⟩
    | cons c l ih =>
        obtain ⟨p, rfl, -⟩ := hall c (by simp)
        obtain ⟨ps, rfl⟩ := ih fun c hc => hall c (by simp [hc])
        exact ⟨p :: ps, rfl⟩
  have hgood : ∀ p ∈ ps, (∀ x, 0 ≤ p x) ∧ ∑ x, p x = 1 := by
    intro p hp
    obtain ⟨p', h1, h2⟩ := hall (.val p) (by rw [hps]; exact List.mem_map_of_mem hp)
    cases h1; exact h2
  have hn : ps.length = ts.length := by rw [hlen, ← hpl, hps, List.length_map]
  have e : (S'.fitted E grid ts).posts = ps.map some := by
    change S'.posts.map Cell.get? = _
    rw [hps, List.map_map]; rfl
  refine ⟨ps, hps, hn, ?_, ?_⟩
  · intro k t p hk hp
    obtain ⟨h1, h2⟩ := hgood p (List.mem_of_getElem? hp)
    refine simulated_of hseg hpdf xs (some t) h1 h2 ?_
    change (S'.fitted E grid ts).pick (.at t) = _
    unfold Fitted.pick
    have : indexOf? (S'.fitted E grid ts).ts t = some k := indexOf_nodup hts hk
    simp only [this, e, List.getElem?_map, hp, Option.map_some]
  · have hL0 : 0 < ps.length := by
      have := List.length_pos_of_ne_nil hne
      omega
    have hLK : (0 : K) < (ps.length : K) := by exact_mod_cast hL0
    refine simulated_of hseg hpdf xs none (p := averageOf ps) ?_ ?_ ?_
    · intro x
      refine div_nonneg (List.sum_nonneg ?_) hLK.le
      intro y hy
      obtain ⟨p, hp, rfl⟩ := List.mem_map.1 hy
      exact (hgood p hp).1 x
    · have keyt : ∀ (ps : List (Idx gs → K)) (c : K), ∑ x, (ps.map fun p => p x).sum / c = (ps.map fun p => ∑ x, p x).sum / c := by
        intro ps c
        rw [← Finset.sum_div]
        congr 1
        induction ps with
        | nil => simp
        | cons p ps ih => simp only [List.map_cons, List.sum_cons, Finset.sum_add_distrib, ih]
      unfold averageOf
      rw [keyt, List.map_congr_left fun p hp => (hgood p hp).2]
      simp [hLK.ne']
    · change Except.ok (timeAverage (S'.fitted E grid ts).posts) = _
      rw [timeAverage, e, if_neg (by rw [List.length_map]; omega), show ps.map some = ps.map (fun x => some (id x)) from rfl, allSome_map, List.length_map, List.map_id]
      rfl

/-- the hypotheses are met: the study of C55 and observations 0, 1 with likelihoods that sum to one -/
example : ExtNN Ex.env23.ext ∧ (∀ a, 0 ≤ Ex.env23.lattice a) ∧ PriorNN (Ex.S0 (gs := Ex.gs23) .none).prior ∧
    (∀ L ∈ [Ex.lik23 1 2 3, Ex.lik23 0 1 2, Ex.lik23 3 1 1], ∀ x, 0 ≤ L x) ∧
    ∀ θ : Idx Ex.gs23, (([0, 1] : List ℕ).map fun x => if x = 0 then ((θ 1).val : ℚ) / 4 else 1 - ((θ 1).val : ℚ) / 4).sum = 1 := by
  refine ⟨⟨?_, ?_, ?_, ?_⟩, by decide +kernel, trivial, by decide +kernel, fun θ => by simp⟩
  · intro s k; simp only [Ex.env23, Ex.ext]; split <;> norm_num
  · intro a b k; simp only [Ex.env23, Ex.ext]; split <;> norm_num
  · intro a b c k l; simp only [Ex.env23, Ex.ext]; split <;> norm_num
  · intro a s p h x; exact h x

/-- longer segments are refused -/
theorem C60_segments {D : Type} (F : Fitted K gs) (seg : ℕ) (h : 2 ≤ seg) (pdf : D → Idx gs → K) (xs : List D) (t : Option K) (density : Bool) :
    F.simulate seg pdf xs t density = .error .notImplemented := by
  unfold Fitted.simulate
  rw [if_pos (by omega)]

end Props
