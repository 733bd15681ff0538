import Verif.Props.C62
import Verif.Props.C08
import Verif.Props.C55
import Verif.Props.C61
import Verif.Lemmas.Positive

/-! # C70: data that are possible for all parameter values can always be fitted -/

set_option linter.unusedSectionVars false

namespace Props
open BL Spec

variable {K : Type} [Field K] [LinearOrder K] [IsStrictOrderedRing K] {d : ℕ} {gs : Fin d → ℕ}

theorem sumLog_pos {E : Env K gs} (hl : ∀ a, 0 < E.lattice a) {st : List (Step K gs)} (h : ∀ s ∈ st, 0 < s.norm) : 0 < (sumLog E st).exp := by
  rw [sumLog_exp]
  refine mul_pos ?_ (env_cell_pos hl)
  unfold normProd
  refine List.prod_pos fun x hx => ?_
  obtain ⟨s, hs, rfl⟩ := List.mem_map.1 hx
  exact h s hs

/-- **C70 (partial).** The prior excludes no parameter value and the likelihoods of all data points are positive on the parameter grid.  Then `fit` succeeds in all modes, for every (well-formed)
transition model without NotEqual and for all time stamps: the evidence is not zero, every time step has a positive local evidence (never undefined), and - unless only the evidence was asked
for - every stored posterior is a distribution that excludes no parameter value. -/
theorem C70_partial (E : Env K gs) (grid : (a : Fin d) → Fin (gs a) → K) (tm : TM K) (S : FitState K gs) (hne : Nonempty (Idx gs)) (hl : ∀ a, 0 < E.lattice a) (hX : ProperExt E.ext)
    (htm : Spreading E tm) (hpr : FullPrior S.prior) (Ls : List (Idx gs → K)) (ts : List K) (hlen : ts.length = Ls.length) (hL : ∀ L ∈ Ls, ∀ x, 0 < L x) (fo eo : Bool) :
    ∃ S', fit E grid tm Ls ts fo eo S = .ok S' ∧ 0 < S'.logEv.exp ∧
      S'.locals.length = Ls.length ∧ (∀ c ∈ S'.locals, ∃ v, c = .val v ∧ 0 < v) ∧
      (eo = false → S'.posts.length = Ls.length ∧ (∀ c ∈ S'.posts, ∃ p, c = .val p ∧ (∀ x, 0 < p x) ∧ ∑ x, p x = 1) ∧ ∀ a, (S'.means a).length = Ls.length) := by
  obtain ⟨a, pr, h1, h2, h3⟩ := computePrior_full (E := { E with prior := S.prior }) hl hpr
  obtain ⟨r, h4, h5, h6, h7, h8⟩ := fwdPass_full hl hX htm Ls ts pr.isArray pr a hL hlen h3 h2
  have hn : r.steps.length = Ls.length := by rw [← h7, List.length_map]
  have hev := sumLog_pos hl (fun s hs => (h8 s hs).1)
  have hloc : ∀ c ∈ r.steps.map fun s => Cell.val (s.norm * E.cell), ∃ v, c = .val v ∧ 0 < v := by
    intro c hc
    obtain ⟨s, hs, rfl⟩ := List.mem_map.1 hc
    exact ⟨_, rfl, mul_pos (h8 s hs).1 (env_cell_pos hl)⟩
  have hlik : ∀ s ∈ r.steps, ∀ x, 0 < s.lik x := fun s hs => hL s.lik (by rw [← h7]; exact List.mem_map_of_mem hs)
  unfold fit
  simp only [h1, h4, h5, bind, Except.bind, Bool.false_eq_true, if_false]
  cases eo with
  | true => exact ⟨_, rfl, hev, by simpa using hn, hloc, by simp⟩
  | false =>
      cases fo with
      | true =>
          refine ⟨_, rfl, hev, by simpa using hn, hloc, fun _ => ⟨by simpa using hn, ?_, fun a => by simpa using hn⟩⟩
          intro c hc
          obtain ⟨s, hs, rfl⟩ := List.mem_map.1 hc
          exact ⟨_, rfl, (h8 s hs).2⟩
      | false =>
          obtain ⟨o, b1, b2, _, b4, b5, b6, b7⟩ := bwdPass_full (E := { E with prior := r.prior }) hl hX h6 (spreading_prior _ tm htm) r.steps fun s hs => ⟨(h8 s hs).2.1, hlik s hs⟩
          simp only [b1, b2, Bool.false_eq_true, if_false]
          refine ⟨_, rfl, hev, b5.trans hn, b7, fun _ => ⟨b4.trans hn, b6, fun a => ?_⟩⟩
          have := congrArg List.length (filterMap_val (mean grid a) o.posts fun c hc => by
            obtain ⟨p, hp, _, hs⟩ := b6 c hc
            exact ⟨p, hp, hs⟩)
          simpa using this.trans (by simpa using b4.trans hn)

/-- **C70 (modes).** Under the same hypotheses the reported evidence does not depend on the mode: full fit, forward-only and evidence-only agree for all time stamps. -/
theorem C70_modes (E : Env K gs) (grid : (a : Fin d) → Fin (gs a) → K) (tm : TM K) (S : FitState K gs) (hne : Nonempty (Idx gs)) (hl : ∀ a, 0 < E.lattice a) (hX : ProperExt E.ext)
    (htm : Spreading E tm) (hpr : FullPrior S.prior) (Ls : List (Idx gs → K)) (ts : List K) (hlen : ts.length = Ls.length) (hL : ∀ L ∈ Ls, ∀ x, 0 < L x) :
    ∃ ev : LogV K, ∀ fo eo, ∃ S', fit E grid tm Ls ts fo eo S = .ok S' ∧ S'.logEv = ev := by
  obtain ⟨S1, h1, p1, _⟩ := C70_partial E grid tm S hne hl hX htm hpr Ls ts hlen hL true false
  refine ⟨S1.logEv, fun fo eo => ?_⟩
  obtain ⟨S2, h2, p2, _⟩ := C70_partial E grid tm S hne hl hX htm hpr Ls ts hlen hL fo eo
  refine ⟨S2, h2, ?_⟩
  cases eo with
  | true => exact ((C08_evidenceOnly E grid tm S Ls ts fo).2 S1 S2 h1 h2).1.symm
  | false =>
      cases fo with
      | true => rw [h1] at h2; cases h2; rfl
      | false =>
          rcases C08_full_or_zero E grid tm S Ls ts S2 S1 h2 h1 with h | h
          · exact h
          · rw [h] at p2; exact absurd p2 (lt_irrefl 0)

theorem bernoulli_pos {θ : ℕ → ℝ} (h : Interior .bernoulli θ) (s : Seg ℝ) : 0 < OM.bernoulli.pdf θ s := by
  have h' : 0 < θ 0 ∧ θ 0 < 1 := h
  have hc : clip01 (θ 0) = θ 0 := by rw [clip01, if_neg (not_lt.2 h'.2.le), if_neg (not_lt.2 h'.1.le)]
  simp only [OM.pdf, hc]
  split
  · exact h'.1
  · linarith [h'.2]

theorem defaultSpec_full (m : OM) (grid : (a : Fin d) → Fin (gs a) → ℝ) (h : ∀ x, Interior m (gridPoint grid x)) : FullPrior (m.defaultSpec grid) := by
  match hf : m.defaultPrior with
  | none => rw [OM.defaultSpec, hf]; trivial
  | some f =>
      have hv : ∀ x, f (gridPoint grid x) = .fin (defaultWeight m (gridPoint grid x)) := fun x => (defaultPrior_value m _ (h x)).2 f hf
      have hs : m.defaultSpec grid = .func fun x => defaultWeight m (gridPoint grid x) := by
        rw [OM.defaultSpec, hf]
        simp only [functionPrior, hv, FV.fin?, Option.isSome_some, implies_true, ↓reduceIte, Option.getD_some]
      rw [hs]
      exact fun x => (defaultPrior_value m _ (h x)).1

/-- **C70 (built-in observation models).** For the built-in observation models of single observations with their default prior, parameter values inside the domain of the model and arbitrary
data (counts for the Poisson model; missing values allowed): no fit can fail numerically; evidence and local evidences are positive, posteriors exclude no parameter value. -/
theorem C70_observation (m : OM) (hm : m ≠ .gaussianMean) (E : Env ℝ gs) (grid : (a : Fin d) → Fin (gs a) → ℝ) (tm : TM ℝ) (S : FitState ℝ gs) (hne : Nonempty (Idx gs)) (hl : ∀ a, 0 < E.lattice a)
    (hX : ProperExt E.ext) (htm : Spreading E tm) (hin : ∀ x, Interior m (gridPoint grid x)) (hpr : S.prior = m.defaultSpec grid ∨ S.prior = .none)
    (data : List (List (Option ℝ))) (hd : m = .poisson → ∀ s ∈ data, ∀ x, some x ∈ s → ∃ k : ℕ, x = k) (ts : List ℝ) (hlen : ts.length = data.length) (fo eo : Bool) :
    ∃ S', fit E grid tm (data.map fun s => m.likelihood grid (.flat s)) ts fo eo S = .ok S' ∧ 0 < S'.logEv.exp ∧
      S'.locals.length = data.length ∧ (∀ c ∈ S'.locals, ∃ v, c = .val v ∧ 0 < v) ∧
      (eo = false → S'.posts.length = data.length ∧ (∀ c ∈ S'.posts, ∃ p, c = .val p ∧ (∀ x, 0 < p x) ∧ ∑ x, p x = 1) ∧ ∀ a, (S'.means a).length = data.length) := by
  have hfull : FullPrior S.prior := by
    rcases hpr with h | h
    · rw [h]; exact defaultSpec_full m grid hin
    · rw [h]; trivial
  have := C70_partial E grid tm S hne hl hX htm hfull (data.map fun s => m.likelihood grid (.flat s)) ts (by simpa using hlen) (by
    intro L hL x
    obtain ⟨s, hs, rfl⟩ := List.mem_map.1 hL
    simp only [OM.likelihood, processedPdf]
    refine pdfOrOnes_pos fun _ => ?_
    by_cases hb : m = .bernoulli
    · subst hb; exact bernoulli_pos (hin x) _
    · refine pdf_pos hb (hin x) _ fun hp => ?_
      simp only [Seg.num]
      cases h0 : s[0]? with
      | none => exact ⟨0, by simp⟩
      | some o =>
          cases o with
          | none => exact ⟨0, by simp⟩
          | some y =>
              obtain ⟨k, hk⟩ := hd hp s hs y (List.mem_of_getElem? h0)
              exact ⟨k, by simpa using hk⟩) fo eo
  simpa using this

/-- a change-point inside a nested serial model, a regime-switch and independent values; time stamps with gaps and repetitions -/
def restless : TM ℚ := Ex.ser true 1 (.combined [Ex.cp 0, Ex.grw 2]) (Ex.ser false 4 Ex.regime Ex.indep)

theorem restless_spreading (lat : ℚ) : Spreading (Ex.env Ex.gs2 lat) restless := by
  simp [restless, Ex.ser, Ex.cp, Ex.regime, Ex.grw, Ex.indep, Spreading, SpreadingAll, Ex.axis_x]

/-- The hypotheses of `C70_partial` are met. -/
example := C70_partial (Ex.env Ex.gs2 (1 / 2)) (Ex.grid Ex.gs2) restless (Ex.S0 (.array (some (Ex.v2 1 3)))) ⟨fun _ => ⟨0, by simp [Ex.gs2]⟩⟩ (by intro a; norm_num [Ex.env]) ext_proper (restless_spreading _)
  (by decide +kernel : ∀ x, 0 < Ex.v2 1 3 x) [Ex.v2 1 2, Ex.v2 (1 / 5) 3, Ex.v2 1 1, Ex.v2 7 2] [0, 1, 1, 9 / 2] rfl (by simp only [List.forall_mem_cons]; decide +kernel) false false

/-- NotEqual has to be excluded: two grid points, a flat prior and one data point that does not distinguish them make the prediction for the second data point undefined. -/
theorem C70_notEqual_refuted : ¬ ∀ (tm : TM ℚ) (Ls : List (Idx Ex.gs2 → ℚ)) (ts : List ℚ), ts.length = Ls.length → (∀ L ∈ Ls, ∀ x, 0 < L x) →
    ∀ S', fit (Ex.env Ex.gs2 1) (Ex.grid Ex.gs2) tm Ls ts true false (Ex.S0 .none) = .ok S' → 0 < S'.logEv.exp := by
  intro h
  have h1 : Ex.ev (fit (Ex.env Ex.gs2 1) (Ex.grid Ex.gs2) (.leaf .notEqual ["log10pMin"] [.scalar 1] none) [Ex.v2 1 1, Ex.v2 1 2] [0, 1] true false (Ex.S0 .none)) = some 0 := by decide +kernel
  cases hf : fit (Ex.env Ex.gs2 1) (Ex.grid Ex.gs2) (.leaf .notEqual ["log10pMin"] [.scalar 1] none) [Ex.v2 1 1, Ex.v2 1 2] [0, 1] true false (Ex.S0 .none) with
  | error e => rw [hf] at h1; simp [Ex.ev] at h1
  | ok S' =>
      rw [hf] at h1
      have := h _ _ _ rfl (by simp only [List.forall_mem_cons]; decide +kernel) S' hf
      simp only [Ex.ev, Option.some.injEq] at h1
      rw [h1] at this
      exact lt_irrefl _ this

/-- The hypotheses of `C70_observation` are met: counts with a missing value, a random walk with the weights of scipy. -/
example := C70_observation .poisson (by decide) (gs := Ex.gs2) ⟨fun _ => "rate", fun _ => 1, .none, realExt 2 fun _ _ p => p⟩ (fun _ i => i.val + 1) (.leaf (.grw "rate") ["sigma"] [.scalar 1] none)
  ⟨OM.poisson.defaultSpec (gs := Ex.gs2) fun _ i => i.val + 1, [], fun _ => [], 0, []⟩ ⟨fun _ => ⟨0, by simp [Ex.gs2]⟩⟩ (fun _ => one_pos) (realExt_proper _ _)
  (by simp [Spreading, Env.axis, List.finRange_succ]) (fun x => by simp only [Interior, gridPoint]; rw [dif_pos (by decide)]; positivity) (Or.inl rfl)
  [[some 3], [none], [some 0]] (fun _ s hs x hx => by
    simp only [List.mem_cons, List.not_mem_nil, or_false] at hs
    rcases hs with rfl | rfl | rfl <;> simp at hx
    · exact ⟨3, by rw [hx]; norm_num⟩
    · exact ⟨0, by rw [hx]; norm_num⟩) [0, 1, 5] rfl false false

end Props
