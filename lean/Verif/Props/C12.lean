import Verif.Props.Ex
import Verif.Lemmas.Scale
import Verif.Lemmas.Nonneg

/-! # C12: likelihood scale -/

set_option linter.unusedSectionVars false

namespace Props
open BL Spec

variable {K : Type} [Field K] [LinearOrder K] [IsStrictOrderedRing K] {d : ℕ} {gs : Fin d → ℕ}

theorem normProd_scale (c : K) : ∀ (l : List (Step K gs)) (k : ℕ), k < l.length → normProd (l.modify k (scaleStep c)) = c * normProd l
  | [], k, h => by simp at h
  | s :: l, 0, _ => by simp [normProd, scaleStep, mul_assoc]
  | s :: l, k + 1, h => by
      have := normProd_scale c l k (by simpa using h)
      simp only [normProd, List.modify_succ_cons, List.map_cons, List.prod_cons] at this ⊢
      rw [this]; ring

theorem map_modify_alpha {α : Type} (f : (Idx gs → K) → α) (c : K) : ∀ (l : List (Step K gs)) (k : ℕ),
    (l.modify k (scaleStep c)).map (fun s => f s.alpha) = l.map fun s => f s.alpha
  | [], k => by simp
  | s :: l, 0 => by simp [scaleStep]
  | s :: l, k + 1 => by simp [map_modify_alpha f c l k]

/-- **C12 (forward modes).** For EVERY transition model, prior and data: multiplying the likelihood of data point `k` by `c > 0` multiplies the
evidence by `c` and changes no posterior and no mean, with `forwardOnly=True` or `evidenceOnly=True`. -/
theorem C12_forward (E : Env K gs) (grid : (a : Fin d) → Fin (gs a) → K) (tm : TM K) (Ls : List (Idx gs → K)) (ts : List K)
    (S S1 : FitState K gs) (k : ℕ) (hk : k < Ls.length) (c : K) (hc : 0 < c) (fo eo : Bool) (hm : fo = true ∨ eo = true)
    (h : fit E grid tm Ls ts fo eo S = .ok S1) :
    ∃ S2, fit E grid tm (scaleAt k c Ls) ts fo eo S = .ok S2 ∧ S2.logEv.exp = c * S1.logEv.exp ∧ S2.posts = S1.posts ∧
      S2.means = S1.means := by
  have hlen : (scaleAt k c Ls).length = Ls.length := by simp [scaleAt]
  unfold fit at h ⊢
  revert h
  cases hcp : computePrior { E with prior := S.prior } with
  | error e => intro h; simp [bind, Except.bind] at h
  | ok ap =>
      obtain ⟨a0, pr0⟩ := ap
      simp only [bind, Except.bind]
      cases hf : fwdPass E tm pr0.isArray pr0 a0 Ls ts with
      | error e => intro h; simp at h
      | ok r =>
          obtain ⟨r', h1, h2, h3, h4⟩ := fwdPass_scale hc Ls ts k _ _ a0 r hf
          have hl := (fwdPass_sum Ls ts _ _ a0 r hf).2
          simp only [h1, h2, h3, hlen]
          by_cases hst : r.stopped = true
          · simp only [hst, if_true]
            intro h
            cases h
            refine ⟨_, rfl, by simp, ?_, rfl⟩
            simp only [map_modify_alpha (fun p => Cell.val p)]
          · have hst' : r.stopped = false := by simpa using hst
            have hl := hl hst'
            simp only [hst', Bool.false_eq_true, if_false]
            have hev : (sumLog E (r.steps.modify k (scaleStep c))).exp = c * (sumLog E r.steps).exp := by
              rw [sumLog_exp, sumLog_exp, normProd_scale c _ _ (by omega), mul_assoc]
            cases eo with
            | true =>
                simp only [if_true]
                intro h; cases h
                exact ⟨_, rfl, hev, rfl, rfl⟩
            | false =>
                obtain rfl : fo = true := by simpa using hm
                simp only [Bool.false_eq_true, if_false, if_true]
                intro h; cases h
                refine ⟨_, rfl, hev, ?_, ?_⟩
                · simp only [map_modify_alpha (fun p => Cell.val p)]
                · funext a
                  simp only [map_modify_alpha (mean grid a)]

example : Ex.ev (fit (Ex.env Ex.gs2 1) (Ex.grid Ex.gs2) Ex.regime [Ex.v2 1 2, Ex.v2 3 1] [0, 1] true false (Ex.S0 .none)) = some (39 / 14) ∧
    Ex.ev (fit (Ex.env Ex.gs2 1) (Ex.grid Ex.gs2) Ex.regime (scaleAt 1 5 [Ex.v2 1 2, Ex.v2 3 1]) [0, 1] true false (Ex.S0 .none)) = some (195 / 14) := by
  decide +kernel

/-- The claim C12 for the full fit. -/
def C12_claim {K : Type} [Field K] [LinearOrder K] {d : ℕ} {gs : Fin d → ℕ} (E : Env K gs) (grid : (a : Fin d) → Fin (gs a) → K) (tm : TM K) : Prop :=
  ∀ (Ls : List (Idx gs → K)) (ts : List K) (S S1 : FitState K gs) (k : ℕ), k < Ls.length → ∀ c : K, 0 < c →
    fit E grid tm Ls ts false false S = .ok S1 →
    ∃ S2, fit E grid tm (scaleAt k c Ls) ts false false S = .ok S2 ∧ S2.logEv.exp = c * S1.logEv.exp ∧ S2.posts = S1.posts ∧
      S2.means = S1.means

/-- **C12 refuted** for full fits with RegimeSwitch: the backward pass applies the probability floor to the un-normalised product of
beta and likelihood, so that scaling the likelihood changes the smoothed posteriors. -/
theorem C12_refuted : ¬ C12_claim (Ex.env Ex.gs2 1) (Ex.grid Ex.gs2) Ex.regime := by
  intro h
  obtain ⟨S1, h1, -⟩ := Ex.ok_of_ev (r := fit (Ex.env Ex.gs2 1) (Ex.grid Ex.gs2) Ex.regime [Ex.v2 1 1, Ex.v2 3 1] [0, 1] false false (Ex.S0 .none))
    (by decide +kernel)
  obtain ⟨S2, h2, -, h3, -⟩ := h _ _ _ S1 1 (by decide) (1 / 100) (by norm_num) h1
  have e : Ex.postTable (.ok S1) = Ex.postTable (.ok S2) := by simp only [Ex.postTable, h3]
  rw [← h1, ← h2] at e
  revert e
  decide +kernel

/-- **C12 (full fit, models without RegimeSwitch).** Evidence times `c`, same posteriors and means, local evidence of data point `k`
times `c`.  Missing: RegimeSwitch (refuted above). -/
theorem C12_partial (E : Env K gs) (grid : (a : Fin d) → Fin (gs a) → K) (tm : TM K) (hN : NoRegimeSwitch tm)
    (hX : ShiftHomogeneous E.ext) (Ls : List (Idx gs → K)) (ts : List K) (S S1 : FitState K gs) (k : ℕ) (hk : k < Ls.length) (c : K) (hc : 0 < c)
    (h : fit E grid tm Ls ts false false S = .ok S1) :
    ∃ S2, fit E grid tm (scaleAt k c Ls) ts false false S = .ok S2 ∧ S2.logEv.exp = c * S1.logEv.exp ∧ S2.posts = S1.posts ∧
      S2.means = S1.means ∧ (S1.logEv ≠ LogV.ninf → S2.locals = scaleLocal k c S1.locals) := by
  have hlen : (scaleAt k c Ls).length = Ls.length := by simp [scaleAt]
  unfold fit at h ⊢
  revert h
  cases hcp : computePrior { E with prior := S.prior } with
  | error e => intro h; simp [bind, Except.bind] at h
  | ok ap =>
      obtain ⟨a0, pr0⟩ := ap
      simp only [bind, Except.bind]
      cases hf : fwdPass E tm pr0.isArray pr0 a0 Ls ts with
      | error e => intro h; simp at h
      | ok r =>
          obtain ⟨r', h1, h2, h3, h4⟩ := fwdPass_scale hc Ls ts k _ _ a0 r hf
          have hl := (fwdPass_sum Ls ts _ _ a0 r hf).2
          simp only [h1, h2, h3, hlen]
          by_cases hst : r.stopped = true
          · simp only [hst, if_true]
            intro h
            cases h
            refine ⟨_, rfl, by simp, ?_, rfl, by simp⟩
            simp only [map_modify_alpha (fun p => Cell.val p)]
          · have hst' : r.stopped = false := by simpa using hst
            have hl := hl hst'
            rw [h4 hst']
            simp only [hst', Bool.false_eq_true, if_false]
            have hev : (sumLog E (r.steps.modify k (scaleStep c))).exp = c * (sumLog E r.steps).exp := by
              rw [sumLog_exp, sumLog_exp, normProd_scale c _ _ (by omega), mul_assoc]
            cases hb : bwdPass { E with prior := r.prior } tm r.steps with
            | error e => intro h; simp at h
            | ok b =>
                obtain ⟨b', g1, g2, g3, g4, g5⟩ := bwdPass_scale (E := { E with prior := r.prior }) hX hN hc r.steps k b hb
                simp only [g1, g2, g3, g5]
                by_cases hbs : b.stopped = true
                · simp only [hbs, if_true]
                  intro h; cases h
                  exact ⟨_, rfl, by simp, rfl, rfl, by simp⟩
                · simp only [hbs, Bool.false_eq_true, if_false]
                  intro h; cases h
                  exact ⟨_, rfl, hev, rfl, rfl, fun _ => rfl⟩

/-- the hypotheses can be met: NotEqual inside a serial model -/
example : ∃ S1, fit (Ex.env Ex.gs3 (1 / 2)) (Ex.grid Ex.gs3) (Ex.ser true 1 (Ex.grw 1) (.leaf .notEqual ["p"] [.scalar 2] none))
      [Ex.v3 1 2 3, Ex.v3 0 1 0, Ex.v3 1 1 2] [0, 1, 2] false false (Ex.S0 .none) = .ok S1 ∧ S1.logEv ≠ LogV.ninf :=
  Ex.ok_of_ev (by decide +kernel)
example : NoRegimeSwitch (Ex.ser true 1 (Ex.grw 1) (.leaf .notEqual ["p"] [.scalar 2] none)) ∧ ShiftHomogeneous (Ex.ext Ex.gs3) :=
  ⟨by simp [Ex.ser, Ex.grw, NoRegimeSwitch, NoRegimeSwitchAll], fun _ _ _ _ _ => rfl⟩

end Props
