import Verif.Lemmas.Retime
import Verif.Props.Ex

/-! # C79: the time axis -/

set_option linter.unusedSectionVars false

namespace Props
open BL Spec

variable {K : Type} [Field K] [LinearOrder K] [IsStrictOrderedRing K] {d : ℕ} {gs : Fin d → ℕ}

/-- **C79 (part that holds: forward-only and evidence-only fits).** Every nested model without Deterministic, every prior (also arrays), data, state of the study:
if time stamps, change-points and break-points are moved to a new time axis by any order-preserving map, the outcome of the fit (results or error) is the same. -/
theorem C79_partial (φ : K → K) (hφ : StrictMono φ) (E : Env K gs) (grid : (a : Fin d) → Fin (gs a) → K) (tm : TM K) (hc : NoClock tm)
    (Ls : List (Idx gs → K)) (ts : List K) (fo eo : Bool) (hm : fo = true ∨ eo = true) (S : FitState K gs) :
    fit E grid (retime φ tm) Ls (ts.map φ) fo eo S = fit E grid tm Ls ts fo eo S := by
  unfold fit
  cases computePrior { E with prior := S.prior } with
  | error e => rfl
  | ok r =>
      simp only [bind, Except.bind, fwdPass_retime hφ E tm hc]
      cases fwdPass E tm r.2.isArray r.2 r.1 Ls ts with
      | error e => rfl
      | ok f =>
          have hn : f.steps.map ((fun s : Step K gs => Cell.val (s.norm * E.cell)) ∘ Step.retime φ) = f.steps.map fun s => Cell.val (s.norm * E.cell) := rfl
          have ha : f.steps.map ((fun s : Step K gs => Cell.val s.alpha) ∘ Step.retime φ) = f.steps.map fun s => Cell.val s.alpha := rfl
          have hs : sumLog E (f.steps.map (Step.retime φ)) = sumLog E f.steps := by
            unfold sumLog
            rw [List.foldl_map]
            rfl
          simp only [Except.map, List.map_map, hn, ha, hs]
          rcases hm with rfl | rfl
          · cases eo <;> simp only [Bool.false_eq_true, if_true, if_false] <;> rfl
          · simp only [if_true]

/-- **C79 (all fit modes).** Moving the origin of the time axis (time stamps, change-points and break-points by the same amount) does not change the outcome
of a fit; the same holds for every order-preserving map that respects steps of length one. -/
theorem C79_origin (φ : K → K) (hφ : StrictMono φ) (h1 : ∀ t, φ (t - 1) = φ t - 1) (E : Env K gs) (grid : (a : Fin d) → Fin (gs a) → K) (tm : TM K)
    (hc : NoClock tm) (Ls : List (Idx gs → K)) (ts : List K) (fo eo : Bool) (S : FitState K gs) :
    fit E grid (retime φ tm) Ls (ts.map φ) fo eo S = fit E grid tm Ls ts fo eo S := by
  by_cases hm : fo = true ∨ eo = true
  · exact C79_partial φ hφ E grid tm hc Ls ts fo eo hm S
  simp only [not_or, Bool.not_eq_true] at hm
  obtain ⟨rfl, rfl⟩ := hm
  unfold fit
  cases computePrior { E with prior := S.prior } with
  | error e => rfl
  | ok r =>
      simp only [bind, Except.bind, fwdPass_retime hφ E tm hc]
      cases fwdPass E tm r.2.isArray r.2 r.1 Ls ts with
      | error e => rfl
      | ok f =>
          have hn : f.steps.map ((fun s : Step K gs => Cell.val (s.norm * E.cell)) ∘ Step.retime φ) = f.steps.map fun s => Cell.val (s.norm * E.cell) := rfl
          have ha : f.steps.map ((fun s : Step K gs => Cell.val s.alpha) ∘ Step.retime φ) = f.steps.map fun s => Cell.val s.alpha := rfl
          have hs : sumLog E (f.steps.map (Step.retime φ)) = sumLog E f.steps := by
            unfold sumLog
            rw [List.foldl_map]
            rfl
          simp only [Except.map, List.map_map, hn, ha, hs, bwdPass_retime hφ h1 _ tm hc, Bool.false_eq_true, if_false]

/-- in particular for a shift by `c` -/
theorem C79_shift (c : K) (E : Env K gs) (grid : (a : Fin d) → Fin (gs a) → K) (tm : TM K) (hc : NoClock tm)
    (Ls : List (Idx gs → K)) (ts : List K) (fo eo : Bool) (S : FitState K gs) :
    fit E grid (retime (· + c) tm) Ls (ts.map (· + c)) fo eo S = fit E grid tm Ls ts fo eo S :=
  C79_origin (· + c) (fun a b h => by simpa using h) (fun t => by ring) E grid tm hc Ls ts fo eo S

/-- Full fits with a stretched time axis: the claim is false. The backward pass looks for the change-point at `t - 1` instead of the previous time stamp
(transitionModels.py 317, cf. C06): with time in steps of two the change-point is missed and the smoothed distributions differ. -/
theorem C79_refuted : ∃ (φ : ℚ → ℚ) (tm : TM ℚ) (Ls : List (Idx Ex.gs2 → ℚ)) (ts : List ℚ), StrictMono φ ∧ NoClock tm ∧
    (fit (Ex.env Ex.gs2 1) (Ex.grid Ex.gs2) (retime φ tm) Ls (ts.map φ) false false (Ex.S0 .none)).toOption.map (·.logEv) =
      (fit (Ex.env Ex.gs2 1) (Ex.grid Ex.gs2) tm Ls ts false false (Ex.S0 .none)).toOption.map (·.logEv) ∧
    Ex.postTable (fit (Ex.env Ex.gs2 1) (Ex.grid Ex.gs2) (retime φ tm) Ls (ts.map φ) false false (Ex.S0 .none)) ≠
      Ex.postTable (fit (Ex.env Ex.gs2 1) (Ex.grid Ex.gs2) tm Ls ts false false (Ex.S0 .none)) :=
  ⟨(2 * ·), Ex.cp 2, [Ex.v2 1 2, Ex.v2 1 3, Ex.v2 4 1], [1, 2, 3], fun a b h => by simpa using h, trivial, by decide +kernel, by decide +kernel⟩

/-- Non-trivial case: a random walk before and a change-point after the break-point, three time stamps. -/
example : NoClock (Ex.ser true 2 (Ex.grw 1) (.combined [Ex.cp 3, Ex.regime])) ∧
    retime (fun t : ℚ => 2 * t) (Ex.ser true 2 (Ex.grw 1) (.combined [Ex.cp 3, Ex.regime])) = Ex.ser true 4 (Ex.grw 1) (.combined [Ex.cp 6, Ex.regime]) :=
  ⟨⟨trivial, ⟨trivial, trivial, trivial⟩, trivial⟩, by simp [Ex.ser, Ex.grw, Ex.cp, Ex.regime, retime, retimeAll, retimeVal]; norm_num⟩

/-- … and this fit succeeds -/
example : ∃ S, fit (Ex.env Ex.gs2 1) (Ex.grid Ex.gs2) (Ex.ser true 2 (Ex.grw 1) (.combined [Ex.cp 3, Ex.regime])) [Ex.v2 1 2, Ex.v2 1 3, Ex.v2 4 1] [1, 2, 3] true false
    (Ex.S0 .none) = .ok S ∧ S.logEv ≠ LogV.ninf :=
  Ex.ok_of_ev (by decide +kernel)

end Props
