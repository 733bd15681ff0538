import Verif.Model.Fit
import Mathlib.Tactic.Ring
import Mathlib.Tactic.FieldSimp
import Mathlib.Algebra.BigOperators.Ring.Finset

/-! # Dependence of a fit on the prior attribute -/

set_option linter.unusedSectionVars false

namespace BL
variable {K : Type} [Field K] [LinearOrder K] [IsStrictOrderedRing K] {d : ℕ} {gs : Fin d → ℕ}

/-- two priors with the same reset distribution -/
def SameReset (E : Env K gs) (p p' : PriorSpec K gs) : Prop :=
  ({ E with prior := p } : Env K gs).resetArr = ({ E with prior := p' } : Env K gs).resetArr

variable {E : Env K gs} {p p' : PriorSpec K gs}

theorem resetCell_congr (h : SameReset E p p') :
    ({ E with prior := p } : Env K gs).resetCell = ({ E with prior := p' } : Env K gs).resetCell := by
  unfold Env.resetCell; rw [h]; rfl

theorem leafFwd_congr (h : SameReset E p p') (toff : K) (k : Leaf K) (vals : List (HVal K)) (q : Arr K gs) (t : K) :
    leafFwd { E with prior := p } toff k vals q t = leafFwd { E with prior := p' } toff k vals q t := by
  cases k <;> try rfl
  · simp only [leafFwd]; rw [resetCell_congr h]
  · simp only [leafFwd]; rw [h]

theorem leafBwd_congr (h : SameReset E p p') (toff : K) (k : Leaf K) (vals : List (HVal K)) (q : Arr K gs) (t : K) :
    leafBwd { E with prior := p } toff k vals q t = leafBwd { E with prior := p' } toff k vals q t := by
  cases k <;> first | rfl | (simp only [leafBwd]; exact leafFwd_congr h _ _ _ _ _)

theorem cpCheck_congr (h : SameReset E p p') (vs : List K) (mask : List Bool) (q : Arr K gs) (t : K) :
    cpCheck { E with prior := p } vs mask q t = cpCheck { E with prior := p' } vs mask q t := by
  unfold cpCheck; rw [resetCell_congr h]

mutual
theorem fwd_congr (h : SameReset E p p') (toff : K) : ∀ (m : TM K) (q : Arr K gs) (t : K),
    TM.fwd { E with prior := p } toff m q t = TM.fwd { E with prior := p' } toff m q t
  | .leaf k _ vals _, q, t => by simp only [TM.fwd]; exact leafFwd_congr h _ _ _ _ _
  | .combined ms, q, t => by simp only [TM.fwd]; exact fwdAll_congr h toff ms q t
  | .serial _ vals _ mask ms, q, t => by
      simp only [TM.fwd]
      congr 1; funext vs
      rw [fwdNth_congr h _ ms _ q t]
      congr 1; funext r
      rw [cpCheck_congr h]
theorem fwdAll_congr (h : SameReset E p p') (toff : K) : ∀ (ms : List (TM K)) (q : Arr K gs) (t : K),
    TM.fwdAll { E with prior := p } toff ms q t = TM.fwdAll { E with prior := p' } toff ms q t
  | [], q, t => rfl
  | m :: ms, q, t => by
      simp only [TM.fwdAll]
      rw [fwd_congr h toff m q t]
      congr 1; funext r
      exact fwdAll_congr h toff ms r t
theorem fwdNth_congr (h : SameReset E p p') (toff : K) : ∀ (ms : List (TM K)) (i : ℕ) (q : Arr K gs) (t : K),
    TM.fwdNth { E with prior := p } toff ms i q t = TM.fwdNth { E with prior := p' } toff ms i q t
  | [], _, _, _ => rfl
  | m :: _, 0, q, t => by simp only [TM.fwdNth]; exact fwd_congr h toff m q t
  | _ :: ms, i + 1, q, t => by simp only [TM.fwdNth]; exact fwdNth_congr h toff ms i q t
end

mutual
theorem bwd_congr (h : SameReset E p p') (toff : K) : ∀ (m : TM K) (q : Arr K gs) (t : K),
    TM.bwd { E with prior := p } toff m q t = TM.bwd { E with prior := p' } toff m q t
  | .leaf k _ vals _, q, t => by simp only [TM.bwd]; exact leafBwd_congr h _ _ _ _ _
  | .combined ms, q, t => by simp only [TM.bwd]; exact bwdAll_congr h toff ms q t
  | .serial _ vals _ mask ms, q, t => by
      simp only [TM.bwd]
      congr 1; funext vs
      rw [bwdNth_congr h _ ms _ q t]
      congr 1; funext r
      rw [cpCheck_congr h]
theorem bwdAll_congr (h : SameReset E p p') (toff : K) : ∀ (ms : List (TM K)) (q : Arr K gs) (t : K),
    TM.bwdAll { E with prior := p } toff ms q t = TM.bwdAll { E with prior := p' } toff ms q t
  | [], q, t => rfl
  | m :: ms, q, t => by
      simp only [TM.bwdAll]
      rw [bwd_congr h toff m q t]
      congr 1; funext r
      exact bwdAll_congr h toff ms r t
theorem bwdNth_congr (h : SameReset E p p') (toff : K) : ∀ (ms : List (TM K)) (i : ℕ) (q : Arr K gs) (t : K),
    TM.bwdNth { E with prior := p } toff ms i q t = TM.bwdNth { E with prior := p' } toff ms i q t
  | [], _, _, _ => rfl
  | m :: _, 0, q, t => by simp only [TM.bwdNth]; exact bwd_congr h toff m q t
  | _ :: ms, i + 1, q, t => by simp only [TM.bwdNth]; exact bwdNth_congr h toff ms i q t
end

/-- with a prior that is not an array, the forward loop leaves the prior alone and uses it only through its reset distribution -/
theorem fwdPass_congr (h : SameReset E p p') (tm : TM K) : ∀ (Ls : List (Idx gs → K)) (ts : List K) (a : Arr K gs),
    fwdPass E tm false p' a Ls ts = (fwdPass E tm false p a Ls ts).map fun r => { r with prior := p' }
  | [], _, a => by cases a <;> simp [fwdPass, Except.map]
  | L :: Ls, ts, none => by simp [fwdPass, Except.map]
  | L :: Ls, ts, some a => by
      simp only [fwdPass]
      split
      · cases ts with
        | nil => rfl
        | cons t ts =>
            simp only [Bool.false_eq_true, if_false, Bool.false_and, bind, Except.bind]
            rw [fwd_congr h]
            cases TM.fwd { E with prior := p' } 0 tm (some fun x => a x * L x / ∑ x, a x * L x) t with
            | error e => rfl
            | ok nx =>
                simp only
                rw [fwdPass_congr h tm Ls ts nx]
                cases fwdPass E tm false p nx Ls ts <;> rfl
      · simp [Except.map]

theorem fwdPass_prior (tm : TM K) {pr : PriorSpec K gs} : ∀ {Ls : List (Idx gs → K)} {ts : List K} {a : Arr K gs} {r : FwdOut K gs},
    fwdPass E tm false pr a Ls ts = .ok r → r.prior = pr := by
  intro Ls ts a r h
  have := fwdPass_congr (E := E) (p := pr) (p' := pr) rfl tm Ls ts a
  rw [h] at this
  simp only [Except.map, Except.ok.injEq] at this
  rw [this]

theorem bwdPass_congr (h : SameReset E p p') (tm : TM K) : ∀ (ss : List (Step K gs)),
    bwdPass { E with prior := p } tm ss = bwdPass { E with prior := p' } tm ss
  | [] => rfl
  | s :: ss => by
      simp only [bwdPass]
      rw [bwdPass_congr h tm ss]
      congr 1; funext o
      split
      · rfl
      · split
        · rfl
        · rw [bwd_congr h]
          rfl

theorem computePrior_notArray {pr : PriorSpec K gs} (hn : pr.isArray = false) {a : Arr K gs} {pr0 : PriorSpec K gs}
    (h : computePrior { E with prior := pr } = .ok (a, pr0)) : pr0 = pr := by
  revert h
  unfold computePrior
  cases pr with
  | array a => simp [PriorSpec.isArray] at hn
  | none => simp; intro _ h; exact h.symm
  | badArray => simp
  | func v => simp only; split <;> (simp; intro _ h; exact h.symm)
  | funcConst c => simp only; split <;> (simp; intro _ h; exact h.symm)
  | rvs n ok v => simp only; split_ifs <;> (simp; try (intro _ h; exact h.symm))

/-- what a fit reports, given the initial array and the prior attribute after `_computePrior`, for the two kinds of states -/
theorem fit_congr {grid : (a : Fin d) → Fin (gs a) → K} {tm : TM K} {Ls : List (Idx gs → K)} {ts : List K} {fo eo : Bool}
    {S T : FitState K gs} (a0 : Arr K gs) (pS pT : PriorSpec K gs) (hpS : pS.isArray = false) (hpT : pT.isArray = false)
    (hS : computePrior { E with prior := S.prior } = .ok (a0, pS)) (hT : computePrior { E with prior := T.prior } = .ok (a0, pT))
    (hr : SameReset E pS pT) {A : FitState K gs} (h : fit E grid tm Ls ts fo eo S = .ok A) :
    A.prior = pS ∧ ∃ B, fit E grid tm Ls ts fo eo T = .ok B ∧ B.prior = pT ∧ B.logEv = A.logEv ∧ B.locals = A.locals ∧
      (eo = false ∨ S.posts = T.posts → B.posts = A.posts) ∧ (A.logEv ≠ LogV.ninf ∨ S.means = T.means → B.means = A.means) := by
  revert h
  unfold fit
  rw [hS, hT]
  simp only [bind, Except.bind, hpS, hpT]
  rw [fwdPass_congr hr]
  cases hf : fwdPass E tm false pS a0 Ls ts with
  | error e => simp
  | ok r =>
    have hpr := fwdPass_prior tm hf
    simp only [Except.map]
    by_cases hst : r.stopped = true
    · simp only [hst, if_true]
      intro h; cases h
      refine ⟨hpr, _, rfl, rfl, rfl, rfl, ?_, ?_⟩
      · rintro (h | h)
        · simp [h]
        · simp [h]
      · rintro (h | h)
        · simp at h
        · exact h.symm
    · simp only [hst, if_false, Bool.false_eq_true]
      cases eo with
      | true =>
        simp only [if_true]
        intro h; cases h
        exact ⟨hpr, _, rfl, rfl, rfl, rfl, by rintro (h | h) <;> simp_all, fun _ => rfl⟩
      | false =>
        simp only [Bool.false_eq_true, if_false]
        cases fo with
        | true =>
          simp only [if_true]
          intro h; cases h
          exact ⟨hpr, _, rfl, rfl, rfl, rfl, fun _ => rfl, fun _ => rfl⟩
        | false =>
          simp only [Bool.false_eq_true, if_false]
          rw [hpr, bwdPass_congr hr]
          cases hb : bwdPass { E with prior := pT } tm r.steps with
          | error e => simp
          | ok b =>
            simp only
            by_cases hbs : b.stopped = true
            · simp only [hbs, if_true]
              intro h; cases h
              refine ⟨rfl, _, rfl, rfl, rfl, rfl, fun _ => rfl, ?_⟩
              rintro (h | h)
              · simp at h
              · exact h.symm
            · simp only [hbs, Bool.false_eq_true, if_false]
              intro h; cases h
              exact ⟨rfl, _, rfl, rfl, rfl, rfl, fun _ => rfl, fun _ => rfl⟩

end BL
