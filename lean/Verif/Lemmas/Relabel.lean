import Verif.Model.Fit
import Mathlib.Algebra.BigOperators.Group.Finset.Basic
import Mathlib.Logic.Equiv.Basic

/-! # Relabelling of the grid points: `fit` commutes with a bijection of grids if the transition model does -/

set_option linter.unusedSectionVars false

namespace BL

variable {K : Type} [Field K] [LinearOrder K] [IsStrictOrderedRing K] {d : ℕ} {gs gs' : Fin d → ℕ}

/-- array on the other grid -/
def carry (e : Idx gs ≃ Idx gs') (p : Idx gs → K) : Idx gs' → K := fun y => p (e.symm y)

/-- prior on the other grid -/
def PriorSpec.carry (e : Idx gs ≃ Idx gs') : PriorSpec K gs → PriorSpec K gs'
  | .none => .none
  | .array a => .array (a.map (BL.carry e))
  | .badArray => .badArray
  | .func v => .func (BL.carry e v)
  | .funcConst c => .funcConst c
  | .rvs n ok v => .rvs n ok (BL.carry e v)

/-- results on the other grid -/
def Cell.carry (e : Idx gs ≃ Idx gs') : Cell (Idx gs → K) → Cell (Idx gs' → K)
  | .val p => .val (BL.carry e p)
  | .nan => .nan
  | .uninit => .uninit

variable {e : Idx gs ≃ Idx gs'}

theorem sum_carry (p : Idx gs → K) : ∑ y, carry e p y = ∑ x, p x := Equiv.sum_comp e.symm p

theorem normalize_carry (p : Idx gs → K) : normalize (carry e p) = (normalize p).map (carry e) := by
  unfold normalize
  rw [sum_carry]
  split <;> rfl

theorem divScalar_carry (p : Idx gs → K) (c : K) : divScalar (carry e p) c = (divScalar p c).map (carry e) := by
  unfold divScalar
  split <;> rfl

theorem normalize_const : normalize (fun _ : Idx gs' => (1 : K)) = (normalize fun _ : Idx gs => (1 : K)).map (carry e) := by
  rw [← normalize_carry]; rfl

theorem bind_normalize_carry (p : Arr K gs) : (p.map (carry e)).bind normalize = (p.bind normalize).map (carry e) := by
  cases p with
  | none => rfl
  | some v => exact normalize_carry v

theorem bind_divScalar_carry (p : Arr K gs) (c : K) : (p.map (carry e)).bind (divScalar · c) = (p.bind (divScalar · c)).map (carry e) := by
  cases p with
  | none => rfl
  | some v => exact divScalar_carry v c

theorem isArray_carry (p : PriorSpec K gs) : (p.carry e).isArray = p.isArray := by cases p <;> rfl

theorem computePrior_carry {E : Env K gs} {E' : Env K gs'} (hc : E'.cell = E.cell) (p : PriorSpec K gs) :
    computePrior { E' with prior := p.carry e } = (computePrior { E with prior := p }).map fun q => (q.1.map (carry e), q.2.carry e) := by
  have hcell : ∀ (p : PriorSpec K gs) (p' : PriorSpec K gs'), ({ E' with prior := p' } : Env K gs').cell = ({ E with prior := p } : Env K gs).cell := fun _ _ => hc
  cases p with
  | none =>
      simp only [computePrior, PriorSpec.carry, Except.map]
      rw [hcell .none, normalize_const (e := e), bind_divScalar_carry]
  | array a =>
      cases a with
      | none => rfl
      | some a =>
          simp only [computePrior, PriorSpec.carry, Option.map_some, sum_carry]
          split
          · simp only [Except.map, PriorSpec.carry, hcell (.array (some a)), normalize_carry, bind_divScalar_carry]
          · rfl
  | badArray => rfl
  | func v =>
      simp only [computePrior, PriorSpec.carry, sum_carry]
      split
      · simp only [Except.map, PriorSpec.carry, hcell (.func v), normalize_carry, bind_divScalar_carry]
      · rfl
  | funcConst c =>
      have h1 : (fun _ => c : Idx gs' → K) = carry e fun _ => c := rfl
      simp only [computePrior, PriorSpec.carry]
      rw [h1, sum_carry]
      split
      · simp only [Except.map, PriorSpec.carry, hcell (.funcConst c), normalize_carry, bind_divScalar_carry]
      · rfl
  | rvs n ok v =>
      simp only [computePrior, PriorSpec.carry]
      split
      · rfl
      · split <;> rfl

/-- the step on the other grid -/
def Step.carry (e : Idx gs ≃ Idx gs') (s : Step K gs) : Step K gs' := ⟨BL.carry e s.alpha, s.norm, BL.carry e s.lik, s.t⟩

/-- the transition model `tm'` acts on the other grid as `tm` does -/
structure Same (e : Idx gs ≃ Idx gs') (E : Env K gs) (E' : Env K gs') (tm tm' : TM K) : Prop where
  cell : E'.cell = E.cell
  fwd : ∀ (pr : PriorSpec K gs) (p : Arr K gs) (t : K), tm'.fwd { E' with prior := pr.carry e } 0 (p.map (carry e)) t = (tm.fwd { E with prior := pr } 0 p t).map (Option.map (carry e))
  bwd : ∀ (pr : PriorSpec K gs) (p : Arr K gs) (t : K), tm'.bwd { E' with prior := pr.carry e } 0 (p.map (carry e)) t = (tm.bwd { E with prior := pr } 0 p t).map (Option.map (carry e))
  arg : ∀ t, tm'.returnsArg t = tm.returnsArg t

theorem fwdPass_carry {E : Env K gs} {E' : Env K gs'} {tm tm' : TM K} (h : Same e E E' tm tm') :
    ∀ (Ls : List (Idx gs → K)) (ts : List K) (al : Bool) (pr : PriorSpec K gs) (a : Arr K gs),
      fwdPass E' tm' al (pr.carry e) (a.map (carry e)) (Ls.map (carry e)) ts = (fwdPass E tm al pr a Ls ts).map fun r => ⟨r.steps.map (Step.carry e), r.stopped, r.prior.carry e⟩
  | [], ts, al, pr, a => by cases a <;> rfl
  | L :: Ls, ts, al, pr, none => rfl
  | L :: Ls, ts, al, pr, some a => by
      simp only [List.map_cons, Option.map_some, fwdPass]
      have e1 : (fun y => carry e a y * carry e L y) = carry e fun x => a x * L x := rfl
      have e2 : ∑ y, carry e a y * carry e L y = ∑ x, a x * L x := sum_carry (e := e) fun x => a x * L x
      rw [e2]
      split
      · cases ts with
        | nil => rfl
        | cons t ts =>
            have e3 : (fun y => carry e a y * carry e L y / ∑ x, a x * L x) = carry e fun x => a x * L x / ∑ x, a x * L x := rfl
            have e4 : (if al = true then PriorSpec.array (some (carry e fun x => a x * L x / ∑ x, a x * L x)) else pr.carry e) =
                (if al = true then PriorSpec.array (some fun x => a x * L x / ∑ x, a x * L x) else pr).carry e := by cases al <;> rfl
            simp only [e3, e4]
            have := h.fwd (if al = true then PriorSpec.array (some fun x => a x * L x / ∑ x, a x * L x) else pr) (some fun x => a x * L x / ∑ x, a x * L x) t
            simp only [Option.map_some] at this
            rw [this, h.arg]
            cases tm.fwd { E with prior := if al = true then PriorSpec.array (some fun x => a x * L x / ∑ x, a x * L x) else pr } 0 (some fun x => a x * L x / ∑ x, a x * L x) t with
            | error x => rfl
            | ok nx =>
                simp only [Except.map, bind, Except.bind]
                rw [fwdPass_carry h Ls ts]
                cases fwdPass E tm (al && tm.returnsArg t) (if al = true then PriorSpec.array (some fun x => a x * L x / ∑ x, a x * L x) else pr) nx Ls ts <;> rfl
      · cases al <;> rfl

theorem localEv_carry {E : Env K gs} {E' : Env K gs'} (hc : E'.cell = E.cell) (p l : Idx gs → K) : localEv E' (carry e p) (carry e l) = localEv E p l := by
  unfold localEv
  have h1 : (∃ y, carry e l y = 0 ∧ carry e p y = 0) ↔ ∃ x, l x = 0 ∧ p x = 0 := e.symm.exists_congr_left.trans (by simp [carry])
  have h2 : (∃ y, carry e l y = 0) ↔ ∃ x, l x = 0 := e.symm.exists_congr_left.trans (by simp [carry])
  have h3 : ∑ y, carry e p y / carry e l y = ∑ x, p x / l x := sum_carry (e := e) fun x => p x / l x
  simp only [h1, h2, h3, hc]

theorem bwdPass_carry {E : Env K gs} {E' : Env K gs'} {tm tm' : TM K} (h : Same e E E' tm tm') (pr : PriorSpec K gs) :
    ∀ (st : List (Step K gs)), bwdPass { E' with prior := pr.carry e } tm' (st.map (Step.carry e)) =
      (bwdPass { E with prior := pr } tm st).map fun o => ⟨o.posts.map (Cell.carry e), o.locals, o.beta.map (carry e), o.stopped⟩
  | [] => by
      simp only [List.map_nil, bwdPass, Except.map]
      rw [normalize_const (e := e)]
  | s :: st => by
      simp only [List.map_cons, bwdPass]
      rw [bwdPass_carry h pr st]
      cases bwdPass { E with prior := pr } tm st with
      | error x => rfl
      | ok o =>
          have hc : ({ E' with prior := pr.carry e } : Env K gs').cell = ({ E with prior := pr } : Env K gs).cell := h.cell
          obtain ⟨posts, locs, beta, stopped⟩ := o
          simp only [Except.map, bind, Except.bind]
          cases stopped with
          | true => simp only [if_true, hc]; rfl
          | false =>
              simp only [Bool.false_eq_true, if_false]
              cases beta with
              | none => simp only [Option.map_none, hc]; rfl
              | some b =>
                  simp only [Option.map_some]
                  have e1 : ∑ y, (Step.carry e s).alpha y * carry e b y = ∑ x, s.alpha x * b x := sum_carry (e := e) fun x => s.alpha x * b x
                  rw [e1]
                  split
                  · have e2 : (fun y => carry e b y * (Step.carry e s).lik y) = carry e fun x => b x * s.lik x := rfl
                    have e3 : (fun y => (Step.carry e s).alpha y * carry e b y / ∑ x, s.alpha x * b x) = carry e fun x => s.alpha x * b x / ∑ x, s.alpha x * b x := rfl
                    have e4 : (Step.carry e s).t = s.t := rfl
                    have := h.bwd pr (some fun x => b x * s.lik x) s.t
                    simp only [Option.map_some] at this
                    rw [e2, e3, e4, this]
                    cases tm.bwd { E with prior := pr } 0 (some fun x => b x * s.lik x) s.t with
                    | error x => rfl
                    | ok nb =>
                        simp only [Except.map, bind_normalize_carry]
                        have : localEv { E' with prior := pr.carry e } (carry e fun x => s.alpha x * b x / ∑ x, s.alpha x * b x) (Step.carry e s).lik =
                            localEv { E with prior := pr } (fun x => s.alpha x * b x / ∑ x, s.alpha x * b x) s.lik := localEv_carry hc _ _
                        rw [this]
                        rfl
                  · simp only [hc]; rfl

/-- results of a fit on the other grid; mean values are computed with the new grid -/
theorem fit_carry {E : Env K gs} {E' : Env K gs'} {tm tm' : TM K} (h : Same e E E' tm tm') {grid : (a : Fin d) → Fin (gs a) → K} {grid' : (a : Fin d) → Fin (gs' a) → K} {Ls : List (Idx gs → K)} {ts : List K}
    {fo eo : Bool} {S : FitState K gs} {T : FitState K gs'} (hS : T.prior = S.prior.carry e) {A : FitState K gs} (hA : fit E grid tm Ls ts fo eo S = .ok A) :
    ∃ B, fit E' grid' tm' (Ls.map (carry e)) ts fo eo T = .ok B ∧ B.logEv = A.logEv ∧ B.locals = A.locals ∧ (eo = false → B.posts = A.posts.map (Cell.carry e)) ∧ B.prior = A.prior.carry e ∧
      (A.logEv ≠ LogV.ninf → ∀ a, B.means a = if eo = true then [] else A.posts.filterMap fun c => c.get?.map fun p => mean grid' a (carry e p)) := by
  unfold fit at hA ⊢
  revert hA
  rw [hS, computePrior_carry h.cell]
  cases computePrior { E with prior := S.prior } with
  | error x => intro hA; simp [bind, Except.bind] at hA
  | ok ap =>
      obtain ⟨a0, pr0⟩ := ap
      simp only [Except.map, bind, Except.bind, isArray_carry]
      rw [fwdPass_carry h]
      cases fwdPass E tm pr0.isArray pr0 a0 Ls ts with
      | error x => intro hA; simp at hA
      | ok r =>
          obtain ⟨steps, stopped, pr⟩ := r
          simp only [Except.map]
          have hlog : sumLog E' (steps.map (Step.carry e)) = sumLog E steps := by
            unfold sumLog
            rw [h.cell, List.foldl_map]
            rfl
          have hp : (steps.map (Step.carry e)).map (fun s => Cell.val s.alpha) = (steps.map fun s => Cell.val s.alpha).map (Cell.carry e) := by
            rw [List.map_map, List.map_map]; rfl
          have hl : (steps.map (Step.carry e)).map (fun s => Cell.val (s.norm * E'.cell)) = steps.map fun s => Cell.val (s.norm * E.cell) := by
            rw [List.map_map, h.cell]; rfl
          have hpad : ∀ k : ℕ, (List.replicate k Cell.uninit : List (Cell (Idx gs' → K))) = (List.replicate k Cell.uninit).map (Cell.carry e) := by
            intro k; rw [List.map_replicate]; rfl
          cases stopped with
          | true =>
              simp only [if_true]
              intro hA
              cases hA
              refine ⟨_, rfl, rfl, by simp only [hl, List.length_map], ?_, rfl, by simp⟩
              rintro rfl
              simp only [hp, List.length_map, Bool.false_eq_true, if_false, List.map_append]
              rw [hpad]
          | false =>
              simp only [Bool.false_eq_true, if_false]
              cases eo with
              | true =>
                  simp only [if_true]
                  intro hA; cases hA
                  exact ⟨_, rfl, hlog, hl, by simp, rfl, fun _ _ => rfl⟩
              | false =>
                  simp only [Bool.false_eq_true, if_false]
                  cases fo with
                  | true =>
                      simp only [if_true]
                      intro hA; cases hA
                      refine ⟨_, rfl, hlog, hl, fun _ => hp, rfl, fun _ a => ?_⟩
                      simp only [List.map_map, List.filterMap_map]
                      rw [← List.filterMap_eq_map]
                      rfl
                  | false =>
                      simp only [Bool.false_eq_true, if_false]
                      rw [bwdPass_carry h]
                      cases bwdPass { E with prior := pr } tm steps with
                      | error x => intro hA; simp at hA
                      | ok b =>
                          simp only [Except.map]
                          cases hbs : b.stopped with
                          | true =>
                              simp only [if_true]
                              intro hA; cases hA
                              exact ⟨_, rfl, rfl, rfl, fun _ => rfl, rfl, by simp⟩
                          | false =>
                              simp only [Bool.false_eq_true, if_false]
                              intro hA; cases hA
                              refine ⟨_, rfl, hlog, rfl, fun _ => rfl, rfl, fun _ a => ?_⟩
                              simp only [List.filterMap_map]
                              congr 1
                              funext c
                              cases c <;> rfl

end BL
