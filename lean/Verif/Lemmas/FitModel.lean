import Verif.Lemmas.Prior

/-! # Fits with two transition models that compute the same predictions -/

set_option linter.unusedSectionVars false

namespace BL
variable {K : Type} [Field K] [LinearOrder K] [IsStrictOrderedRing K] {d : ℕ} {gs : Fin d → ℕ}

/-- same predictions in both directions, for every prior attribute -/
def SamePred (E : Env K gs) (m m' : TM K) : Prop :=
  ∀ (q : PriorSpec K gs) (p : Arr K gs) (t : K),
    TM.fwd { E with prior := q } 0 m p t = TM.fwd { E with prior := q } 0 m' p t ∧
    TM.bwd { E with prior := q } 0 m p t = TM.bwd { E with prior := q } 0 m' p t

theorem fwdPass_model {E : Env K gs} {m m' : TM K} (h : SamePred E m m') (al : Bool) (hal : al = false ∨ ∀ t, m.returnsArg t = m'.returnsArg t) :
    ∀ (Ls : List (Idx gs → K)) (ts : List K) (pr : PriorSpec K gs) (a : Arr K gs), fwdPass E m al pr a Ls ts = fwdPass E m' al pr a Ls ts := by
  intro Ls
  induction Ls generalizing al with
  | nil => intro ts pr a; cases a <;> simp [fwdPass]
  | cons L Ls ih =>
    intro ts pr a
    cases a with
    | none => simp [fwdPass]
    | some a =>
      simp only [fwdPass]
      split
      · cases ts with
        | nil => rfl
        | cons t ts =>
          simp only [bind, Except.bind]
          rw [(h _ _ _).1]
          split
          · rfl
          · rename_i nx _
            have : (al && m.returnsArg t) = (al && m'.returnsArg t) := by
              rcases hal with h | h
              · simp [h]
              · rw [h]
            rw [this, ih (al && m'.returnsArg t) (by rcases hal with h | h <;> simp [h]) ts _ nx]
      · rfl

theorem bwdPass_model {E : Env K gs} {m m' : TM K} (h : SamePred E m m') (q : PriorSpec K gs) :
    ∀ ss : List (Step K gs), bwdPass { E with prior := q } m ss = bwdPass { E with prior := q } m' ss
  | [] => rfl
  | s :: ss => by
      simp only [bwdPass]
      rw [bwdPass_model h q ss]
      congr 1; funext o
      split
      · rfl
      · split
        · rfl
        · rw [(h q _ _).2]

theorem fit_model {E : Env K gs} {m m' : TM K} (h : SamePred E m m') (grid : (a : Fin d) → Fin (gs a) → K) (Ls : List (Idx gs → K)) (ts : List K)
    (fo eo : Bool) (S : FitState K gs) (hal : S.prior.isArray = false ∨ ∀ t, m.returnsArg t = m'.returnsArg t) :
    fit E grid m Ls ts fo eo S = fit E grid m' Ls ts fo eo S := by
  unfold fit
  cases hc : computePrior { E with prior := S.prior } with
  | error e => rfl
  | ok ap =>
    obtain ⟨a0, pr0⟩ := ap
    simp only [bind, Except.bind]
    have hal' : pr0.isArray = false ∨ ∀ t, m.returnsArg t = m'.returnsArg t := by
      refine hal.imp (fun hn => ?_) id
      rw [computePrior_notArray hn hc]; exact hn
    rw [fwdPass_model h _ hal']
    simp only [bwdPass_model h]

end BL
