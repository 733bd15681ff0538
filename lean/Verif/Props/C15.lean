import Verif.Props.Ex
import Verif.Lemmas.Prior

/-! # C15, C16: repeated fits, scale of the prior -/

set_option linter.unusedSectionVars false

namespace Props
open BL Spec

variable {K : Type} [Field K] [LinearOrder K] [IsStrictOrderedRing K] {d : ℕ} {gs : Fin d → ℕ}

/-- `S1` is reached from `S` by any number of calls of fit() with any transition models, data and modes -/
inductive History {K : Type} [Field K] [LinearOrder K] {d : ℕ} {gs : Fin d → ℕ} (E : Env K gs) (grid : (a : Fin d) → Fin (gs a) → K) (S : FitState K gs) : FitState K gs → Prop
  | start : History E grid S S
  | fit {S1 S2 : FitState K gs} (tm : TM K) (Ls : List (Idx gs → K)) (ts : List K) (fo eo : Bool)
      (h1 : History E grid S S1) (h2 : fit E grid tm Ls ts fo eo S1 = .ok S2) : History E grid S S2

/-- The claim C15: after any history of fits the prior is untouched, and a fit gives what it gave before. -/
def C15_claim {K : Type} [Field K] [LinearOrder K] {d : ℕ} {gs : Fin d → ℕ} (E : Env K gs) (grid : (a : Fin d) → Fin (gs a) → K) (S : FitState K gs) : Prop :=
  ∀ S1, History E grid S S1 → S1.prior = S.prior ∧
    ∀ (tm : TM K) (Ls : List (Idx gs → K)) (ts : List K) (fo eo : Bool) (A : FitState K gs), fit E grid tm Ls ts fo eo S = .ok A →
      ∃ B, fit E grid tm Ls ts fo eo S1 = .ok B ∧ B.logEv = A.logEv ∧ B.locals = A.locals ∧
        (eo = false → B.posts = A.posts) ∧ (A.logEv ≠ LogV.ninf → B.means = A.means)

theorem fit_again {E : Env K gs} {grid : (a : Fin d) → Fin (gs a) → K} {S : FitState K gs} (hn : S.prior.isArray = false)
    {T : FitState K gs} (hT : T.prior = S.prior) {tm : TM K} {Ls : List (Idx gs → K)} {ts : List K} {fo eo : Bool} {A : FitState K gs}
    (h : fit E grid tm Ls ts fo eo S = .ok A) :
    A.prior = S.prior ∧ ∃ B, fit E grid tm Ls ts fo eo T = .ok B ∧ B.prior = S.prior ∧ B.logEv = A.logEv ∧ B.locals = A.locals ∧
      (eo = false ∨ S.posts = T.posts → B.posts = A.posts) ∧ (A.logEv ≠ LogV.ninf ∨ S.means = T.means → B.means = A.means) := by
  cases hc : computePrior { E with prior := S.prior } with
  | error e => simp [fit, hc, bind, Except.bind] at h
  | ok ap =>
    obtain ⟨a0, p0⟩ := ap
    have hp0 := computePrior_notArray hn hc
    subst hp0
    exact fit_congr a0 _ _ hn hn hc (by rw [hT]; exact hc) rfl h

/-- **C15 (part that holds).** Every prior that is not a numpy array, every transition model, data, mode and history. -/
theorem C15_partial (E : Env K gs) (grid : (a : Fin d) → Fin (gs a) → K) (S : FitState K gs) (hn : S.prior.isArray = false) :
    C15_claim E grid S := by
  intro S1 hist
  have hp : S1.prior = S.prior := by
    induction hist with
    | start => rfl
    | fit tm Ls ts fo eo h1 h2 ih =>
        rw [(fit_again (by rw [ih]; exact hn) rfl h2).1, ih]
  refine ⟨hp, fun tm Ls ts fo eo A h => ?_⟩
  obtain ⟨-, B, h1, -, h2, h3, h4, h5⟩ := fit_again hn hp h
  exact ⟨B, h1, h2, h3, fun h => h4 (Or.inl h), fun h => h5 (Or.inl h)⟩

/-- a history with two fits, regime switching and a change-point -/
example : ∃ S1 S2, fit (Ex.env Ex.gs2 3) (Ex.grid Ex.gs2) Ex.regime [Ex.v2 1 2, Ex.v2 3 1] [0, 1] false false (Ex.S0 (.func (Ex.v2 1 4))) = .ok S1 ∧
    fit (Ex.env Ex.gs2 3) (Ex.grid Ex.gs2) (Ex.cp 0) [Ex.v2 1 2, Ex.v2 3 1] [0, 1] false false S1 = .ok S2 ∧
    History (Ex.env Ex.gs2 3) (Ex.grid Ex.gs2) (Ex.S0 (.func (Ex.v2 1 4))) S2 := by
  obtain ⟨S1, h1, -⟩ : ∃ S1, fit (Ex.env Ex.gs2 3) (Ex.grid Ex.gs2) Ex.regime [Ex.v2 1 2, Ex.v2 3 1] [0, 1] false false (Ex.S0 (.func (Ex.v2 1 4))) = .ok S1 ∧ S1.logEv ≠ LogV.ninf :=
    Ex.ok_of_ev (by decide +kernel)
  obtain ⟨A, h2, -⟩ : ∃ S1, fit (Ex.env Ex.gs2 3) (Ex.grid Ex.gs2) (Ex.cp 0) [Ex.v2 1 2, Ex.v2 3 1] [0, 1] false false (Ex.S0 (.func (Ex.v2 1 4))) = .ok S1 ∧ S1.logEv ≠ LogV.ninf :=
    Ex.ok_of_ev (by decide +kernel)
  have hh := History.fit _ _ _ _ _ .start h1
  obtain ⟨B, h3, -⟩ := (C15_partial _ _ _ rfl S1 hh).2 _ _ _ _ _ _ h2
  exact ⟨S1, B, h1, h3, .fit _ _ _ _ _ hh h3⟩

/-- evidence of the second of two identical fits -/
def evTwice {gs : Fin 1 → ℕ} (E : Env ℚ gs) (tm : TM ℚ) (Ls : List (Idx gs → ℚ)) (ts : List ℚ) (S : FitState ℚ gs) : Option ℚ :=
  match fit E (Ex.grid gs) tm Ls ts true false S with
  | .ok A => Ex.ev (fit E (Ex.grid gs) tm Ls ts true false A)
  | .error _ => none

/-- **C15 refuted** for a prior given as a numpy array (Gaussian random walk, one data point, unit cell volume): the second fit starts from the
posterior of the first one. -/
theorem C15_refuted : ¬ C15_claim (Ex.env Ex.gs2 1) (Ex.grid Ex.gs2) (Ex.S0 (.array (some (Ex.v2 (1 / 2) (1 / 2))))) := by
  intro h
  obtain ⟨A, h1, -⟩ : ∃ A, fit (Ex.env Ex.gs2 1) (Ex.grid Ex.gs2) (Ex.grw 1) [Ex.v2 1 3] [0] true false (Ex.S0 (.array (some (Ex.v2 (1 / 2) (1 / 2))))) = .ok A ∧ A.logEv ≠ LogV.ninf :=
    Ex.ok_of_ev (by decide +kernel)
  obtain ⟨B, h2, h3, -⟩ := (h A (.fit _ _ _ _ _ .start h1)).2 _ _ _ _ _ _ h1
  have e1 : evTwice (Ex.env Ex.gs2 1) (Ex.grw 1) [Ex.v2 1 3] [0] (Ex.S0 (.array (some (Ex.v2 (1 / 2) (1 / 2))))) = some B.logEv.exp := by
    unfold evTwice; rw [h1]; simp only [h2]; rfl
  have e2 : Ex.ev (fit (Ex.env Ex.gs2 1) (Ex.grid Ex.gs2) (Ex.grw 1) [Ex.v2 1 3] [0] true false (Ex.S0 (.array (some (Ex.v2 (1 / 2) (1 / 2)))))) = some A.logEv.exp := by
    rw [h1]; rfl
  rw [h3, ← e2] at e1
  revert e1
  decide +kernel

/-- the two evidences: 2, then 5/2 -/
example : Ex.ev (fit (Ex.env Ex.gs2 1) (Ex.grid Ex.gs2) (Ex.grw 1) [Ex.v2 1 3] [0] true false (Ex.S0 (.array (some (Ex.v2 (1 / 2) (1 / 2)))))) = some 2 ∧
    evTwice (Ex.env Ex.gs2 1) (Ex.grw 1) [Ex.v2 1 3] [0] (Ex.S0 (.array (some (Ex.v2 (1 / 2) (1 / 2))))) = some (5 / 2) := by decide +kernel

/-- `p'` is the prior `p` multiplied with `c` -/
inductive ScaledPrior {K : Type} [Field K] {d : ℕ} {gs : Fin d → ℕ} (c : K) : PriorSpec K gs → PriorSpec K gs → Prop
  | array (a : Idx gs → K) : ScaledPrior c (.array (some a)) (.array (some fun x => c * a x))
  | func (a : Idx gs → K) : ScaledPrior c (.func a) (.func fun x => c * a x)
  | funcConst (b : K) : ScaledPrior c (.funcConst b) (.funcConst (c * b))

/-- sum of the prior over the grid -/
def priorSum {K : Type} [Field K] {d : ℕ} {gs : Fin d → ℕ} : PriorSpec K gs → K
  | .array (some a) => ∑ x, a x
  | .func a => ∑ x, a x
  | .funcConst b => ∑ _x : Idx gs, b
  | _ => 0

/-- The claim C16 for two priors. -/
def C16_claim {K : Type} [Field K] [LinearOrder K] {d : ℕ} {gs : Fin d → ℕ} (E : Env K gs) (grid : (a : Fin d) → Fin (gs a) → K) (p p' : PriorSpec K gs) : Prop :=
  ∀ (S : FitState K gs) (tm : TM K) (Ls : List (Idx gs → K)) (ts : List K) (fo eo : Bool) (A : FitState K gs),
    fit E grid tm Ls ts fo eo { S with prior := p } = .ok A →
      ∃ B, fit E grid tm Ls ts fo eo { S with prior := p' } = .ok B ∧ B.logEv = A.logEv ∧ B.locals = A.locals ∧ B.posts = A.posts ∧ B.means = A.means

theorem normalize_scale {ι : Type} [Fintype ι] {c : K} (hc : c ≠ 0) (a : ι → K) : normalize (fun x => c * a x) = normalize a := by
  unfold BL.normalize
  rw [← Finset.mul_sum]
  by_cases h : ∑ x, a x = 0
  · simp [h]
  · rw [if_neg h, if_neg (mul_ne_zero hc h)]
    congr 1; funext x
    field_simp

/-- what `_computePrior` makes of the three kinds -/
theorem computePrior_scaled {E : Env K gs} {p p' : PriorSpec K gs} {c : K} (hc : c ≠ 0) (hs : ScaledPrior c p p')
    (h1 : E.cell = 1 ∨ (priorSum p ≠ 1 ∧ priorSum p' ≠ 1)) :
    (∃ q, (computePrior { E with prior := p } = .ok (q, .array q)) ∧ computePrior { E with prior := p' } = .ok (q, .array q)) ∨
    (∃ q, p.isArray = false ∧ p'.isArray = false ∧ SameReset E p p' ∧
      computePrior { E with prior := p } = .ok (q, p) ∧ computePrior { E with prior := p' } = .ok (q, p')) := by
  have key : ∀ a : Idx gs → K, (E.cell = 1 ∨ ∑ x, a x ≠ 1) →
      (if ∑ x, a x ≠ 1 then (normalize a).bind (divScalar · E.cell) else some a) = (normalize a).bind (divScalar · E.cell) := by
    intro a h
    split
    · rfl
    · rename_i hh
      have hh : ∑ x, a x = 1 := by simpa using hh
      rcases h with h | h
      · simp [BL.normalize, hh, h, divScalar]
      · exact absurd hh h
  cases hs with
  | array a =>
      refine Or.inl ⟨(normalize a).bind (divScalar · E.cell), ?_, ?_⟩
      · rw [← key a (h1.imp id (·.1))]
        simp only [computePrior]; split <;> rfl
      · rw [← normalize_scale hc a, ← key _ (h1.imp id (·.2))]
        simp only [computePrior]; split <;> rfl
  | func a =>
      refine Or.inr ⟨(normalize a).bind (divScalar · E.cell), rfl, rfl, ?_, ?_, ?_⟩
      · simp [SameReset, Env.resetArr, normalize_scale hc]
      · rw [← key a (h1.imp id (·.1))]
        simp only [computePrior]; split <;> rfl
      · rw [← normalize_scale hc a, ← key _ (h1.imp id (·.2))]
        simp only [computePrior]; split <;> rfl
  | funcConst b =>
      refine Or.inr ⟨(BL.normalize fun _ => b).bind (divScalar · E.cell), rfl, rfl, ?_, ?_, ?_⟩
      · simp [SameReset, Env.resetArr, hc]
      · rw [← key _ (h1.imp id (·.1))]
        simp only [computePrior]; split <;> rfl
      · rw [← normalize_scale hc (fun _ => b), ← key _ (h1.imp id (·.2))]
        simp only [computePrior]; split <;> rfl

/-- **C16 (part that holds).** All priors and constants, if no sum of prior values is exactly one or the cell volume is one. -/
theorem C16_partial (E : Env K gs) (grid : (a : Fin d) → Fin (gs a) → K) (p p' : PriorSpec K gs) (c : K) (hc : 0 < c)
    (hs : ScaledPrior c p p') (h1 : E.cell = 1 ∨ (priorSum p ≠ 1 ∧ priorSum p' ≠ 1)) : C16_claim E grid p p' := by
  intro S tm Ls ts fo eo A h
  rcases computePrior_scaled hc.ne' hs h1 with ⟨q, h2, h3⟩ | ⟨q, hn, hn', hr, h2, h3⟩
  · refine ⟨A, ?_, rfl, rfl, rfl, rfl⟩
    unfold fit at h ⊢
    simp only [h2, h3] at h ⊢
    exact h
  · obtain ⟨-, B, h4, -, h5, h6, h7, h8⟩ := fit_congr (S := { S with prior := p }) (T := { S with prior := p' }) q p p' hn hn' h2 h3 hr h
    exact ⟨B, h4, h5, h6, h7 (Or.inr rfl), h8 (Or.inr rfl)⟩

example : C16_claim (Ex.env Ex.gs2 (1 / 3)) (Ex.grid Ex.gs2) (.array (some (Ex.v2 1 4))) (.array (some fun x => 7 * Ex.v2 1 4 x)) :=
  C16_partial _ _ _ _ 7 (by norm_num) (.array _) (Or.inr ⟨by decide +kernel, by decide +kernel⟩)

example : ∃ A, fit (Ex.env Ex.gs2 (1 / 3)) (Ex.grid Ex.gs2) (Ex.cp 0) [Ex.v2 1 2, Ex.v2 3 1] [0, 1] false false
    { Ex.S0 .none with prior := .array (some (Ex.v2 1 4)) } = .ok A ∧ A.logEv ≠ LogV.ninf := Ex.ok_of_ev (by decide +kernel)

/-- **C16 refuted:** cell volume 1/2, prior values (1,1) and (1/2,1/2). -/
theorem C16_refuted : ScaledPrior (1 / 2 : ℚ) (.func (Ex.v2 1 1)) (.func fun x => 1 / 2 * Ex.v2 1 1 x) ∧
    ¬ C16_claim (Ex.env Ex.gs2 (1 / 2)) (Ex.grid Ex.gs2) (.func (Ex.v2 1 1)) (.func fun x => 1 / 2 * Ex.v2 1 1 x) := by
  refine ⟨.func _, fun h => ?_⟩
  obtain ⟨A, h1, -⟩ : ∃ A, fit (Ex.env Ex.gs2 (1 / 2)) (Ex.grid Ex.gs2) Ex.static [Ex.v2 1 3] [0] true false { Ex.S0 .none with prior := .func (Ex.v2 1 1) } = .ok A ∧ A.logEv ≠ LogV.ninf :=
    Ex.ok_of_ev (by decide +kernel)
  obtain ⟨B, h2, h3, -⟩ := h (Ex.S0 .none) _ _ _ _ _ _ h1
  have e1 : Ex.ev (fit (Ex.env Ex.gs2 (1 / 2)) (Ex.grid Ex.gs2) Ex.static [Ex.v2 1 3] [0] true false { Ex.S0 .none with prior := .func (Ex.v2 1 1) }) = some A.logEv.exp := by rw [h1]; rfl
  have e2 : Ex.ev (fit (Ex.env Ex.gs2 (1 / 2)) (Ex.grid Ex.gs2) Ex.static [Ex.v2 1 3] [0] true false { Ex.S0 .none with prior := .func fun x => 1 / 2 * Ex.v2 1 1 x }) = some B.logEv.exp := by rw [h2]; rfl
  rw [h3, ← e1] at e2
  revert e2
  decide +kernel

end Props
