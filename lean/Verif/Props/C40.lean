import Verif.Lemmas.Online
import Verif.Props.Ex

/-! # C40-C43: online studies -/

set_option linter.unusedSectionVars false

namespace Props
open BL Spec

variable {K D : Type} [Field K] [LinearOrder K] [IsStrictOrderedRing K] {d : ℕ} {gs : Fin d → ℕ}

theorem foldl_log (l : LogV K) : ∀ ss : List (Step K gs), (ss.foldl (fun l s => l + LogV.log s.norm) l).exp = l.exp * normProd ss
  | [] => by simp [normProd]
  | s :: ss => by
      rw [List.foldl_cons, foldl_log (l + LogV.log s.norm) ss]
      simp [normProd, mul_assoc]

theorem fit_forward_ok {E : Env K gs} {grid : (a : Fin d) → Fin (gs a) → K} {M : TM K} {Ls : List (Idx gs → K)} {ts : List K} {T F : FitState K gs}
    (h : fit E grid M Ls ts true false T = .ok F) (h0 : F.logEv ≠ LogV.ninf) :
    ∃ a0 pr f, computePrior { E with prior := T.prior } = .ok (a0, pr) ∧ fwdPass E M pr.isArray pr a0 Ls ts = .ok f ∧ f.stopped = false ∧
      F.logEv = sumLog E f.steps ∧ F.posts = f.steps.map fun s => .val s.alpha := by
  unfold fit at h
  simp only [bind, Except.bind] at h
  split at h
  · cases h
  · rename_i ap hap
    split at h
    · cases h
    · rename_i f hf
      by_cases hs : f.stopped = true
      · simp only [hs, ↓reduceIte] at h
        cases h
        exact absurd rfl h0
      · simp only [hs, Bool.false_eq_true, ↓reduceIte] at h
        cases h
        exact ⟨_, _, f, hap, hf, by simpa using hs, rfl, rfl⟩

/-- the state of a hypothesis against the fit -/
theorem chain_fit {E : Env K gs} {grid : (a : Fin d) → Fin (gs a) → K} {M : TM K} {Ls : List (Idx gs → K)} {ts : List K} {T F : FitState K gs}
    {a0 : Arr K gs} {pr : PriorSpec K gs} {h : OHyp K gs} (hL : Ls ≠ []) (hn : T.prior.isArray = false)
    (hc : computePrior { E with prior := T.prior } = .ok (a0, pr))
    (ht : ∀ p, ∀ t ∈ ts, M.fwd { E with prior := pr } 0 p t = M.fwd { E with prior := pr } 0 p (-1))
    (hch : chain { E with prior := pr } M (some a0) (OHyp.start { E with prior := pr }) Ls = .ok h)
    (hF : fit E grid M Ls ts true false T = .ok F) (h0 : F.logEv ≠ LogV.ninf) :
    h.ev = some F.logEv ∧ ∃ post, F.posts.getLast? = some (.val post) ∧ h.post = some post := by
  obtain ⟨a0', pr', f, f1, f2, f3, f4, f5⟩ := fit_forward_ok hF h0
  rw [hc] at f1
  cases f1
  have hpr : pr = T.prior := computePrior_notArray (E := E) hn hc
  cases Ls with
  | nil => exact absurd rfl hL
  | cons L Ls =>
      rw [show pr.isArray = false by rw [hpr]; exact hn] at f2
      obtain ⟨s, s1, s2⟩ := chain_fwdPass Ls L ts a0 (some a0) (OHyp.start { E with prior := pr }) f _ rfl ht rfl f2 f3
      rw [hch] at s2
      cases s2
      refine ⟨?_, s.alpha, ?_, rfl⟩
      · simp only [Option.some.injEq]
        apply LogV.ext_exp
        rw [foldl_log, f4, sumLog_exp, mul_comm]
        rfl
      · rw [f5, List.getLast?_map, s1]
        rfl

/-- **C40 (part that holds: the transition does not depend on time, the prior is not a numpy array).** Every set of models built with the constructors, hyper-grids,
priors of models, data series (any length, so also every prefix): after feeding the data points one by one, every
hypothesis (transition model with one combination of hyper-parameter values) whose fit by `Study.fit(forwardOnly=True)` on the same data has positive evidence has the
evidence of this fit and the parameter distribution of its last time step. -/
theorem C40_partial (c : OConf K D gs) (h1 : 1 ≤ c.seg) (ms : List (String × TM K)) (hg : GoodModels ms) (hne : ms ≠ []) (store : Bool) (prior : PriorSpec K gs)
    (hn : prior.isArray = false) (p : Option (List K)) (S S' : OState K D gs) (hs : setup store prior ms p = .ok S) (xs : List D)
    (hr : runSteps c S xs = .ok S') (hx : c.seg ≤ xs.length) :
    List.Forall₂ (fun q m => m.name = q.1 ∧ createHyperGrid q.2 [] = .ok m.grid ∧ List.Forall₂ (fun M h =>
      ∀ (ts : List K) (T F : FitState K gs), T.prior = prior → Timeless q.2 → fit c.E c.grid M (segLiks c xs) ts true false T = .ok F → F.logEv ≠ LogV.ninf →
        h.ev = some F.logEv ∧ ∃ post, F.posts.getLast? = some (.val post) ∧ h.post = some post) (hypotheses q.2 m.grid) m.hyps) ms S'.models := by
  obtain ⟨i1, i2, -⟩ := setup_inv h1 hs
  have hi := runSteps_inv h1 hg hne xs [] S S' i1 hr
  rw [List.nil_append] at hi
  obtain ⟨-, a0, a1, -, -, a2, -⟩ := hi.after hx
  have hL : segLiks c xs ≠ [] := by
    intro h0
    have := congrArg List.length h0
    simp only [segLiks, List.length_map, movingWindow_len, List.length_nil] at this
    omega
  refine a2.imp fun q m hq => ⟨hq.1.name, hq.1.grid, ?_⟩
  refine (forall₂_and_mem hq.1.hyps).imp ?_
  rintro M h ⟨hM, hch⟩ ts T F hT hti hF h0
  rw [i2] at a1
  refine chain_fit hL (by rw [hT]; exact hn) (by rw [hT]; exact a1) ?_ hch hF h0
  intro p t _
  exact fwd_timeless _ M (timeless_hypotheses hti M hM) _ _ _ _ _

/-- **C40 (what the code computes for every model).** For all transition models, time-dependent or not: the online study agrees with a fit in which
every data point carries the time stamp `-1`. -/
theorem C40_constant_time (c : OConf K D gs) (h1 : 1 ≤ c.seg) (ms : List (String × TM K)) (hg : GoodModels ms) (hne : ms ≠ []) (store : Bool) (prior : PriorSpec K gs)
    (hn : prior.isArray = false) (p : Option (List K)) (S S' : OState K D gs) (hs : setup store prior ms p = .ok S) (xs : List D)
    (hr : runSteps c S xs = .ok S') (hx : c.seg ≤ xs.length) :
    List.Forall₂ (fun q m => m.name = q.1 ∧ createHyperGrid q.2 [] = .ok m.grid ∧ List.Forall₂ (fun M h =>
      ∀ (T F : FitState K gs), T.prior = prior → fit c.E c.grid M (segLiks c xs) (List.replicate xs.length (-1)) true false T = .ok F → F.logEv ≠ LogV.ninf →
        h.ev = some F.logEv ∧ ∃ post, F.posts.getLast? = some (.val post) ∧ h.post = some post) (hypotheses q.2 m.grid) m.hyps) ms S'.models := by
  obtain ⟨i1, i2, -⟩ := setup_inv h1 hs
  have hi := runSteps_inv h1 hg hne xs [] S S' i1 hr
  rw [List.nil_append] at hi
  obtain ⟨-, a0, a1, -, -, a2, -⟩ := hi.after hx
  have hL : segLiks c xs ≠ [] := by
    intro h0
    have := congrArg List.length h0
    simp only [segLiks, List.length_map, movingWindow_len, List.length_nil] at this
    omega
  refine a2.imp fun q m hq => ⟨hq.1.name, hq.1.grid, ?_⟩
  refine hq.1.hyps.imp ?_
  intro M h hch T F hT hF h0
  rw [i2] at a1
  refine chain_fit hL (by rw [hT]; exact hn) (by rw [hT]; exact a1) ?_ hch hF h0
  intro p t ht
  rw [List.eq_of_mem_replicate ht]

end Props

namespace Ex
open BL Spec

/-- observation model with one grid of two values; a data point is its pair of likelihoods -/
def oc : OConf ℚ (ℚ × ℚ) gs2 := ⟨env gs2 1, grid gs2, fun s => match s with | q :: _ => v2 q.1 q.2 | [] => v2 0 0, 1⟩
/-- set up and feed data -/
def orun (store : Bool) (prior : PriorSpec ℚ gs2) (ms : List (String × TM ℚ)) (p : Option (List ℚ)) (xs : List (ℚ × ℚ)) : Except PyErr (OState ℚ (ℚ × ℚ) gs2) :=
  match setup store prior ms p with
  | .error e => .error e
  | .ok S => runSteps oc S xs

theorem orun_ok {store : Bool} {prior : PriorSpec ℚ gs2} {ms : List (String × TM ℚ)} {p : Option (List ℚ)} {xs : List (ℚ × ℚ)} {S' : OState ℚ (ℚ × ℚ) gs2}
    (h : orun store prior ms p xs = .ok S') : ∃ S, setup store prior ms p = .ok S ∧ runSteps oc S xs = .ok S' := by
  unfold orun at h
  split at h
  · cases h
  · exact ⟨_, by assumption, h⟩

/-- Boolean test of an outcome -/
def holds {α : Type} (r : Except PyErr α) (P : α → Bool) : Bool :=
  match r with
  | .ok a => P a
  | .error _ => false

theorem holds_iff {α : Type} {r : Except PyErr α} {P : α → Bool} : holds r P = true ↔ ∃ a, r = .ok a ∧ P a = true := by
  cases r <;> simp [holds]

/-- evidences of all hypotheses -/
def evs (S : OState ℚ (ℚ × ℚ) gs2) : List (List (Option ℚ)) := S.models.map fun m => m.hyps.map fun h => h.ev.map LogV.exp

/-- random walk with a grid of values for its standard deviation -/
def ogrw (l : List ℚ) : TM ℚ := .leaf (.grw "x") ["sigma"] [.array l] (some (.item .none))
/-- change-point with fixed time -/
def ocp (t : ℚ) : TM ℚ := .leaf .changePoint ["t_change"] [.scalar t] (some (.item .none))

theorem ogrw_built (l : List ℚ) : Built (ogrw l) := .grw (name := "sigma") (value := .val (.array l)) (target := some "x") (prior := .item .none) rfl trivial rfl
theorem ocp_built (t : ℚ) : Built (ocp t) := .changePoint (name := "t_change") (value := .val (.scalar t)) (prior := .item .none) trivial rfl

/-- can the hyper-priors be normalised? -/
def priorsOk (tm : TM ℚ) : Bool := match createHyperGrid tm [] with | .ok g => g.priors.isSome | .error _ => true

theorem good_of {ms : List (String × TM ℚ)} (h : ∀ q ∈ ms, Built q.2 ∧ " " ∉ (entries q.2).map (·.1) ∧ priorsOk q.2 = true) : GoodModels ms := by
  intro q hq
  obtain ⟨a, b, e⟩ := h q hq
  refine ⟨a, b, ?_⟩
  intro g hg h0
  simp [priorsOk, hg, h0] at e

theorem good_cp : GoodModels [("cp", ocp 0)] := by
  apply good_of
  simp only [List.mem_singleton, forall_eq]
  exact ⟨ocp_built 0, by decide +kernel, by decide +kernel⟩

/-- static model and random walk with two values of the standard deviation -/
def two : List (String × TM ℚ) := [("s", mkStatic), ("g", ogrw [0, 1 / 2])]

theorem good_two : GoodModels two := by
  apply good_of
  simp only [two, List.mem_cons, List.not_mem_nil, or_false, forall_eq_or_imp, forall_eq]
  exact ⟨⟨.static, by decide +kernel, by decide +kernel⟩, ogrw_built _, by decide +kernel, by decide +kernel⟩

end Ex

namespace Props
open BL Spec Ex

/-- The claim fails for models depending on time: a change-point at the first time step has no effect online, but changes the evidence of the fit. -/
theorem C40_refuted : ∃ (S S' : OState ℚ (ℚ × ℚ) gs2) (F : FitState ℚ gs2) (m : OModelSt ℚ gs2) (h : OHyp ℚ gs2),
    GoodModels [("cp", ocp 0)] ∧ setup true .none [("cp", ocp 0)] none = .ok S ∧ runSteps oc S [(1 / 4, 3 / 4), (1 / 2, 1 / 4)] = .ok S' ∧
    fit oc.E oc.grid (ocp 0) (segLiks oc [(1 / 4, 3 / 4), (1 / 2, 1 / 4)]) [0, 1] true false (S0 .none) = .ok F ∧
    S'.models = [m] ∧ m.hyps = [h] ∧ h.ev.map LogV.exp = some (5 / 32) ∧ F.logEv.exp = 3 / 16 := by
  have h1 : holds (orun true .none [("cp", ocp 0)] none [(1 / 4, 3 / 4), (1 / 2, 1 / 4)]) (fun S' => match S'.models with
    | [m] => match m.hyps with
      | [h] => decide (h.ev.map LogV.exp = some (5 / 32))
      | _ => false
    | _ => false) = true := by decide +kernel
  have h2 : holds (fit oc.E oc.grid (ocp 0) (segLiks oc [(1 / 4, 3 / 4), (1 / 2, 1 / 4)]) [0, 1] true false (S0 .none)) (fun F => decide (F.logEv.exp = 3 / 16)) = true := by
    decide +kernel
  obtain ⟨S', a1, a2⟩ := holds_iff.1 h1
  obtain ⟨F, f1, f2⟩ := holds_iff.1 h2
  obtain ⟨S, b1, b2⟩ := orun_ok a1
  split at a2
  · rename_i m hm
    split at a2
    · rename_i h hh
      exact ⟨S, S', F, m, h, good_cp, b1, b2, f1, hm, hh, of_decide_eq_true a2, of_decide_eq_true f2⟩
    · cases a2
  · cases a2

/-- all assumptions of `C40_partial` can be met (two models, one with two hyper-parameter values) -/
example : ∃ (S S' : OState ℚ (ℚ × ℚ) gs2) (F : FitState ℚ gs2), GoodModels two ∧ Timeless (ogrw [0, 1 / 2]) ∧ setup true .none two none = .ok S ∧
    runSteps oc S [(1 / 4, 3 / 4), (1 / 2, 1 / 4)] = .ok S' ∧
    fit oc.E oc.grid (modelAt (ogrw [0, 1 / 2]) [1 / 2]) (segLiks oc [(1 / 4, 3 / 4), (1 / 2, 1 / 4)]) [0, 1] true false (S0 .none) = .ok F ∧ F.logEv ≠ LogV.ninf := by
  have h1 : holds (orun true .none two none [(1 / 4, 3 / 4), (1 / 2, 1 / 4)]) (fun _ => true) = true := by decide +kernel
  obtain ⟨S', a1, -⟩ := holds_iff.1 h1
  obtain ⟨S, b1, b2⟩ := orun_ok a1
  obtain ⟨F, f1, f2⟩ := ok_of_ev (r := fit oc.E oc.grid (modelAt (ogrw [0, 1 / 2]) [1 / 2]) (segLiks oc [(1 / 4, 3 / 4), (1 / 2, 1 / 4)]) [0, 1] true false (S0 .none))
    (by decide +kernel)
  exact ⟨S, S', F, good_two, trivial, b1, b2, f1, f2⟩

end Props
