import Verif.Props.C30
import Verif.Props.C32
import Verif.Props.C43

/-! # C101: forward-only results use the past only -/

set_option linter.unusedSectionVars false

namespace BL
variable {K : Type} [Field K] [LinearOrder K] [IsStrictOrderedRing K] {d : ℕ} {gs : Fin d → ℕ}

/-- the completed iterations of the forward loop that belong to the common part of the data -/
theorem fwdPass_common {E : Env K gs} {tm : TM K} : ∀ {Ls M M' : List (Idx gs → K)} {ts us us' : List K} {al : Bool} {pr : PriorSpec K gs} {a : Arr K gs} {f f' : FwdOut K gs}, ts.length = Ls.length →
    fwdPass E tm al pr a (Ls ++ M) (ts ++ us) = .ok f → fwdPass E tm al pr a (Ls ++ M') (ts ++ us') = .ok f' → f.steps.take Ls.length = f'.steps.take Ls.length
  | [], _, _, _, _, _, _, _, _, _, _, _, _, _ => by simp
  | L :: Ls, M, M', [], us, us', al, pr, a, f, f', hl, _, _ => by simp at hl
  | L :: Ls, M, M', t :: ts, us, us', al, pr, none, f, f', hl, h, h' => by
      rw [List.cons_append, fwdPass] at h h'
      cases h; cases h'
      rfl
  | L :: Ls, M, M', t :: ts, us, us', al, pr, some a, f, f', hl, h, h' => by
      rw [List.cons_append, List.cons_append, fwdPass] at h h'
      simp only [bind, Except.bind] at h h'
      split at h
      · next hn =>
        rw [if_pos hn] at h'
        cases hx : tm.fwd { E with prior := if al then PriorSpec.array (some fun x => a x * L x / ∑ x, a x * L x) else pr } 0 (some fun x => a x * L x / ∑ x, a x * L x) t with
        | error e => rw [hx] at h; cases h
        | ok nx =>
            rw [hx] at h h'
            simp only at h h'
            split at h
            · cases h
            · next r hr =>
              split at h'
              · cases h'
              · next r' hr' =>
                cases h; cases h'
                have := fwdPass_common (by simpa using hl) hr hr'
                simp [this]
      · next hn =>
        rw [if_neg hn] at h'
        cases h; cases h'
        rfl

end BL

namespace Ex
open BL Spec

/-- change-point after the first or after the last data point -/
def cpEarlyLate : HState ℚ gs2 := ⟨.leaf .changePoint ["t_change"] [.array [1, 3]] (some (.item .none)), S0 .none, [], none⟩
/-- three data points, the last of which is given -/
def lastPoint (L : Idx gs2 → ℚ) : FitIn ℚ gs2 := ⟨env gs2 1, grid gs2, [v2 1 3, v2 1 1, L], [1, 2, 3], true, false, 1 / 1000⟩

/-- first calls on an online study -/
def firstSteps : List (OCall ℚ (ℚ × ℚ)) := [.add "s" mkStatic, .step (1 / 4, 3 / 4), .step (1 / 2, 1 / 4)]
/-- further calls on an online study -/
def moreSteps : List (OCall ℚ (ℚ × ℚ)) := [.step (1, 2), .query (.currentMean "y"), .step (3, 1)]

end Ex

namespace Props
open BL Spec
variable {K : Type} [Field K] [LinearOrder K] [IsStrictOrderedRing K] {d : ℕ} {gs : Fin d → ℕ}

/-- what a forward-only fit stores, in terms of the completed iterations -/
theorem forward_stored {E : Env K gs} {grid : (a : Fin d) → Fin (gs a) → K} {tm : TM K} {Ls : List (Idx gs → K)} {ts : List K} {S R : FitState K gs} (h : fit E grid tm Ls ts true false S = .ok R) :
    ∃ p f, computePrior { E with prior := S.prior } = .ok p ∧ fwdPass E tm p.2.isArray p.2 p.1 Ls ts = .ok f ∧
      (∀ k < Ls.length, R.posts[k]? = some (match f.steps[k]? with | some s => .val s.alpha | none => .uninit)) ∧
      (∀ k < Ls.length, R.locals[k]? = some (match f.steps[k]? with | some s => .val (s.norm * E.cell) | none => .uninit)) ∧
      (R.logEv ≠ LogV.ninf → ∀ a, R.means a = f.steps.map fun s => mean grid a s.alpha) := by
  have hpad : ∀ {α : Type} (F : Step K gs → α) (l : List (Step K gs)) (n k : ℕ), k < n →
      (l.map (fun s => Cell.val (F s)) ++ List.replicate (n - (l.map fun s => Cell.val (F s)).length) Cell.uninit)[k]? = some (match l[k]? with | some s => .val (F s) | none => .uninit) := by
    intro α F l n k hk
    by_cases hl : k < l.length
    · rw [List.getElem?_append_left (by simpa using hl), List.getElem?_map, List.getElem?_eq_getElem hl]
      rfl
    · rw [List.getElem?_append_right (by simpa using hl), List.getElem?_replicate, if_pos (by simp; omega), List.getElem?_eq_none (by omega)]
  unfold fit at h
  simp only [bind, Except.bind] at h
  split at h
  · cases h
  · next p hp =>
    split at h
    · cases h
    · next f hf =>
      refine ⟨p, f, hp, hf, ?_⟩
      split at h
      · cases h
        exact ⟨fun k hk => hpad _ _ _ _ hk, fun k hk => hpad _ _ _ _ hk, fun h => absurd rfl h⟩
      · next hst =>
        simp only [Bool.false_eq_true, if_false, if_true] at h
        cases h
        have hlen := (fwdPass_sum _ _ _ _ _ _ hf).2 (by simpa using hst)
        refine ⟨fun k hk => ?_, fun k hk => ?_, fun _ a => rfl⟩ <;> rw [List.getElem?_map, List.getElem?_eq_getElem (by omega)] <;> rfl

/-- **C101 (Study).** Two forward-only fits of data that agree up to some time step (the data and time stamps afterwards may differ in values and number): the stored posterior distributions and local evidences up to this time step are the
same, for every prior and every transition model; and so are the mean values, if none of the fits stopped early. -/
theorem C101_study (E : Env K gs) (grid : (a : Fin d) → Fin (gs a) → K) (tm : TM K) (Ls M M' : List (Idx gs → K)) (ts us us' : List K) (hl : ts.length = Ls.length) (S R R' : FitState K gs)
    (h : fit E grid tm (Ls ++ M) (ts ++ us) true false S = .ok R) (h' : fit E grid tm (Ls ++ M') (ts ++ us') true false S = .ok R') :
    ∀ k < Ls.length, R.posts[k]? = R'.posts[k]? ∧ R.locals[k]? = R'.locals[k]? ∧ (R.logEv ≠ LogV.ninf → R'.logEv ≠ LogV.ninf → ∀ a, (R.means a)[k]? = (R'.means a)[k]?) := by
  intro k hk
  obtain ⟨p, f, a1, a2, a3, a4, a5⟩ := forward_stored h
  obtain ⟨p', f', b1, b2, b3, b4, b5⟩ := forward_stored h'
  rw [a1] at b1
  cases b1
  have hstep : f.steps[k]? = f'.steps[k]? := by
    have := congrArg (·[k]?) (fwdPass_common hl a2 b2)
    simpa [List.getElem?_take, hk] using this
  refine ⟨?_, ?_, fun n1 n2 a => ?_⟩
  · rw [a3 k (by simp; omega), b3 k (by simp; omega), hstep]
  · rw [a4 k (by simp; omega), b4 k (by simp; omega), hstep]
  · rw [a5 n1, b5 n2, List.getElem?_map, List.getElem?_map, hstep]

/-- **C101 refuted** for hyper-studies: a change-point after the first or after the third (last) data point; two data sets that agree in the first two of three data points.  The documentation promises for `forwardOnly=True` that
the posterior distributions "at each time step only incorporate the information of past data points"; but the averaged posterior distributions of the second time step are different. -/
theorem C101_hyper_refuted : ∃ R R', Built Ex.cpEarlyLate.tm ∧ hyperFit (Ex.lastPoint (Ex.v2 1 5)) 1 Ex.cpEarlyLate = .ok (some R) ∧ hyperFit (Ex.lastPoint (Ex.v2 5 1)) 1 Ex.cpEarlyLate = .ok (some R') ∧
    firstValue R.S 1 = some (5 / 14) ∧ firstValue R'.S 1 = some (2 / 5) := by
  obtain ⟨R, h1, h2⟩ := Ex.Ok_iff.1 (show Ex.Ok (hyperFit (Ex.lastPoint (Ex.v2 1 5)) 1 Ex.cpEarlyLate) (fun R => decide (firstValue R.S 1 = some (5 / 14))) = true by decide +kernel)
  obtain ⟨R', q1, q2⟩ := Ex.Ok_iff.1 (show Ex.Ok (hyperFit (Ex.lastPoint (Ex.v2 5 1)) 1 Ex.cpEarlyLate) (fun R => decide (firstValue R.S 1 = some (2 / 5))) = true by decide +kernel)
  exact ⟨R, R', Built.changePoint (name := "t_change") (value := .val (.array [1, 3])) (prior := .item .none) trivial rfl, h1, q1, of_decide_eq_true h2, of_decide_eq_true q2⟩

/-- **C101 (part that holds for hyper-studies).** Two forward-only fits of data that agree up to some time step, with the same hyper-grid: the later data enter the averaged posterior distributions up to this time step only through
the distribution of the hyper-parameters.  If it is the same for both fits, then so are these averaged posterior distributions. -/
theorem C101_hyper_partial (E : Env K gs) (grid : (a : Fin d) → Fin (gs a) → K) (ε : K) (hε : 0 < ε) (hcell : 0 ≤ E.cell) (hne : Nonempty (Idx gs)) (nJobs : ℕ) (H R R' : HState K gs) (g : HyperGrid K) (ps : List K) (hb : Built H.tm)
    (hsp : " " ∉ (entries H.tm).map (·.1)) (hn : H.S.prior.isArray = false) (Ls M M' : List (Idx gs → K)) (ts us us' : List K) (hl : ts.length = Ls.length)
    (hg : createHyperGrid H.tm (ts ++ us) = .ok g) (hg' : createHyperGrid H.tm (ts ++ us') = .ok g) (hps : g.priors = some ps) (hr : 1 < g.rows.length) (hnn : ∀ p ∈ ps, 0 ≤ p)
    (h : hyperFit ⟨E, grid, Ls ++ M, ts ++ us, true, false, ε⟩ nJobs H = .ok (some R)) (h' : hyperFit ⟨E, grid, Ls ++ M', ts ++ us', true, false, ε⟩ nJobs H = .ok (some R'))
    (hpos : R.S.logEv ≠ LogV.ninf) (hpos' : R'.S.logEv ≠ LogV.ninf) (hD : R.hpd = R'.hpd) : ∀ k < Ls.length, R.S.posts[k]? = R'.S.posts[k]? := by
  intro k hk
  obtain ⟨As, W, D, c1, c2, c3, -, -, -, -, P, p1, p2⟩ := C30_partial _ nJobs H R g ps hb hsp hn hcell hg hps hr hnn h hpos rfl hε hne
  obtain ⟨As', W', D', d1, d2, d3, -, -, -, -, P', q1, q2⟩ := C30_partial _ nJobs H R' g ps hb hsp hn hcell hg' hps hr hnn h' hpos' rfl hε hne
  rw [c2, d2] at hD
  cases hD
  rw [c3] at d3
  subst d3
  have hsame : ∀ f : (Idx gs → K) → K, (Spec.mixture As W fun A => f (postOf A k)) = Spec.mixture As' W fun A => f (postOf A k) := by
    intro f
    obtain ⟨e1, e2⟩ := List.forall₂_iff_get.1 c1
    obtain ⟨e3, e4⟩ := List.forall₂_iff_get.1 d1
    have : As.map (fun A => f (postOf A k)) = As'.map fun A => f (postOf A k) := by
      refine List.ext_getElem (by simp; omega) fun j h1 h2 => ?_
      have j1 : j < As.length := by simpa using h1
      have j2 : j < As'.length := by simpa using h2
      have s1 := e2 j (by omega) j1
      have s2 := e4 j (by omega) j2
      have := (C101_study E grid _ Ls M M' ts us us' hl H.S _ _ s1 s2 k hk).1
      have hpo : postOf As[j] k = postOf As'[j] k := by
        unfold postOf
        rw [show As[j].posts[k]? = As'[j].posts[k]? from this]
      simp [hpo]
    have e5 : ∀ (l : List (FitState K gs)) (W : List K), Spec.mixture l W (fun A => f (postOf A k)) = (((l.map fun A => f (postOf A k)).zip W).map fun q => q.2 * q.1).sum := by
      intro l W
      unfold Spec.mixture
      rw [List.zip_map_left, List.map_map]
      rfl
    rw [e5, e5, this]
  have hk1 : k < (Ls ++ M).length := by simp; omega
  have hk2 : k < (Ls ++ M').length := by simp; omega
  rw [p1, q1]
  simp only [List.getElem?_map, List.getElem?_range hk1, List.getElem?_range hk2, Option.map_some, Option.some.injEq, Cell.val.injEq]
  funext x
  rw [(p2 k hk1).2.1 x, (q2 k hk2).2.1 x, hsame fun p => max ε (p x), Finset.sum_congr rfl fun y _ => hsame fun p => max ε (p y)]

/-- **C101 (OnlineStudy).** What an online study has stored after some calls is never changed by later calls: the later histories of distributions and mean values continue the earlier ones. -/
theorem C101_online {D : Type} (c : OConf K D gs) (h1 : 1 ≤ c.seg) (store : Bool) (prior : PriorSpec K gs) (qs qs' : List (OCall K D)) (S S' : OState K D gs) (out out' : List (Option PyErr))
    (hr : execAll c (OState.new store prior) qs = (S, out)) (hs : StepsSucceed qs out) (hr' : execAll c S qs' = (S', out')) (hs' : StepsSucceed qs' out') :
    S.posts.entries <+: S'.posts.entries ∧ S.means <+: S'.means ∧ S.hpds <+: S'.hpds ∧ S.tmds <+: S'.tmds ∧ S.ltmds <+: S'.ltmds := by
  have hi := execAll_hist h1 qs _ [] (new_hist h1 store prior) (by rw [hr]; exact hs)
  rw [hr] at hi
  simp only at hi
  clear hr hs out
  generalize ([] ++ fedData qs : List D) = xs at hi
  clear qs
  induction qs' generalizing S xs S' out' with
  | nil => cases hr'; simp
  | cons q qs' ih =>
      simp only [execAll, Prod.mk.injEq] at hr'
      obtain ⟨r1, r2⟩ := hr'
      have hs2 : StepsSucceed qs' (execAll c (q.exec c S).1 qs').2 := fun i x hx => by
        have := hs' (i + 1) x (by simpa using hx)
        rw [← r2] at this
        simpa using this
      by_cases hq : ∃ x, q = .step x
      · obtain ⟨x, rfl⟩ := hq
        have h0 := hs' 0 x (by simp)
        rw [← r2] at h0
        simp only [List.getElem?_cons_zero, Option.some.injEq] at h0
        have hst : S.step (some c) x = ((OCall.exec c S (.step x)).1, none) := by
          rw [← h0]; rfl
        obtain ⟨ha, hi'⟩ := step_hist h1 hi hst
        obtain ⟨i1, i2, i3, i4, i5⟩ := ih _ _ _ (Prod.ext r1 rfl) hs2 _ hi'
        exact ⟨(by rw [ha.posts]; exact List.prefix_append _ _ : S.posts.entries <+: _).trans i1, (by rw [ha.means]; exact List.prefix_append _ _ : S.means <+: _).trans i2,
          (by rw [ha.hpds]; exact List.prefix_append _ _ : S.hpds <+: _).trans i3, (by rw [ha.tmds]; exact List.prefix_append _ _ : S.tmds <+: _).trans i4, (by rw [ha.ltmds]; exact List.prefix_append _ _ : S.ltmds <+: _).trans i5⟩
      · have hsame := call_hist c S q fun x hx => hq ⟨x, hx⟩
        obtain ⟨i1, i2, i3, i4, i5⟩ := ih _ _ _ (Prod.ext r1 rfl) hs2 _ (hi.of_same hsame)
        rw [hsame.posts] at i1
        rw [hsame.means] at i2
        rw [hsame.hpds] at i3
        rw [hsame.tmds] at i4
        rw [hsame.ltmds] at i5
        exact ⟨i1, i2, i3, i4, i5⟩

/-- The hypotheses of `C101_study` are met (the last two data points differ, one of the fits stops early). -/
example : ∃ R R', fit (Ex.env Ex.gs2 1) (Ex.grid Ex.gs2) (.leaf .changePoint ["t_change"] [.scalar 2] none) ([Ex.v2 1 3] ++ [Ex.v2 1 1, Ex.v2 1 5]) ([1] ++ [2, 3]) true false (Ex.S0 .none) = .ok R ∧
    fit (Ex.env Ex.gs2 1) (Ex.grid Ex.gs2) (.leaf .changePoint ["t_change"] [.scalar 2] none) ([Ex.v2 1 3] ++ [Ex.v2 0 0]) ([1] ++ [7]) true false (Ex.S0 .none) = .ok R' ∧ firstValue R 0 = some (1 / 4) ∧ firstValue R' 0 = some (1 / 4) ∧
    firstValue R 1 = some (1 / 4) ∧ firstValue R' 1 = none :=
  by
  have get : ∀ {r : Except PyErr (FitState ℚ Ex.gs2)} {P : FitState ℚ Ex.gs2 → Bool}, (match r with | .ok R => P R | .error _ => false) = true → ∃ R, r = .ok R ∧ P R = true := by
    intro r P h
    cases r with
    | error e => cases h
    | ok R => exact ⟨R, rfl, h⟩
  obtain ⟨R, h1, h2⟩ := get (r := fit (Ex.env Ex.gs2 1) (Ex.grid Ex.gs2) (.leaf .changePoint ["t_change"] [.scalar 2] none) ([Ex.v2 1 3] ++ [Ex.v2 1 1, Ex.v2 1 5]) ([1] ++ [2, 3]) true false (Ex.S0 .none))
    (P := fun R => decide (firstValue R 0 = some (1 / 4) ∧ firstValue R 1 = some (1 / 4))) (by decide +kernel)
  obtain ⟨R', q1, q2⟩ := get (r := fit (Ex.env Ex.gs2 1) (Ex.grid Ex.gs2) (.leaf .changePoint ["t_change"] [.scalar 2] none) ([Ex.v2 1 3] ++ [Ex.v2 0 0]) ([1] ++ [7]) true false (Ex.S0 .none))
    (P := fun R => decide (firstValue R 0 = some (1 / 4) ∧ firstValue R 1 = none)) (by decide +kernel)
  exact ⟨R, R', h1, q1, (of_decide_eq_true h2).1, (of_decide_eq_true q2).1, (of_decide_eq_true h2).2, (of_decide_eq_true q2).2⟩

/-- The hypotheses of `C101_hyper_partial` are met with different last data points. -/
example : ∃ g R R', createHyperGrid Ex.cpEarlyLate.tm ([1, 2] ++ [3]) = .ok g ∧ g.priors = some [1 / 4, 1 / 4] ∧ 1 < g.rows.length ∧ hyperFit (Ex.lastPoint (Ex.v2 1 1)) 1 Ex.cpEarlyLate = .ok (some R) ∧
    hyperFit (Ex.lastPoint (Ex.v2 2 2)) 1 Ex.cpEarlyLate = .ok (some R') ∧ R.S.logEv.exp = 2 ∧ R'.S.logEv.exp = 4 ∧ R.hpd = some [1 / 4, 1 / 4] ∧ R'.hpd = some [1 / 4, 1 / 4] := by
  obtain ⟨R, h1, h2⟩ := Ex.Ok_iff.1 (show Ex.Ok (hyperFit (Ex.lastPoint (Ex.v2 1 1)) 1 Ex.cpEarlyLate) (fun R => decide (R.S.logEv.exp = 2 ∧ R.hpd = some [1 / 4, 1 / 4])) = true by decide +kernel)
  obtain ⟨R', q1, q2⟩ := Ex.Ok_iff.1 (show Ex.Ok (hyperFit (Ex.lastPoint (Ex.v2 2 2)) 1 Ex.cpEarlyLate) (fun R => decide (R.S.logEv.exp = 4 ∧ R.hpd = some [1 / 4, 1 / 4])) = true by decide +kernel)
  exact ⟨_, R, R', rfl, by decide +kernel, by decide +kernel, h1, q1, (of_decide_eq_true h2).1, (of_decide_eq_true q2).1, (of_decide_eq_true h2).2, (of_decide_eq_true q2).2⟩

/-- The hypotheses of `C101_online` are met: two more steps and a query that fails. -/
example : ∃ S out S' out', execAll Ex.oc2 (OState.new true .none) Ex.firstSteps = (S, out) ∧ StepsSucceed Ex.firstSteps out ∧ execAll Ex.oc2 S Ex.moreSteps = (S', out') ∧
    StepsSucceed Ex.moreSteps out' ∧ S.posts.entries.length = 1 ∧ S'.posts.entries.length = 3 ∧ out' = [none, some .postProcessing, none] := by
  have h : (execAll Ex.oc2 (OState.new true .none) Ex.firstSteps).2 = [none, none, none] := by decide +kernel
  have h' : (execAll Ex.oc2 (execAll Ex.oc2 (OState.new true .none) Ex.firstSteps).1 Ex.moreSteps).2 = [none, some .postProcessing, none] := by decide +kernel
  refine ⟨(execAll Ex.oc2 (OState.new true .none) Ex.firstSteps).1, (execAll Ex.oc2 (OState.new true .none) Ex.firstSteps).2, (execAll Ex.oc2 (execAll Ex.oc2 (OState.new true .none) Ex.firstSteps).1 Ex.moreSteps).1,
    (execAll Ex.oc2 (execAll Ex.oc2 (OState.new true .none) Ex.firstSteps).1 Ex.moreSteps).2, rfl, ?_, rfl, ?_, by decide +kernel, by decide +kernel, h'⟩
  · rw [h]
    intro i x hx
    have hi : i < 3 := by
      have := (List.getElem?_eq_some_iff.1 hx).1
      simpa [Ex.firstSteps] using this
    interval_cases i <;> simp [Ex.firstSteps] at hx ⊢
  · rw [h']
    intro i x hx
    have hi : i < 3 := by
      have := (List.getElem?_eq_some_iff.1 hx).1
      simpa [Ex.moreSteps] using this
    interval_cases i <;> simp [Ex.moreSteps] at hx ⊢

end Props
