import Verif.Props.C30

/-! # C32, C33, C37: hyper-studies (jobs, restored model, local evidence) and concrete cases for C29-C33, C37 -/

set_option linter.unusedSectionVars false

namespace Spec
open BL
variable {K : Type} {d : ℕ} {gs : Fin d → ℕ}

/-- Same outcome of two calls: the same error, or the same results (posterior means are only computed if `evidenceOnly=False`). -/
def SameOutcome (evidenceOnly : Bool) : Except PyErr (Option (HState K gs)) → Except PyErr (Option (HState K gs)) → Prop
  | .error e, .error e' => e = e'
  | .ok none, .ok none => True
  | .ok (some R), .ok (some R') => R.evs = R'.evs ∧ R.hpd = R'.hpd ∧ R.S.logEv = R'.S.logEv ∧ R.S.locals = R'.S.locals ∧
      R.S.posts = R'.S.posts ∧ (evidenceOnly = false → R.S.means = R'.S.means) ∧ R.tm = R'.tm ∧ R.S.prior = R'.S.prior
  | _, _ => False

end Spec

namespace Props
open BL Spec

variable {K : Type} [Field K] [LinearOrder K] [IsStrictOrderedRing K] {d : ℕ} {gs : Fin d → ℕ}

/-- **C32 (part that holds: the prior of the parameters is not a numpy array).** Any two numbers of jobs give the same outcome, for every
transition model built with the constructors, every hyper-grid, data and fit mode. -/
theorem C32_partial (I : FitIn K gs) (m n : ℕ) (H : HState K gs) (hb : Built H.tm) (hsp : " " ∉ (entries H.tm).map (·.1))
    (hn : H.S.prior.isArray = false) : SameOutcome I.evidenceOnly (hyperFit I m H) (hyperFit I n H) := by
  have refl : ∀ r : Except PyErr (Option (HState K gs)), SameOutcome I.evidenceOnly r r := by
    intro r
    match r with
    | .error e => exact rfl
    | .ok none => exact trivial
    | .ok (some R) => exact ⟨rfl, rfl, rfl, rfl, rfl, fun _ => rfl, rfl, rfl⟩
  cases hg : createHyperGrid H.tm I.ts with
  | error e =>
      have : hyperFit I m H = hyperFit I n H := by unfold hyperFit; rw [hg]; rfl
      rw [this]; exact refl _
  | ok g =>
      cases hps : g.priors with
      | none =>
          have : hyperFit I m H = hyperFit I n H := by
            unfold hyperFit; rw [hg]; simp only [bind, Except.bind, hps]
          rw [this]; exact refl _
      | some ps =>
          by_cases hr : 1 < g.rows.length
          · have hm := hyperFit_spec I m H g ps hb hsp hn hg hps hr
            have hn' := hyperFit_spec I n H g ps hb hsp hn hg hps hr
            rcases hm with ⟨e, he⟩ | ⟨As, a1, a2, a3, R, r0, r1, r2, r3, r4, r5, r6, r7, r8⟩
            · rw [he, he]; exact refl _
            · rcases hn' with ⟨e, he⟩ | ⟨Bs, b1, b2, b3, Q, q0, q1, q2, q3, q4, q5, q6, q7, q8⟩
              · rw [he, he]; exact refl _
              · have hAB : Bs = As := by
                  have e1 := mapE_ok.2 a1
                  rw [mapE_ok.2 b1] at e1
                  exact Except.ok.inj e1
                subst hAB
                rw [r0, q0]
                have hp : R.S.posts = Q.S.posts := by
                  cases he : I.evidenceOnly with
                  | false => rw [(r8 he).1, (q8 he).1]
                  | true => rw [r7 he, q7 he]
                refine ⟨by rw [r1, q1], by rw [r2, q2], by rw [r3, q3], by rw [r4, q4], hp, fun he => ?_, by rw [r5, q5], by rw [r6, q6]⟩
                rw [(r8 he).2, (q8 he).2, hp]
          · have : hyperFit I m H = hyperFit I n H := by
              unfold hyperFit
              rw [hg]
              simp only [bind, Except.bind, hps]
              have hc : hyperCore I m g.flat g.rows g.hgc ps H = hyperCore I n g.flat g.rows g.hgc ps H := by
                unfold hyperCore
                simp only [gt_iff_lt, hr, ↓reduceIte]
              rw [hc]
            rw [this]; exact refl _

/-! ## C33 -/

theorem hyperLoop_shape (I : FitIn K gs) (tm : TM K) (hw : WellNamed tm) : ∀ (rps : List (List K × K)) (L R : HLoop K gs),
    (∀ rp ∈ rps, rp.1.length = (entries tm).length) → SameShape tm L.tm → hyperLoop I rps L = .ok R → SameShape tm R.tm
  | [], L, R, _, hs, h => by
      simp only [hyperLoop, Except.ok.injEq] at h
      subst h; exact hs
  | rp :: rps, L, R, hl, hs, h => by
      obtain ⟨h1, h2⟩ := setAll_shape hw hs (xs := rp.1.map .scalar) (by rw [List.length_map]; exact hl rp (by simp))
        (by intro x hx; obtain ⟨v, -, rfl⟩ := List.mem_map.1 hx; exact trivial)
      simp only [hyperLoop, hyperStep, h1, bind, Except.bind] at h
      cases hf : fit I.E I.grid (withValues (assigned ((entries tm).map (·.1)) (rp.1.map .scalar)) tm) I.liks I.ts I.forwardOnly
          I.evidenceOnly L.S with
      | error e => rw [hf] at h; cases h
      | ok S =>
          rw [hf] at h
          exact hyperLoop_shape I tm hw rps _ R (fun rp hrp => hl rp (by simp [hrp])) h2 h

theorem mergeSubs_tm : ∀ (ss : List (HLoop K gs)) (L : HLoop K gs), (mergeSubs L ss).tm = L.tm
  | [], _ => rfl
  | _ :: ss, L => by rw [mergeSubs, mergeSubs_tm ss]

/-- own values assigned: nothing changes -/
theorem assigned_own {tm : TM K} (hp : Proper tm) (hnd : ((entries tm).map (·.1)).Nodup) :
    withValues (assigned ((entries tm).map (·.1)) ((entries tm).map (·.2))) tm = tm := by
  conv_rhs => rw [← withValues_id (fun _ v => v) tm hp fun _ _ _ => rfl]
  apply withValues_congr
  intro e he
  unfold assigned
  have hz : ((entries tm).map (·.1)).zip ((entries tm).map (·.2)) = entries tm := by
    rw [List.zip_map']
    simp
  rw [hz]
  have hf : (entries tm).find? (fun p => p.1 = e.1) = some e := by
    generalize entries tm = l at he hnd
    induction l with
    | nil => simp at he
    | cons a l ih =>
        rw [List.map_cons, List.nodup_cons] at hnd
        rcases List.mem_cons.1 he with rfl | he
        · simp
        · have hne : a.1 ≠ e.1 := fun h => hnd.1 (h ▸ List.mem_map_of_mem he)
          rw [List.find?_cons]
          simp only [hne, decide_false]
          exact ih he hnd.2
  rw [hf]

/-- **C33 (part that holds: no hyper-parameter is set to `'all'`).** After every successful `fit` the transition model, and with it every
hyper-parameter value, is the one the user entered: any nesting, parameter prior, data, fit mode and number of jobs. -/
theorem C33_partial (I : FitIn K gs) (nJobs : ℕ) (H R : HState K gs) (hb : Built H.tm) (hsp : " " ∉ (entries H.tm).map (·.1))
    (hall : ∀ e ∈ entries H.tm, ¬ e.2 matches .all) (h : hyperFit I nJobs H = .ok (some R)) : R.tm = H.tm := by
  have hp := (Built.matched hb).proper
  unfold hyperFit at h
  cases hg : createHyperGrid H.tm I.ts with
  | error e => rw [hg] at h; cases h
  | ok g =>
      rw [hg] at h
      simp only [bind, Except.bind] at h
      split at h
      · cases h
      split at h
      · cases h
      rename_i hd
      have hnd : ((entries H.tm).map (·.1)).Nodup := by
        rw [← entries_names H.tm hp]
        exact (Props.duplicates_eq_nil _).1 (List.length_eq_zero_iff.1 (by omega))
      have hw : WellNamed H.tm := ⟨hp, hnd, hsp⟩
      obtain ⟨e1, e2, -, e4⟩ := Props.createHyperGrid_eq hp hg
      cases hps : g.priors with
      | none => rw [hps] at h; simp at h
      | some ps =>
          rw [hps] at h
          simp only at h
          cases hc : hyperCore I nJobs g.flat g.rows g.hgc ps H with
          | error e => rw [hc] at h; cases h
          | ok r =>
              rw [hc] at h
              simp only [Except.ok.injEq, Option.some.injEq] at h
              subst h
              have hfl : g.flat = (entries H.tm).map (·.2) := by
                rw [e1, entries_values H.tm hp, List.map_map]
                apply List.map_congr_left
                intro e he
                have := hall e he
                simp only [Function.comp]
                cases hv : e.2 <;> simp_all [expandAll]
              have hpl : ∀ v ∈ g.flat, Plain v := by
                intro v hv
                rw [hfl, ← entries_values H.tm hp] at hv
                exact entries_plain H.tm hp v hv
              unfold hyperCore at hc
              by_cases hr : g.rows.length > 1
              · simp only [hr, ↓reduceIte, bind, Except.bind] at hc
                have hlen : ∀ r ∈ g.rows, r.length = (entries H.tm).length := by
                  intro r hr'
                  by_cases hne : entries H.tm = []
                  · rw [if_pos hne] at e4
                    rw [e4] at hr'
                    simp at hr'
                  · rw [if_neg hne] at e4
                    rw [e4, cart_mem] at hr'
                    rw [hr'.length_eq, axes, List.length_map]
                have hlz : ∀ rp ∈ g.rows.zip ps, rp.1.length = (entries H.tm).length :=
                  fun rp hrp => hlen _ (List.of_mem_zip hrp).1
                cases hrun : hyperRun I nJobs (g.rows.zip ps) (HLoop.start I H.tm H.S) with
                | error e => rw [hrun] at hc; cases hc
                | ok L =>
                    rw [hrun] at hc
                    have hs : SameShape H.tm L.tm := by
                      unfold hyperRun at hrun
                      split at hrun
                      · simp only [bind, Except.bind] at hrun
                        split at hrun
                        · cases hrun
                        · cases hrun
                          rw [mergeSubs_tm]
                          exact SameShape.refl hp
                      · exact hyperLoop_shape I H.tm hw _ _ L hlz (SameShape.refl hp) hrun
                    simp only at hc
                    obtain ⟨s1, -⟩ := setAll_shape hw hs (xs := g.flat) (by rw [hfl, List.length_map]) hpl
                    rw [s1] at hc
                    simp only [Except.ok.injEq] at hc
                    subst hc
                    rw [hfl]
                    exact assigned_own hp hnd
              · simp only [hr, ↓reduceIte, bind, Except.bind] at hc
                split at hc
                · cases hc
                · cases hc; rfl

/-! ## C37 -/

/-- sum of local evidences which are stored and not nan -/
theorem Cell.add_ne {a b : Cell K} (ha : a ≠ .uninit) (hb : b ≠ .uninit) : a.add b ≠ .uninit := by
  cases a <;> cases b <;> simp_all [Cell.add]

theorem localAvg_ne (n : ℕ) (locs : List (List (Cell K))) (ps : List K) (h : ∀ l ∈ locs, l.length = n ∧ ∀ c ∈ l, c ≠ .uninit) :
    ∀ c ∈ localAvg n locs ps, c ≠ .uninit := by
  unfold localAvg
  have key : ∀ (ls : List (List (Cell K))) (acc : List (Cell K)), (∀ c ∈ acc, c ≠ .uninit) → (∀ l ∈ ls, ∀ c ∈ l, c ≠ .uninit) →
      ∀ c ∈ ls.foldl (List.zipWith Cell.add) acc, c ≠ .uninit := by
    intro ls
    induction ls with
    | nil => intro acc h _; exact h
    | cons l ls ih =>
        intro acc ha hl
        rw [List.foldl_cons]
        apply ih
        · intro c hc
          obtain ⟨i, hi⟩ := List.mem_iff_getElem?.1 hc
          rw [List.getElem?_zipWith_eq_some] at hi
          obtain ⟨x, y, hx, hy, rfl⟩ := hi
          exact Cell.add_ne (ha x (List.mem_of_getElem? hx)) (hl l (by simp) y (List.mem_of_getElem? hy))
        · exact fun l' hl' => hl l' (by simp [hl'])
  apply key
  · intro c hc
    rw [List.mem_replicate] at hc
    rw [hc.2]; simp
  · intro l hl c hc
    obtain ⟨i, hi⟩ := List.mem_iff_getElem?.1 hl
    rw [List.getElem?_zipWith_eq_some] at hi
    obtain ⟨x, y, hx, hy, rfl⟩ := hi
    obtain ⟨c', hc', rfl⟩ := List.mem_map.1 hc
    have := (h x (List.mem_of_getElem? hx)).2 c' hc'
    cases c' <;> simp_all [Cell.scale]

/-- a number in place of uninitialised memory or nan -/
def cellVal : Cell K → K
  | .val x => x
  | _ => 0

theorem localAvg_val (n : ℕ) (locs : List (List (Cell K))) (ps : List K) (f : List (Cell K) → ℕ → K)
    (h : ∀ l ∈ locs, l = (List.range n).map fun t => .val (f l t)) :
    localAvg n locs ps = (List.range n).map fun t => .val ((locs.zip ps).map fun q => q.2 * f q.1 t).sum := by
  unfold localAvg
  have key : ∀ (ls : List (List (Cell K))) (ps : List K) (g : ℕ → K), (∀ l ∈ ls, l = (List.range n).map fun t => .val (f l t)) →
      (List.zipWith (fun l p => l.map (Cell.scale p)) ls ps).foldl (List.zipWith Cell.add) ((List.range n).map fun t => .val (g t)) =
        (List.range n).map fun t => .val (g t + ((ls.zip ps).map fun q => q.2 * f q.1 t).sum) := by
    intro ls
    induction ls with
    | nil => intro ps g _; simp
    | cons l ls ih =>
        intro ps g hl
        cases ps with
        | nil => simp
        | cons p ps =>
            have h1 : List.zipWith Cell.add ((List.range n).map fun t => Cell.val (g t)) (l.map (Cell.scale p)) =
                (List.range n).map fun t => .val (g t + p * f l t) := by
              have hl1 := hl l (by simp)
              conv_lhs => rw [hl1]
              rw [List.map_map, List.zipWith_map, List.zipWith_self]
              apply List.map_congr_left
              intro t _
              simp only [Function.comp, Cell.scale, Cell.add, mul_comm]
            rw [List.zipWith_cons_cons, List.foldl_cons, h1, ih ps _ fun l hl' => hl l (by simp [hl'])]
            simp only [List.zip_cons_cons, List.map_cons, List.sum_cons, add_assoc]
  have h0 : List.replicate n (Cell.val (0 : K)) = (List.range n).map fun _ => .val 0 := by
    simp [List.map_const']
  rw [h0, key locs ps (fun _ => 0) h]
  simp

/-- **C37 (part that holds: the parameter prior is not an array and no single evidence is zero).** The local evidences do not depend on
uninitialised memory; if no single local evidence is nan they are the averages of the local evidences of the plain fits, weighted with
the prior *values* (densities). -/
theorem C37_partial (I : FitIn K gs) (nJobs : ℕ) (H R : HState K gs) (g : HyperGrid K) (ps : List K) (hb : Built H.tm)
    (hsp : " " ∉ (entries H.tm).map (·.1)) (hn : H.S.prior.isArray = false)
    (hg : createHyperGrid H.tm I.ts = .ok g) (hps : g.priors = some ps) (hr : 1 < g.rows.length)
    (h : hyperFit I nJobs H = .ok (some R)) :
    ∃ As, Singles I H g.rows As ∧ R.evs = As.map FitState.logEv ∧
      ((∀ A ∈ As, A.logEv ≠ LogV.ninf) → (∀ c ∈ R.S.locals, c ≠ .uninit) ∧
        ((∀ A ∈ As, ∀ c ∈ A.locals, ∃ v, c = .val v) →
          R.S.locals = (List.range I.liks.length).map fun t =>
            .val ((As.zip ps).map fun q => q.2 * cellVal (q.1.locals.getD t .nan)).sum)) := by
  rcases hyperFit_spec I nJobs H g ps hb hsp hn hg hps hr with ⟨e, he⟩ | ⟨As, a1, a2, a3, R', r0, r1, r2, r3, r4, r5, r6, r7, r8⟩
  · rw [he] at h; cases h
  · rw [r0] at h
    cases h
    refine ⟨As, a1, r1, fun hev => ?_⟩
    have hl : ∀ A ∈ As, A.locals.length = I.liks.length ∧ ∀ c ∈ A.locals, c ≠ .uninit := by
      intro A hA
      obtain ⟨row, -, hs⟩ := Singles.mem a1 hA
      exact fit_locals hs (hev A hA)
    refine ⟨?_, fun hv => ?_⟩
    · rw [r4]
      apply localAvg_ne
      intro l hl'
      obtain ⟨A, hA, rfl⟩ := List.mem_map.1 hl'
      exact hl A hA
    · rw [r4, localAvg_val I.liks.length _ ps (fun l t => cellVal (l.getD t .nan))]
      · apply List.map_congr_left
        intro t _
        rw [List.zip_map_left, List.map_map]
        rfl
      · intro l hl'
        obtain ⟨A, hA, rfl⟩ := List.mem_map.1 hl'
        apply List.ext_getElem?
        intro t
        by_cases ht : t < I.liks.length
        · have ht' : t < A.locals.length := by rw [(hl A hA).1]; exact ht
          rw [List.getElem?_map, List.getElem?_range ht, List.getElem?_eq_getElem ht']
          obtain ⟨v, hv⟩ := hv A hA _ (List.getElem_mem ht')
          simp only [Option.map_some, List.getD_eq_getElem?_getD, List.getElem?_eq_getElem ht', Option.getD_some, hv, cellVal]
        · rw [List.getElem?_eq_none (by rw [(hl A hA).1]; omega), List.getElem?_eq_none (by simp; omega)]

end Props

/-! ## Concrete studies -/

namespace Ex
open BL Spec

/-- random walk with two widths -/
def hyTM : TM ℚ := .leaf (.grw "x") ["sigma"] [.array [0, 1]] (some (.item .none))

theorem hyTM_built : Built hyTM :=
  Built.grw (name := "sigma") (value := .list [0, 1]) (target := some "x") (prior := .item .none) rfl trivial rfl

/-- two data points -/
def hyIn (eo : Bool) : FitIn ℚ gs2 := ⟨env gs2 1, grid gs2, [v2 1 3, v2 2 1], [1, 2], false, eo, 1 / 1000⟩

/-- a study with parameter prior `p` -/
def hyH (p : PriorSpec ℚ gs2) : HState ℚ gs2 := ⟨hyTM, S0 p, [], none⟩

/-- successful outcome with property `P` -/
def Ok (r : Except PyErr (Option (HState ℚ gs2))) (P : HState ℚ gs2 → Bool) : Bool :=
  match r with
  | .ok (some R) => P R
  | _ => false

theorem Ok_iff {r : Except PyErr (Option (HState ℚ gs2))} {P : HState ℚ gs2 → Bool} : Ok r P = true ↔ ∃ R, r = .ok (some R) ∧ P R = true := by
  unfold Ok
  match r with
  | .error e => simp
  | .ok none => simp
  | .ok (some R) => simp

end Ex

namespace Props
open BL Spec

/-- a study that meets all hypotheses of C29-C33 and C37: two combinations with evidences 5/2 and 11/4, no array prior -/
example : ∃ g R, createHyperGrid (Ex.hyH .none).tm (Ex.hyIn false).ts = .ok g ∧ g.priors = some [1 / 2, 1 / 2] ∧ g.rows = [[0], [1]] ∧
    g.hgc.prod = 1 ∧ Built (Ex.hyH .none).tm ∧ " " ∉ (entries (Ex.hyH .none).tm).map (·.1) ∧ hyperFit (Ex.hyIn false) 3 (Ex.hyH .none) = .ok (some R) ∧
    R.evs.map LogV.exp = [5 / 2, 11 / 4] ∧ R.S.logEv.exp = 21 / 8 ∧ R.hpd = some [10 / 21, 11 / 21] := by
  obtain ⟨R, h1, h2⟩ := Ex.Ok_iff.1 (show Ex.Ok (hyperFit (Ex.hyIn false) 3 (Ex.hyH .none))
    (fun R => R.evs.map LogV.exp = [5 / 2, 11 / 4] ∧ R.S.logEv.exp = 21 / 8 ∧ R.hpd = some [10 / 21, 11 / 21]) = true by decide +kernel)
  exact ⟨_, R, rfl, by decide +kernel, by decide +kernel, by decide +kernel, Ex.hyTM_built, by decide, h1, of_decide_eq_true h2⟩

/-- **C29 refuted** for priors given as arrays: every fit overwrites the array, so that the second entry of the evidence list is not the evidence of
a plain fit with that value (which is 13/4, as two jobs find). -/
theorem C29_refuted : ∃ R A, Built (Ex.hyH (.array (some (Ex.v2 (1 / 4) (3 / 4))))).tm ∧
    hyperFit (Ex.hyIn true) 1 (Ex.hyH (.array (some (Ex.v2 (1 / 4) (3 / 4))))) = .ok (some R) ∧ R.evs.map LogV.exp = [11 / 4, 71 / 20] ∧
    singleFit (Ex.hyIn true) Ex.hyTM (Ex.S0 (.array (some (Ex.v2 (1 / 4) (3 / 4))))) [1] = .ok A ∧ A.logEv.exp = 13 / 4 := by
  obtain ⟨R, h1, h2⟩ := Ex.Ok_iff.1 (show Ex.Ok (hyperFit (Ex.hyIn true) 1 (Ex.hyH (.array (some (Ex.v2 (1 / 4) (3 / 4))))))
    (fun R => R.evs.map LogV.exp = [11 / 4, 71 / 20]) = true by decide +kernel)
  have h3 : (match singleFit (Ex.hyIn true) Ex.hyTM (Ex.S0 (.array (some (Ex.v2 (1 / 4) (3 / 4))))) [1] with
    | .ok A => decide (A.logEv.exp = 13 / 4)
    | .error _ => false) = true := by decide +kernel
  cases hA : singleFit (Ex.hyIn true) Ex.hyTM (Ex.S0 (.array (some (Ex.v2 (1 / 4) (3 / 4))))) [1] with
  | error e => rw [hA] at h3; simp at h3
  | ok A =>
      rw [hA] at h3
      exact ⟨R, A, Ex.hyTM_built, h1, of_decide_eq_true h2, rfl, of_decide_eq_true h3⟩

/-- **C31 refuted** for priors given as arrays: two values with equal prior probability and evidences 11/4 and 13/4 (plain fits) have posterior probabilities 11/24 and 13/24
by Bayes' rule; the study reports 55/126 and 71/126. -/
theorem C31_refuted : ∃ R A B, Built (Ex.hyH (.array (some (Ex.v2 (1 / 4) (3 / 4))))).tm ∧
    hyperFit (Ex.hyIn true) 1 (Ex.hyH (.array (some (Ex.v2 (1 / 4) (3 / 4))))) = .ok (some R) ∧ R.hpd = some [55 / 126, 71 / 126] ∧
    singleFit (Ex.hyIn true) Ex.hyTM (Ex.S0 (.array (some (Ex.v2 (1 / 4) (3 / 4))))) [0] = .ok A ∧
    singleFit (Ex.hyIn true) Ex.hyTM (Ex.S0 (.array (some (Ex.v2 (1 / 4) (3 / 4))))) [1] = .ok B ∧
    A.logEv.exp / (A.logEv.exp + B.logEv.exp) = 11 / 24 ∧ B.logEv.exp / (A.logEv.exp + B.logEv.exp) = 13 / 24 := by
  obtain ⟨R, h1, h2⟩ := Ex.Ok_iff.1 (show Ex.Ok (hyperFit (Ex.hyIn true) 1 (Ex.hyH (.array (some (Ex.v2 (1 / 4) (3 / 4))))))
    (fun R => R.hpd = some [55 / 126, 71 / 126]) = true by decide +kernel)
  have h3 : (match singleFit (Ex.hyIn true) Ex.hyTM (Ex.S0 (.array (some (Ex.v2 (1 / 4) (3 / 4))))) [0] with
    | .ok A => decide (A.logEv.exp = 11 / 4)
    | .error _ => false) = true := by decide +kernel
  have h4 : (match singleFit (Ex.hyIn true) Ex.hyTM (Ex.S0 (.array (some (Ex.v2 (1 / 4) (3 / 4))))) [1] with
    | .ok A => decide (A.logEv.exp = 13 / 4)
    | .error _ => false) = true := by decide +kernel
  cases hA : singleFit (Ex.hyIn true) Ex.hyTM (Ex.S0 (.array (some (Ex.v2 (1 / 4) (3 / 4))))) [0] with
  | error e => rw [hA] at h3; simp at h3
  | ok A =>
      cases hB : singleFit (Ex.hyIn true) Ex.hyTM (Ex.S0 (.array (some (Ex.v2 (1 / 4) (3 / 4))))) [1] with
      | error e => rw [hB] at h4; simp at h4
      | ok B =>
          rw [hA] at h3
          rw [hB] at h4
          have e3 := of_decide_eq_true h3
          have e4 := of_decide_eq_true h4
          refine ⟨R, A, B, Ex.hyTM_built, h1, of_decide_eq_true h2, rfl, rfl, ?_, ?_⟩
          · rw [e3, e4]; decide +kernel
          · rw [e3, e4]; decide +kernel

/-- first value of a stored posterior -/
def firstValue (A : FitState ℚ Ex.gs2) (t : ℕ) : Option ℚ :=
  match A.posts[t]? with
  | some (.val p) => some (p fun _ => ⟨0, by simp [Ex.gs2]⟩)
  | _ => none

/-- **C30 refuted** for priors given as arrays: the last posteriors of the plain fits have first values 2/11 and 6/13, the model average is 11/24 * 2/11 + 13/24 * 6/13 = 1/3; the study stores 20/63. -/
theorem C30_refuted : ∃ R A B, Built (Ex.hyH (.array (some (Ex.v2 (1 / 4) (3 / 4))))).tm ∧
    hyperFit (Ex.hyIn false) 1 (Ex.hyH (.array (some (Ex.v2 (1 / 4) (3 / 4))))) = .ok (some R) ∧ firstValue R.S 1 = some (20 / 63) ∧
    singleFit (Ex.hyIn false) Ex.hyTM (Ex.S0 (.array (some (Ex.v2 (1 / 4) (3 / 4))))) [0] = .ok A ∧
    singleFit (Ex.hyIn false) Ex.hyTM (Ex.S0 (.array (some (Ex.v2 (1 / 4) (3 / 4))))) [1] = .ok B ∧
    A.logEv.exp = 11 / 4 ∧ B.logEv.exp = 13 / 4 ∧ firstValue A 1 = some (2 / 11) ∧ firstValue B 1 = some (6 / 13) := by
  obtain ⟨R, h1, h2⟩ := Ex.Ok_iff.1 (show Ex.Ok (hyperFit (Ex.hyIn false) 1 (Ex.hyH (.array (some (Ex.v2 (1 / 4) (3 / 4))))))
    (fun R => firstValue R.S 1 = some (20 / 63)) = true by decide +kernel)
  have h3 : (match singleFit (Ex.hyIn false) Ex.hyTM (Ex.S0 (.array (some (Ex.v2 (1 / 4) (3 / 4))))) [0] with
    | .ok A => decide (A.logEv.exp = 11 / 4 ∧ firstValue A 1 = some (2 / 11))
    | .error _ => false) = true := by decide +kernel
  have h4 : (match singleFit (Ex.hyIn false) Ex.hyTM (Ex.S0 (.array (some (Ex.v2 (1 / 4) (3 / 4))))) [1] with
    | .ok A => decide (A.logEv.exp = 13 / 4 ∧ firstValue A 1 = some (6 / 13))
    | .error _ => false) = true := by decide +kernel
  cases hA : singleFit (Ex.hyIn false) Ex.hyTM (Ex.S0 (.array (some (Ex.v2 (1 / 4) (3 / 4))))) [0] with
  | error e => rw [hA] at h3; simp at h3
  | ok A =>
      cases hB : singleFit (Ex.hyIn false) Ex.hyTM (Ex.S0 (.array (some (Ex.v2 (1 / 4) (3 / 4))))) [1] with
      | error e => rw [hB] at h4; simp at h4
      | ok B =>
          rw [hA] at h3
          rw [hB] at h4
          have e3 := of_decide_eq_true h3
          have e4 := of_decide_eq_true h4
          exact ⟨R, A, B, Ex.hyTM_built, h1, of_decide_eq_true h2, rfl, rfl, e3.1, e4.1, e3.2, e4.2⟩

/-- **C32 refuted** for priors given as arrays: one job and two jobs report different evidences. -/
theorem C32_refuted : ∃ R Q, Built (Ex.hyH (.array (some (Ex.v2 (1 / 4) (3 / 4))))).tm ∧
    hyperFit (Ex.hyIn true) 1 (Ex.hyH (.array (some (Ex.v2 (1 / 4) (3 / 4))))) = .ok (some R) ∧
    hyperFit (Ex.hyIn true) 2 (Ex.hyH (.array (some (Ex.v2 (1 / 4) (3 / 4))))) = .ok (some Q) ∧
    R.S.logEv.exp = 63 / 20 ∧ Q.S.logEv.exp = 3 := by
  obtain ⟨R, h1, h2⟩ := Ex.Ok_iff.1 (show Ex.Ok (hyperFit (Ex.hyIn true) 1 (Ex.hyH (.array (some (Ex.v2 (1 / 4) (3 / 4))))))
    (fun R => R.S.logEv.exp = 63 / 20) = true by decide +kernel)
  obtain ⟨Q, q1, q2⟩ := Ex.Ok_iff.1 (show Ex.Ok (hyperFit (Ex.hyIn true) 2 (Ex.hyH (.array (some (Ex.v2 (1 / 4) (3 / 4))))))
    (fun R => R.S.logEv.exp = 3) = true by decide +kernel)
  exact ⟨R, Q, Ex.hyTM_built, h1, q1, of_decide_eq_true h2, of_decide_eq_true q2⟩

end Props

namespace Ex
open BL Spec

/-- change-point at any time -/
def hyAll : HState ℚ gs2 := ⟨.leaf .changePoint ["t_change"] [.all] (some (.item .none)), S0 .none, [], none⟩
/-- three data points -/
def hyIn3 : FitIn ℚ gs2 := ⟨env gs2 1, grid gs2, [v2 1 3, v2 2 1, v2 1 1], [1, 2, 3], false, false, 1 / 1000⟩
/-- data which a constant parameter cannot explain -/
def hyIn0 : FitIn ℚ gs2 := ⟨env gs2 1, grid gs2, [v2 1 0, v2 0 1], [1, 2], false, false, 1 / 1000⟩

end Ex

namespace Props
open BL Spec

/-- **C33 refuted** for `'all'`: after the fit the value of the change-point is the array of time stamps of the current data, so that data loaded later
are analysed with the wrong change-points. -/
theorem C33_refuted : ∃ R, Built Ex.hyAll.tm ∧ hyperFit Ex.hyIn3 1 Ex.hyAll = .ok (some R) ∧ entries Ex.hyAll.tm = [("t_change", .all)] ∧
    entries R.tm = [("t_change", .array [1, 2])] := by
  obtain ⟨R, h1, h2⟩ := Ex.Ok_iff.1 (show Ex.Ok (hyperFit Ex.hyIn3 1 Ex.hyAll)
    (fun R => match entries R.tm with
      | [(n, .array l)] => decide (n = "t_change" ∧ l = [1, 2])
      | _ => false) = true by decide +kernel)
  refine ⟨R, Built.changePoint (name := "t_change") (value := .val .all) (prior := .item .none) trivial rfl, h1, rfl, ?_⟩
  split at h2
  · rename_i n l he
    obtain ⟨rfl, rfl⟩ := of_decide_eq_true h2
    exact he
  · simp at h2

/-- **C37 refuted**: one of the two fits stops early (its evidence is zero); the averaged local evidence of the second time step contains uninitialised
memory, although the evidence of the study is 1/16. -/
theorem C37_refuted : ∃ R, Built (Ex.hyH .none).tm ∧ hyperFit Ex.hyIn0 1 (Ex.hyH .none) = .ok (some R) ∧
    R.S.logEv.exp = 1 / 16 ∧ R.S.locals = [.nan, .uninit] := by
  obtain ⟨R, h1, h2⟩ := Ex.Ok_iff.1 (show Ex.Ok (hyperFit Ex.hyIn0 1 (Ex.hyH .none))
    (fun R => decide (R.S.logEv.exp = 1 / 16) && (match R.S.locals with
      | [.nan, .uninit] => true
      | _ => false)) = true by decide +kernel)
  rw [Bool.and_eq_true] at h2
  refine ⟨R, Ex.hyTM_built, h1, of_decide_eq_true h2.1, ?_⟩
  have := h2.2
  split at this
  · assumption
  · simp at this

end Props
