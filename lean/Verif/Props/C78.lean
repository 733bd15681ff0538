import Verif.Lemmas.HyperValues
import Verif.Props.C32

/-! # C78: the order of hyper-parameter values, and values of probability zero -/

set_option linter.unusedSectionVars false

namespace Props
open BL Spec

variable {K : Type} [Field K] [LinearOrder K] [IsStrictOrderedRing K] {d : ℕ} {gs : Fin d → ℕ}

/-- everything a hyper-study reports, as sums over its combinations -/
theorem hyper_sums {I : FitIn K gs} {nJobs : ℕ} {H R : HState K gs} {g : HyperGrid K} {ps : List K} (hb : Built H.tm)
    (hsp : " " ∉ (entries H.tm).map (·.1)) (hn : H.S.prior.isArray = false)
    (hg : createHyperGrid H.tm I.ts = .ok g) (hps : g.priors = some ps) (hr : 1 < g.rows.length) (h : hyperFit I nJobs H = .ok (some R)) :
    entries H.tm ≠ [] ∧ ps.length = g.rows.length ∧
    R.S.logEv.exp = ((combos (options H.tm I.ts)).map fun q => (resultAt I H.tm H.S q.1).logEv.exp * q.2).sum ∧
    (R.S.logEv ≠ LogV.ninf → 0 < g.hgc.prod ∧ ((I.evidenceOnly = true → R.S.posts = H.S.posts) ∧ (I.evidenceOnly = false →
      R.S.posts = finishAvg (rep I.liks.length ((combos (options H.tm I.ts)).map fun q => contrib I.ε (resultAt I H.tm H.S q.1) q.2).sum) ∧
      R.S.means = fun a => R.S.posts.filterMap fun c => c.get?.map (mean I.grid a)))) ∧
    (0 ≤ I.E.cell → (∀ p ∈ ps, 0 ≤ p) → R.S.logEv ≠ LogV.ninf → ∃ D, R.hpd = some D ∧
      g.rows.zip (D.map (· * g.hgc.prod)) =
        (combos (options H.tm I.ts)).map fun q => (q.1, (resultAt I H.tm H.S q.1).logEv.exp * q.2 / R.S.logEv.exp)) := by
  have hm := Built.matched hb
  have hne : entries H.tm ≠ [] := by
    intro h0
    obtain ⟨-, -, -, e4⟩ := createHyperGrid_eq hm.proper hg
    rw [if_pos h0] at e4
    rw [e4] at hr
    simp at hr
  have hco := rows_combos hm hne hg hps
  have hlen := weights_len hm hne hg hps
  have hev : R.S.logEv.exp = ((combos (options H.tm I.ts)).map fun q => (resultAt I H.tm H.S q.1).logEv.exp * q.2).sum := by
    obtain ⟨As, a1, -, -, a4⟩ := C29_partial I nJobs H R g ps hb hsp hn hg hps hr h
    rw [a4, ← hco, singles_map a1, List.zip_map_left, List.zip_map_right, List.map_map, List.map_map]
    rfl
  refine ⟨hne, hlen, hev, fun hpos => ?_, fun hcell hnn hpos => ?_⟩
  · rcases hyperFit_spec I nJobs H g ps hb hsp hn hg hps hr with ⟨e, he⟩ | ⟨As, a1, a2, a3, R', r0, r1, r2, r3, r4, r5, r6, r7, r8⟩
    · rw [he] at h; cases h
    rw [r0] at h
    cases h
    have hc : 0 < g.hgc.prod := by
      rcases (hgc_nonneg hm.proper hg).lt_or_eq with hc | hc
      · exact hc
      · exfalso
        apply hpos
        apply LogV.ext_exp
        rw [r3, hyperEvidence_eq, joint, ← hc]
        simp only [mul_zero]
        exact List.sum_eq_zero fun x hx => by
          obtain ⟨i, hi⟩ := List.mem_iff_getElem?.1 hx
          rw [List.getElem?_zipWith_eq_some] at hi
          obtain ⟨_, _, _, _, rfl⟩ := hi
          rfl
    refine ⟨hc, r7, fun heo => ⟨?_, (r8 heo).2⟩⟩
    rw [(r8 heo).1, ← finishAvg_smul hc]
    congr 2
    rw [← hco, singles_map a1]
    have : ∀ (rows : List (List K)) (ps : List K), (fun t x => g.hgc.prod * (List.zipWith (contrib I.ε) (rows.map (resultAt I H.tm H.S)) ps).sum t x) =
        ((rows.zip (ps.map (· * g.hgc.prod))).map fun q => contrib I.ε (resultAt I H.tm H.S q.1) q.2).sum := by
      intro rows
      induction rows with
      | nil => intro ps; funext t x; simp
      | cons r rows ih =>
          intro ps
          cases ps with
          | nil => funext t x; simp
          | cons p ps =>
              rw [List.map_cons, List.map_cons, List.zip_cons_cons, List.map_cons, List.sum_cons, ← ih ps, List.zipWith_cons_cons, List.sum_cons]
              funext t x
              simp only [Pi.add_apply, mul_add]
              congr 1
              simp only [contrib]
              split_ifs <;> ring
    exact this _ _
  · obtain ⟨As, W, D, a1, a2, a3, a4, -⟩ := C31_partial I nJobs H R g ps hb hsp hn hcell hg hps hr hnn h hpos
    refine ⟨D, a2, ?_⟩
    rw [a3, a4, ← hco, singles_map a1]
    have : ∀ (rows : List (List K)) (ps : List K), rows.zip (((rows.map (resultAt I H.tm H.S)).zip ps).map fun q => q.1.logEv.exp * (q.2 * g.hgc.prod) / R.S.logEv.exp) =
        (rows.zip (ps.map (· * g.hgc.prod))).map fun q => (q.1, (resultAt I H.tm H.S q.1).logEv.exp * q.2 / R.S.logEv.exp) := by
      intro rows
      induction rows with
      | nil => intro ps; simp
      | cons r rows ih =>
          intro ps
          cases ps with
          | nil => simp
          | cons p ps => simp [ih ps]
    exact this _ _

/-- **C78 (part that holds: the prior of the parameters is not a numpy array; local evidences are not covered).** Two hyper-studies which differ in the
values entered for the hyper-parameters only, such that for every hyper-parameter the values with non-zero probability are the same, with the
same probabilities (but listed in another order, and possibly mixed with values of probability zero): every nested transition model, data,
fit mode and numbers of jobs.  They find the same evidence; and, if it is not zero, the same posterior distributions, the same
posterior mean values, and every combination of values has the same posterior probability. -/
theorem C78_partial (I : FitIn K gs) (m n : ℕ) (H H' R R' : HState K gs) (g g' : HyperGrid K) (ps ps' : List K)
    (hb : Built H.tm) (hb' : Built H'.tm) (hsp : " " ∉ (entries H.tm).map (·.1)) (hn : H.S.prior.isArray = false)
    (hS : H'.S = H.S) (hal : Alike H.tm H'.tm) (hop : SameOptions H.tm H'.tm I.ts)
    (hg : createHyperGrid H.tm I.ts = .ok g) (hps : g.priors = some ps) (hr : 1 < g.rows.length)
    (hg' : createHyperGrid H'.tm I.ts = .ok g') (hps' : g'.priors = some ps') (hr' : 1 < g'.rows.length)
    (h : hyperFit I m H = .ok (some R)) (h' : hyperFit I n H' = .ok (some R')) :
    R'.S.logEv = R.S.logEv ∧
    (R.S.logEv ≠ LogV.ninf → R'.S.posts = R.S.posts ∧ (I.evidenceOnly = false → R'.S.means = R.S.means) ∧
      (0 ≤ I.E.cell → (∀ p ∈ ps, 0 ≤ p) → (∀ p ∈ ps', 0 ≤ p) → ∃ D D', R.hpd = some D ∧ R'.hpd = some D' ∧
        (possible (g.rows.zip (D.map (· * g.hgc.prod)))).Perm (possible (g'.rows.zip (D'.map (· * g'.hgc.prod)))))) := by
  have hnames := alike_names hal
  obtain ⟨x1, x2, x3, x4, x5⟩ := hyper_sums hb hsp hn hg hps hr h
  obtain ⟨y1, y2, y3, y4, y5⟩ := hyper_sums hb' (by
    have : (entries H'.tm).map (·.1) = (entries H.tm).map (·.1) := hnames.symm
    rw [this]; exact hsp) (by rw [hS]; exact hn) hg' hps' hr' h'
  have hperm := combos_perm hop
  have hm := Built.matched hb
  have hm' := Built.matched hb'
  have hlen : (entries H'.tm).length = (entries H.tm).length := by
    have := congrArg List.length hnames
    simpa using this.symm
  -- the rows of the second study have the right length
  have hrow : ∀ q ∈ combos (options H'.tm I.ts), resultAt I H'.tm H'.S q.1 = resultAt I H.tm H.S q.1 := by
    intro q hq
    rw [← rows_combos hm' y1 hg' hps'] at hq
    have hq1 := (List.of_mem_zip hq).1
    have e4 := (createHyperGrid_eq hm'.proper hg').2.2.2
    rw [if_neg y1] at e4
    rw [e4, cart_mem] at hq1
    have hl : q.1.length = (entries H.tm).length := by rw [hq1.length_eq, axes, List.length_map, hlen]
    unfold resultAt
    rw [hS, singleFit_alike I hal hm.proper H.S hl]
  have hev : R'.S.logEv = R.S.logEv := by
    apply LogV.ext_exp
    rw [x3, y3, List.map_congr_left (g := fun q => (resultAt I H.tm H.S q.1).logEv.exp * q.2) fun q hq => by rw [hrow q hq]]
    rw [sum_possible _ (fun a => by simp), sum_possible _ (fun a => by simp) (combos (options H.tm I.ts))]
    exact ((hperm.map _).sum_eq).symm
  refine ⟨hev, fun hpos => ?_⟩
  obtain ⟨c1, p1, p2⟩ := x4 hpos
  obtain ⟨c2, q1, q2⟩ := y4 (by rw [hev]; exact hpos)
  have hposts : R'.S.posts = R.S.posts := by
    cases heo : I.evidenceOnly with
    | true => rw [p1 heo, q1 heo, hS]
    | false =>
        rw [(p2 heo).1, (q2 heo).1]
        congr 2
        rw [List.map_congr_left (g := fun q => contrib I.ε (resultAt I H.tm H.S q.1) q.2) fun q hq => by rw [hrow q hq]]
        have hz : ∀ a : List K, contrib I.ε (resultAt I H.tm H.S a) 0 = 0 := by
          intro a
          funext t x
          simp [contrib]
        rw [sum_possible (fun q : List K × K => contrib I.ε (resultAt I H.tm H.S q.1) q.2) hz,
          sum_possible (fun q : List K × K => contrib I.ε (resultAt I H.tm H.S q.1) q.2) hz (combos (options H.tm I.ts))]
        exact ((hperm.map _).sum_eq).symm
  refine ⟨hposts, fun heo => by rw [(p2 heo).2, (q2 heo).2, hposts], fun hcell hnn hnn' => ?_⟩
  obtain ⟨D, d1, d2⟩ := x5 hcell hnn hpos
  obtain ⟨D', d1', d2'⟩ := y5 hcell hnn' (by rw [hev]; exact hpos)
  refine ⟨D, D', d1, d1', ?_⟩
  rw [d2, d2', List.map_congr_left (l := combos (options H'.tm I.ts))
    (g := fun q => (q.1, (resultAt I H.tm H.S q.1).logEv.exp * q.2 / R.S.logEv.exp)) fun q hq => by rw [hrow q hq, hev]]
  have hpp : ∀ l : List (List K × K), possible (l.map fun q => (q.1, (resultAt I H.tm H.S q.1).logEv.exp * q.2 / R.S.logEv.exp)) =
      possible ((possible l).map fun q => (q.1, (resultAt I H.tm H.S q.1).logEv.exp * q.2 / R.S.logEv.exp)) := by
    intro l
    induction l with
    | nil => rfl
    | cons q l ih =>
        unfold possible at ih ⊢
        by_cases hq : q.2 = 0
        · rw [List.filter_cons_of_neg (l := l) (by simp [hq]), List.map_cons, List.filter_cons_of_neg (by simp [hq]), ih]
        · rw [List.filter_cons_of_pos (l := l) (by simp [hq]), List.map_cons, List.map_cons, List.filter_cons, List.filter_cons, ih]
  rw [hpp, hpp (combos (options H'.tm I.ts))]
  exact (hperm.map _).filter _

theorem local_sums {I : FitIn K gs} {nJobs : ℕ} {H R : HState K gs} {g : HyperGrid K} {ps : List K} (hb : Built H.tm)
    (hsp : " " ∉ (entries H.tm).map (·.1)) (hn : H.S.prior.isArray = false)
    (hg : createHyperGrid H.tm I.ts = .ok g) (hps : g.priors = some ps) (hr : 1 < g.rows.length) (hne : entries H.tm ≠ [])
    (h : hyperFit I nJobs H = .ok (some R))
    (hA : ∀ row ∈ g.rows, ∀ A, singleFit I H.tm H.S row = .ok A → A.logEv ≠ LogV.ninf ∧ ∀ c ∈ A.locals, ∃ v, c = .val v) :
    ∃ f : ℕ → K, R.S.locals = (List.range I.liks.length).map (fun t => .val (f t)) ∧ ∀ t, f t * g.hgc.prod =
      ((combos (options H.tm I.ts)).map fun q => q.2 * cellVal ((resultAt I H.tm H.S q.1).locals.getD t .nan)).sum := by
  obtain ⟨As, a1, a2, a3⟩ := C37_partial I nJobs H R g ps hb hsp hn hg hps hr h
  have hm : ∀ A ∈ As, A.logEv ≠ LogV.ninf ∧ ∀ c ∈ A.locals, ∃ v, c = .val v := by
    intro A h0
    obtain ⟨row, r1, r2⟩ := Singles.mem a1 h0
    exact hA row r1 A r2
  refine ⟨_, (a3 fun A h0 => (hm A h0).1).2 fun A h0 => (hm A h0).2, fun t => ?_⟩
  rw [← rows_combos (Built.matched hb) hne hg hps, singles_map a1, List.zip_map_left, List.zip_map_right, List.map_map, List.map_map,
    ← List.sum_map_mul_right]
  congr 1
  apply List.map_congr_left
  intro q _
  simp only [Function.comp, Prod.map, id]
  ring

/-- **C78 (local evidences, part that holds).** If no single fit has evidence zero or an undefined local evidence, the local evidences of the two studies
agree up to a common factor, the ratio of the cells of the two hyper-grids.  (They should be equal; see `C78_local_refuted`.) -/
theorem C78_local_partial (I : FitIn K gs) (m n : ℕ) (H H' R R' : HState K gs) (g g' : HyperGrid K) (ps ps' : List K)
    (hb : Built H.tm) (hb' : Built H'.tm) (hsp : " " ∉ (entries H.tm).map (·.1)) (hn : H.S.prior.isArray = false)
    (hS : H'.S = H.S) (hal : Alike H.tm H'.tm) (hop : SameOptions H.tm H'.tm I.ts)
    (hg : createHyperGrid H.tm I.ts = .ok g) (hps : g.priors = some ps) (hr : 1 < g.rows.length)
    (hg' : createHyperGrid H'.tm I.ts = .ok g') (hps' : g'.priors = some ps') (hr' : 1 < g'.rows.length)
    (h : hyperFit I m H = .ok (some R)) (h' : hyperFit I n H' = .ok (some R'))
    (hA : ∀ row ∈ g.rows ++ g'.rows, ∀ A, singleFit I H.tm H.S row = .ok A → A.logEv ≠ LogV.ninf ∧ ∀ c ∈ A.locals, ∃ v, c = .val v) :
    ∃ l l' : List K, R.S.locals = l.map .val ∧ R'.S.locals = l'.map .val ∧ l.length = I.liks.length ∧
      l.map (· * g.hgc.prod) = l'.map (· * g'.hgc.prod) := by
  have hnames := alike_names hal
  have hsp' : " " ∉ (entries H'.tm).map (·.1) := by
    have : (entries H'.tm).map (·.1) = (entries H.tm).map (·.1) := hnames.symm
    rw [this]; exact hsp
  have hn' : H'.S.prior.isArray = false := by rw [hS]; exact hn
  have x1 := (hyper_sums hb hsp hn hg hps hr h).1
  have y1 := (hyper_sums hb' hsp' hn' hg' hps' hr' h').1
  have hperm := combos_perm hop
  have hm := Built.matched hb
  have hm' := Built.matched hb'
  have hlen : (entries H'.tm).length = (entries H.tm).length := by
    have := congrArg List.length hnames
    simpa using this.symm
  have hl : ∀ row ∈ g'.rows, row.length = (entries H.tm).length := by
    intro row hq1
    have e4 := (createHyperGrid_eq hm'.proper hg').2.2.2
    rw [if_neg y1] at e4
    rw [e4, cart_mem] at hq1
    rw [hq1.length_eq, axes, List.length_map, hlen]
  obtain ⟨f, f1, f2⟩ := local_sums hb hsp hn hg hps hr x1 h fun row hrow => hA row (List.mem_append_left _ hrow)
  obtain ⟨f', f1', f2'⟩ := local_sums hb' hsp' hn' hg' hps' hr' y1 h' fun row hrow A hs => by
    rw [hS, singleFit_alike I hal hm.proper H.S (hl row hrow)] at hs
    exact hA row (List.mem_append_right _ hrow) A hs
  refine ⟨(List.range I.liks.length).map f, (List.range I.liks.length).map f', by rw [f1, List.map_map]; rfl, by rw [f1', List.map_map]; rfl,
    by simp, ?_⟩
  rw [List.map_map, List.map_map]
  apply List.map_congr_left
  intro t _
  simp only [Function.comp]
  rw [f2, f2', List.map_congr_left (l := combos (options H'.tm I.ts)) (g := fun q => q.2 * cellVal ((resultAt I H.tm H.S q.1).locals.getD t .nan))
    fun q hq => by
      rw [← rows_combos hm' y1 hg' hps'] at hq
      have := singleFit_alike I hal hm.proper H.S (hl _ (List.of_mem_zip hq).1)
      unfold resultAt
      rw [hS, this]]
  rw [sum_possible _ (fun a => by simp), sum_possible _ (fun a => by simp) (combos (options H'.tm I.ts))]
  exact (hperm.map _).sum_eq

end Props

namespace Ex
open BL Spec

/-- random walk with three widths and their prior probabilities -/
def orderTM (vals ps : List ℚ) : TM ℚ := .leaf (.grw "x") ["sigma"] [.array vals] (some (.item (.arr ps)))

theorem orderTM_built (vals ps : List ℚ) : Built (orderTM vals ps) :=
  Built.grw (name := "sigma") (value := .list vals) (target := some "x") (prior := .item (.arr ps)) rfl trivial rfl

/-- a study with these values -/
def orderH (vals ps : List ℚ) : HState ℚ gs2 := ⟨orderTM vals ps, S0 .none, [], none⟩

end Ex

namespace Props
open BL Spec

/-- Two studies that meet the hypotheses: widths 0, 2, 4 with probabilities 1/4, 1/2, 1/4, and the same in another order, with an additional width 1 of
probability zero. -/
example : ∃ g g' R R', createHyperGrid (Ex.orderH [0, 2, 4] [1, 2, 1]).tm (Ex.hyIn false).ts = .ok g ∧ g.priors = some [1 / 8, 1 / 4, 1 / 8] ∧
    createHyperGrid (Ex.orderH [2, 0, 1, 4] [4, 2, 0, 2]).tm (Ex.hyIn false).ts = .ok g' ∧ g'.priors = some [1 / 2, 1 / 4, 0, 1 / 4] ∧ 1 < g.rows.length ∧
    1 < g'.rows.length ∧ Alike (Ex.orderH [0, 2, 4] [1, 2, 1]).tm (Ex.orderH [2, 0, 1, 4] [4, 2, 0, 2]).tm ∧
    SameOptions (Ex.orderH [0, 2, 4] [1, 2, 1]).tm (Ex.orderH [2, 0, 1, 4] [4, 2, 0, 2]).tm (Ex.hyIn false).ts ∧
    hyperFit (Ex.hyIn false) 1 (Ex.orderH [0, 2, 4] [1, 2, 1]) = .ok (some R) ∧
    hyperFit (Ex.hyIn false) 3 (Ex.orderH [2, 0, 1, 4] [4, 2, 0, 2]) = .ok (some R') ∧ R.S.logEv ≠ LogV.ninf := by
  obtain ⟨R, h1, h2⟩ := Ex.Ok_iff.1 (show Ex.Ok (hyperFit (Ex.hyIn false) 1 (Ex.orderH [0, 2, 4] [1, 2, 1])) (fun R => R.S.logEv.exp ≠ 0) = true by decide +kernel)
  obtain ⟨R', h3, h4⟩ := Ex.Ok_iff.1 (show Ex.Ok (hyperFit (Ex.hyIn false) 3 (Ex.orderH [2, 0, 1, 4] [4, 2, 0, 2])) (fun R => R.S.logEv.exp ≠ 0) = true by decide +kernel)
  refine ⟨_, _, R, R', rfl, by decide +kernel, rfl, by decide +kernel, by decide +kernel, by decide +kernel, .leaf _ _ _ _ _ _ rfl, ?_, h1, h3, ?_⟩
  · have : (possible ((options (Ex.orderH [0, 2, 4] [1, 2, 1]).tm (Ex.hyIn false).ts).headD [])).Perm
        (possible ((options (Ex.orderH [2, 0, 1, 4] [4, 2, 0, 2]).tm (Ex.hyIn false).ts).headD [])) := by decide +kernel
    exact .cons this .nil
  · intro h0
    rw [h0] at h2
    simp at h2

/-- **C78 refuted** for local evidences: listing the same three widths, with the same probabilities, in another order doubles every local evidence, because they
are weighted with prior densities and the cell of the hyper-grid is missing (2 for equally spaced values, 1 otherwise). -/
theorem C78_local_refuted : ∃ R R' e₁ e₂, SameOptions (Ex.orderH [0, 2, 4] [1, 2, 1]).tm (Ex.orderH [2, 0, 4] [2, 1, 1]).tm (Ex.hyIn false).ts ∧
    Alike (Ex.orderH [0, 2, 4] [1, 2, 1]).tm (Ex.orderH [2, 0, 4] [2, 1, 1]).tm ∧
    hyperFit (Ex.hyIn false) 1 (Ex.orderH [0, 2, 4] [1, 2, 1]) = .ok (some R) ∧
    hyperFit (Ex.hyIn false) 1 (Ex.orderH [2, 0, 4] [2, 1, 1]) = .ok (some R') ∧
    R.S.locals = [.val e₁, .val e₂] ∧ R'.S.locals = [.val (2 * e₁), .val (2 * e₂)] ∧ e₁ ≠ 0 ∧ e₂ ≠ 0 := by
  obtain ⟨R, h1, h2⟩ := Ex.Ok_iff.1 (show Ex.Ok (hyperFit (Ex.hyIn false) 1 (Ex.orderH [0, 2, 4] [1, 2, 1]))
    (fun R => R.S.locals = [.val (43 / 48), .val (43 / 64)]) = true by decide +kernel)
  obtain ⟨R', h3, h4⟩ := Ex.Ok_iff.1 (show Ex.Ok (hyperFit (Ex.hyIn false) 1 (Ex.orderH [2, 0, 4] [2, 1, 1]))
    (fun R => R.S.locals = [.val (2 * (43 / 48)), .val (2 * (43 / 64))]) = true by decide +kernel)
  refine ⟨R, R', _, _, ?_, .leaf _ _ _ _ _ _ rfl, h1, h3, of_decide_eq_true h2, of_decide_eq_true h4, by decide +kernel, by decide +kernel⟩
  have : (possible ((options (Ex.orderH [0, 2, 4] [1, 2, 1]).tm (Ex.hyIn false).ts).headD [])).Perm
      (possible ((options (Ex.orderH [2, 0, 4] [2, 1, 1]).tm (Ex.hyIn false).ts).headD [])) := by decide +kernel
  exact .cons this .nil

/-- every plain fit of that example has a positive evidence and well-defined local evidences, as `C78_local_partial` demands -/
example : ∀ row ∈ [[0], [2], [4]] ++ [[2], [0], [4]], ∀ A, singleFit (Ex.hyIn false) (Ex.orderH [0, 2, 4] [1, 2, 1]).tm (Ex.S0 .none) row = .ok A →
    A.logEv ≠ LogV.ninf ∧ ∀ c ∈ A.locals, ∃ v, c = .val v := by
  intro row hrow A hA
  have key : ∀ row ∈ ([[0], [2], [4]] ++ [[2], [0], [4]] : List (List ℚ)),
      (match singleFit (Ex.hyIn false) (Ex.orderH [0, 2, 4] [1, 2, 1]).tm (Ex.S0 .none) row with
        | .ok A => decide (A.logEv.exp ≠ 0) && A.locals.all (fun c => c.get?.isSome)
        | .error _ => true) = true := by decide +kernel
  have := key row hrow
  rw [hA] at this
  simp only [Bool.and_eq_true, decide_eq_true_eq, List.all_eq_true] at this
  refine ⟨fun h0 => this.1 (by rw [h0]; rfl), fun c hc => ?_⟩
  have hv := this.2 c hc
  cases c with
  | val v => exact ⟨v, rfl⟩
  | uninit => simp [Cell.get?] at hv
  | nan => simp [Cell.get?] at hv

end Props
