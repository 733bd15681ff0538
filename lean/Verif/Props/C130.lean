import Verif.Props.C112
import Verif.Props.C115
import Verif.Props.C119
import Verif.Props.C129

/-! # C130: queries about the hyper-parameters of a fitted hyper-study -/

set_option linter.unusedSectionVars false
set_option linter.unusedSimpArgs false

namespace Props
open BL Spec
variable {K : Type} [Field K] [LinearOrder K] [IsStrictOrderedRing K] {d : ℕ} {gs : Fin d → ℕ}

/-- The study `s`, alone or with others (study `k` of `ss`), answers every query about its hyper-parameters, named `names`, with the probability that the comparison is true, if the combination of values `q.1` has
the weight `q.2` for `q` in `W`.  `ρ r` are the values of the hyper-parameters in the combination `r`. -/
def AnswersHyper (names : List String) (s : PStudy K) (W : List (List K × K)) : Prop :=
  ∀ (X : PExt K) (ss : List (PStudy K)) (k : ℕ) (t : Option K), ss[k]? = some s → Accepts ss t → Stamps ss t →
  ∀ (ρ : List K → String × Option K → K), (∀ (r : List K) (a : ℕ) (name : String), names[a]? = some name → ρ r (name, none) = r.getD a 0) →
  ∀ (left : Side K) (rel : Rel) (right : Query K), left.refs ++ right.refs ≠ [] →
    (∀ r ∈ left.refs ++ right.refs, r.1 ∈ names ∧ r.2 = none) →
    left.Clean X → right.Clean X → (∀ q ∈ W, q.2 ≠ 0 → Comparable (left.extended X (ρ q.1)) (right.extended X (ρ q.1))) →
    ∃ n0, ∀ m ≥ n0, ask X m ss t left rel right =
      .ok (some ((W.map fun q => q.2 * xindicator rel (left.extended X (ρ q.1)) (right.extended X (ρ q.1))).sum / (W.map (·.2)).sum))

theorem zip_zip_map {α β γ : Type} (f : α × β → γ) : ∀ (l : List α) (m : List β), l.zip ((l.zip m).map f) = (l.zip m).map fun q => (q.1, f q)
  | [], _ => rfl
  | _ :: _, [] => rfl
  | a :: l, b :: m => by simp [zip_zip_map f l m]

theorem hyper_view_answers {names : List String} {rows : List (List K)} {D w : List K} {s : PStudy K}
    (hs : s.hyper = .static (names.map fun nm => (nm, rows.map fun r => r.getD (names.idxOf nm) 0)) D) (hlen : D.length = rows.length) {c : K} (hc0 : c ≠ 0)
    (hw : w.length = rows.length) (hw0 : w.sum ≠ 0) (hD : D.map (· * c) = w.map (· / w.sum)) : AnswersHyper names s (rows.zip w) := by
  intro X ss k t hk hA hSt ρ hρ left rel right hne hr hl hrt hc
  have hDw : share D = w.map (· / w.sum) := by
    have e : D = w.map (· / w.sum / c) := by
      have := congrArg (List.map (· / c)) hD
      rw [List.map_map, List.map_map] at this
      rw [← List.map_id D]
      calc D.map id = D.map ((· / c) ∘ (· * c)) := List.map_congr_left fun x _ => by simp [hc0]
        _ = _ := this
    have e2 : D.sum = 1 / c := by
      rw [e]
      simp only [div_eq_mul_inv]
      rw [List.sum_map_mul_right, List.sum_map_mul_right]
      simp [hw0]
    unfold share
    rw [e2]
    conv_lhs => rw [e]
    rw [List.map_map]
    refine List.map_congr_left fun x _ => ?_
    simp only [Function.comp]
    field_simp
  let V : String × Option K → List K := fun r => rows.map fun x => ρ x r
  have hr' : ∀ r ∈ left.refs ++ right.refs, Reads ss t r k true none (V r) (share D) ∧ (V r).length = (share D).length := by
    intro r h
    refine ⟨?_, by simp [V, hDw, hw]⟩
    obtain ⟨h1, h2⟩ := hr r h
    obtain ⟨nm, u⟩ := r
    simp only at h1 h2
    subst h2
    refine .hyper hk hs (List.mem_map.2 ⟨nm, h1, ?_⟩)
    rw [Prod.mk.injEq]
    refine ⟨rfl, List.map_congr_left fun x _ => ?_⟩
    rw [hρ x (names.idxOf nm) nm (List.getElem?_idxOf h1)]
  have hl' : (share D).length = rows.length := by simp [hDw, hw]
  have hρV : ∀ (j : ℕ) (h : j < rows.length), (fun r => (V r).getD j 0) = ρ rows[j] := by
    intro j h
    funext r
    simp [V, List.getD_eq_getElem?_getD, h]
  obtain ⟨n0, h0⟩ := C127_answered X ss t hA hSt left rel right k true none V (share D) hne hr' hl hrt
  refine ⟨n0, fun m hm => ?_⟩
  obtain ⟨p, hp⟩ := h0 m hm
  have := C127_partial X ss t hSt left rel right k true none V (share D) hne hr' (by
    intro j h hz
    rw [hρV j (hl' ▸ h)]
    have hj : j < w.length := by rw [hw, ← hl']; exact h
    refine hc (rows[j]'(hl' ▸ h), w[j]) ?_ ?_
    · rw [List.mem_iff_getElem]
      exact ⟨j, by simp [hw]; exact hl' ▸ h, by simp⟩
    · intro h0
      apply hz
      simp only [hDw, List.getElem_map]
      simp only at h0
      rw [h0, zero_div]) m p hp
  rw [hp, this]
  congr 2
  rw [List.map_snd_zip (by omega), div_eq_mul_inv, ← List.sum_map_mul_right]
  rw [← Fin.sum_univ_getElem]
  refine Fintype.sum_equiv (finCongr (by simp [hDw, hw])) _ _ ?_
  intro j
  rw [hρV j (hl' ▸ j.isLt)]
  simp [hDw]
  ring

/-- **C130.** After the fit of a hyper-study (as in C119: Static models, Gaussian random walks, structural breaks, any number of uncertain hyper-parameters), a query about its hyper-parameters is answered with
the posterior probability of Bayes' theorem: prior probability times the probability of the data, summed over the combinations of values for which the comparison is true, divided by the sum over all combinations. -/
theorem C130_partial (I : FitIn K gs) (nJobs : ℕ) (H R : HState K gs) (g : HyperGrid K) (ps : List K) (hb : Built H.tm)
    (hsp : " " ∉ (entries H.tm).map (·.1)) (htm : WalkModel I.E H.tm) (hE : Regular I.E)
    (π : Idx gs → K) (hp : PriorMass I.E.cell H.S.prior π) (hn : H.S.prior.isArray = false)
    {n : ℕ} (τ : Fin (n + 1) → K) (hts : I.ts = List.ofFn τ)
    (L : Fin (n + 1) → Idx gs → K) (hls : I.liks = List.ofFn L) (hL0 : ∀ i x, 0 ≤ L i x) (hmode : WalkMode I τ)
    (hg : createHyperGrid H.tm I.ts = .ok g) (hps : g.priors = some ps) (hnn : ∀ p ∈ ps, 0 ≤ p) (hr : 1 < g.rows.length)
    (h : hyperFit I nJobs H = .ok (some R)) (hpos : R.S.logEv ≠ LogV.ninf) (heo : I.evidenceOnly = false) (hε : 0 < I.ε) :
    ∃ D s, R.hpd = some D ∧ hyperView H.tm I.E.names I.grid I.ts g R.S D = some s ∧
      ((List.ofFn I.E.names ++ g.names).Nodup → Function.Injective τ → Accepts [s] none ∧ Stamps [s] none) ∧
      AnswersHyper g.names s ((g.rows.zip ps).map fun q => (q.1, q.2 * rowEvidence I.E π H.tm τ L q.1)) := by
  obtain ⟨⟨D, d1, d2, d3⟩, e2⟩ := C119_partial I nJobs H R g ps hb hsp htm hE π hp hn τ hts L hls hL0 hmode hg hps hnn hr h hpos
  have hpr := (Built.matched hb).proper
  have hnd := hyperFit_nodup hb hsp hn hg hps hr h
  have hrl := rows_length hpr hg
  obtain ⟨-, -, h3⟩ := hyper_exact I nJobs H R g ps hb hsp hE hn hg hps hnn hr h hpos (rowEvidence I.E π H.tm τ L)
    fun r hr A hA => walk_evidence I H hE htm hnd π hp τ hts L hls hL0 hmode (hrl r hr) hA
  obtain ⟨P, hP, -⟩ := h3 heo hε
  have hv : cellsVal R.S.posts = some ((List.range I.liks.length).map P) := by
    rw [hP, show ((List.range I.liks.length).map fun t => Cell.val (P t)) = ((List.range I.liks.length).map P).map Cell.val by rw [List.map_map]; rfl, cellsVal_map]
  have hnames : H.tm.flatNames = g.names := by
    rw [(createHyperGrid_eq hpr hg).2.1, entries_names _ hpr]
  have hT : R.S.logEv.exp = ((g.rows.zip ps).map fun q => q.2 * rowEvidence I.E π H.tm τ L q.1).sum * g.hgc.prod := by
    rw [e2, ← List.sum_map_mul_right]
    congr 1
    refine List.map_congr_left fun q _ => ?_
    ring
  have hT0 : R.S.logEv.exp ≠ 0 := fun h0 => hpos (LogV.ext_exp h0)
  rw [hT] at hT0
  have hzl : (g.rows.zip ps).length = g.rows.length := by
    have := congrArg List.length d3
    rw [List.length_map, List.length_map] at this
    rw [← this, d2]
  refine ⟨D, _, d1, by rw [hyperView, parserView, hv]; rfl, ?_, ?_⟩
  · intro hnn hτ
    refine ⟨⟨⟨List.ofFn I.E.names ++ g.names, ?_⟩, ?_⟩, ⟨?_, ?_⟩⟩
    · rw [parserNames]
      simp [PHyper.names, Function.comp_def]
      simpa using hnn
    · simp [loadAll, timeIndex, mapE, loadParams, loadHyper, bind, Except.bind]
    · intro s hs
      rw [List.mem_singleton.1 hs, hts]
      exact List.nodup_ofFn.2 hτ
    · intro h0; simp at h0
  · rw [← zip_zip_map]
    refine hyper_view_answers (c := g.hgc.prod) ?_ d2 (right_ne_zero_of_mul hT0) (by rw [List.length_map, hzl]) (left_ne_zero_of_mul hT0) ?_
    · rw [hnames]
    · rw [d3, List.map_map]
      rfl

/-- a study of two structural breaks and the standard deviation of a random walk between them: `t2 - t1 > 1` gets the share of the combinations for which it is true -/
example : ∃ g ps R D s, createHyperGrid Ex.hbTM Ex.brkFull.ts = .ok g ∧ g.priors = some ps ∧ hyperFit Ex.brkFull 2 Ex.hbStudy = .ok (some R) ∧ R.hpd = some D ∧
    hyperView Ex.hbTM (fun _ => "x") (Ex.grid Ex.gs2) Ex.brkFull.ts g R.S D = some s ∧
    ∃ n0, ∀ m ≥ n0, ask Ex.pext m [s] none ⟨.par "t2", [(false, .par "t1")]⟩ .gt (.num 1) = .ok (some
      ((((g.rows.zip ps).map fun q => (q.1, q.2 * rowEvidence Ex.brkFull.E Ex.brkPrior Ex.hbTM Ex.brkTimes Ex.cpLik q.1)).map fun q =>
        q.2 * xindicator .gt (some (.num (q.1.getD (g.names.idxOf "t2") 0 - q.1.getD (g.names.idxOf "t1") 0))) (some (.num 1))).sum /
      (((g.rows.zip ps).map fun q => (q.1, q.2 * rowEvidence Ex.brkFull.E Ex.brkPrior Ex.hbTM Ex.brkTimes Ex.cpLik q.1)).map (·.2)).sum)) := by
  obtain ⟨R, h1, h2⟩ := Ex.Ok_iff.1 (show Ex.Ok (hyperFit Ex.brkFull 2 Ex.hbStudy) (fun R => decide (R.S.logEv.exp ≠ 0)) = true by decide +kernel)
  have hf : ∀ g, createHyperGrid Ex.hbTM Ex.brkFull.ts = .ok g → g.rows.length = 8 ∧ g.names = ["s", "t1", "t2"] ∧ ∃ ps, g.priors = some ps ∧ ∀ p ∈ ps, 0 ≤ p := by
    intro g hg
    cases hg
    exact ⟨by decide +kernel, by decide +kernel, List.replicate 8 (1 / 8), by decide +kernel, by decide +kernel⟩
  obtain ⟨g, hg⟩ : ∃ g, createHyperGrid Ex.hbTM Ex.brkFull.ts = .ok g := ⟨_, rfl⟩
  have hpos : R.S.logEv ≠ LogV.ninf := fun h0 => (of_decide_eq_true h2) (by rw [h0]; rfl)
  obtain ⟨hl, hnm, ps, hp1, hp2⟩ := hf g hg
  have hE : Regular Ex.brkFull.E := Ex.regular2 (by norm_num)
  have hpm : PriorMass Ex.brkFull.E.cell Ex.hbStudy.S.prior Ex.brkPrior := .func _ (by decide +kernel) (by decide +kernel) (.inl (by decide +kernel))
  have hU : ∀ i : Fin 3, Ex.brkTimes i.succ = Ex.brkTimes i.castSucc + 1 := by decide +kernel
  have hr : 1 < g.rows.length := by rw [hl]; norm_num
  have hL0 : ∀ i x, 0 ≤ Ex.cpLik i x := fun i x => (Ex.cpLik_pos i x).le
  obtain ⟨D, s, a1, a2, a3, a4⟩ := C130_partial Ex.brkFull 2 Ex.hbStudy R g ps Ex.hb_built (by decide) Ex.hb_walk hE Ex.brkPrior hpm rfl Ex.brkTimes rfl Ex.cpLik rfl hL0
    (.inr (.inr hU)) hg hp1 hp2 hr h1 hpos rfl (by decide +kernel)
  obtain ⟨b1, b2⟩ := a3 (by rw [hnm]; decide) (unit_injective hU)
  refine ⟨g, ps, R, D, s, hg, hp1, h1, a1, a2, ?_⟩
  obtain ⟨n0, h0⟩ := a4 Ex.pext [s] 0 none rfl b1 b2 (fun r q => r.getD (g.names.idxOf q.1) 0) (by
      intro r a name ha
      rw [hnm] at ha ⊢
      rcases a with _ | _ | _ | a <;> simp at ha <;> subst ha <;> rfl) ⟨.par "t2", [(false, .par "t1")]⟩ .gt (.num 1) (by simp [Side.refs, Query.refs])
    (by intro r hr; rw [hnm]; simp [Side.refs, Query.refs] at hr; rcases hr with rfl | rfl <;> simp) (by simp [Side.Clean, Query.Clean]) (by simp [Query.Clean])
    (by intro z _ _; simp [Comparable, Side.extended, Query.extended])
  refine ⟨n0, fun m hm => ?_⟩
  rw [h0 m hm]
  rfl

/-- **C130, change-points.** After the fit of a change-point study (as in C111), a query about its change-points (`t2 - t1 > 10`) is answered with the posterior probability of Bayes' theorem; combinations
in which the change-points do not increase count with weight zero.  The parser reads all combinations (`allHyperGridValues`) with the distribution over all combinations. -/
theorem C130_changepoint_partial (I : FitIn K gs) (nJobs : ℕ) (H : HState K gs) (C : CState K gs) (g : HyperGrid K) (ps : List K) (hb : Built H.tm)
    (hsp : " " ∉ (entries H.tm).map (·.1)) (htm : StepModel H.tm) (hE : Regular I.E)
    (π : Idx gs → K) (hp : PriorMass I.E.cell H.S.prior π) (hprior : H.S.prior = .none ∨ ∃ v, H.S.prior = .func v)
    {n : ℕ} (τ : Fin (n + 1) → K) (hτ : StrictMono τ) (hts : I.ts = List.ofFn τ)
    (L : Fin (n + 1) → Idx gs → K) (hls : I.liks = List.ofFn L) (hL0 : ∀ i x, 0 ≤ L i x) (hmode : ModeOK I H.S τ L)
    (hg : createHyperGrid H.tm I.ts = .ok g) (hps : g.priors = some ps) (hnn : ∀ p ∈ ps, 0 ≤ p)
    (hv : ∀ e ∈ entries H.tm, ∀ c ∈ valuesOf I.ts e.2, ∃ i : Fin n, c = τ i.castSucc)
    (hr : 1 < (g.rows.filter fun r => decide (r.Pairwise (· < ·))).length)
    (h : cpFit I nJobs H = .ok (some C)) (hpos : C.R.S.logEv ≠ LogV.ninf) :
    ∃ D, C.R.hpd = some D ∧ ∀ s, hyperView H.tm I.E.names I.grid I.ts { C.grid with rows := C.allRows } C.R.S D = some s →
      ((List.ofFn I.E.names ++ g.names).Nodup → Accepts [s] none ∧ Stamps [s] none) ∧
      AnswersHyper g.names s ((g.rows.zip ps).map fun q => (q.1, if q.1.Pairwise (· < ·) then q.2 * changeEvidence π q.1 τ L else 0)) := by
  obtain ⟨⟨D, d1, d2, d3⟩, e2⟩ := C111_partial I nJobs H C g ps hb hsp htm hE π hp hprior τ hτ hts L hls hL0 hmode hg hps hnn hv hr h hpos
  have hpr := (Built.matched hb).proper
  have hlen := rows_length hpr hg
  have hnames : H.tm.flatNames = g.names := by
    rw [(createHyperGrid_eq hpr hg).2.1, entries_names _ hpr]
  have hfil : g.rows.filter (fun r => decide (InOrder H.tm r)) = g.rows.filter fun r => decide (r.Pairwise (· < ·)) := List.filter_congr fun r hr => by
    simp only [inOrder_step htm (hlen r hr)]
  have hn : H.S.prior.isArray = false := by rcases hprior with h | ⟨v, h⟩ <;> rw [h] <;> rfl
  obtain ⟨_, _, _, hall, -⟩ := cpFit_full I nJobs H C g ps hb hsp hn hg hps (by rw [hfil]; exact hr) h
  have hgn := (cpFit_grid hg h).2.1
  have hO : overOrdered g.rows ps (changeEvidence π · τ L) = ((g.rows.zip ps).map fun q => if q.1.Pairwise (· < ·) then q.2 * changeEvidence π q.1 τ L else 0).sum := by
    unfold overOrdered
    generalize g.rows.zip ps = l
    induction l with
    | nil => rfl
    | cons q l ih =>
        rw [List.filter_cons, List.map_cons, List.sum_cons, ← ih]
        by_cases hq : q.1.Pairwise (· < ·) <;> simp [hq]
  have hT0 : C.R.S.logEv.exp ≠ 0 := fun h0 => hpos (LogV.ext_exp h0)
  rw [e2] at hT0
  have hO0 := right_ne_zero_of_mul (div_ne_zero_iff.1 hT0).1
  have hc0 := right_ne_zero_of_mul (right_ne_zero_of_mul (left_ne_zero_of_mul (div_ne_zero_iff.1 hT0).1))
  have hzl : (g.rows.zip ps).length = g.rows.length := by
    have := congrArg List.length d3
    rw [List.length_map, List.length_map] at this
    rw [← this, d2]
  refine ⟨D, d1, fun s hs => ?_⟩
  rw [hyperView, parserView, Option.map_map, Option.map_eq_some_iff] at hs
  obtain ⟨pp, -, rfl⟩ := hs
  constructor
  · intro hnn
    refine ⟨⟨⟨List.ofFn I.E.names ++ g.names, ?_⟩, ?_⟩, ⟨?_, ?_⟩⟩
    · rw [parserNames]
      simp [PHyper.names, Function.comp_def, hgn]
      simpa using hnn
    · simp [loadAll, timeIndex, mapE, loadParams, loadHyper, bind, Except.bind]
    · intro s hs
      rw [List.mem_singleton.1 hs]
      simp only [Function.comp, hts]
      exact List.nodup_ofFn.2 hτ.injective
    · intro h0; simp at h0
  · rw [← zip_zip_map]
    refine hyper_view_answers (c := g.hgc.prod) ?_ d2 hc0 (by rw [List.length_map, hzl]) (by rw [← hO]; exact hO0) ?_
    · simp only [Function.comp, hnames, hgn, hall]
    · rw [d3, List.map_map, hO]
      refine List.map_congr_left fun q _ => ?_
      simp only [Function.comp]
      split <;> simp

/-- two change-points: the answer to `b - a > 1` -/
example : ∃ g ps C D s, createHyperGrid Ex.cpTwo.tm (Ex.cpFull 2).ts = .ok g ∧ g.priors = some ps ∧ cpFit (Ex.cpFull 2) 1 Ex.cpTwo = .ok (some C) ∧ C.R.hpd = some D ∧
    hyperView Ex.cpTwo.tm (fun _ => "x") (Ex.grid Ex.gs2) (Ex.cpFull 2).ts { C.grid with rows := C.allRows } C.R.S D = some s ∧
    ∃ n0, ∀ m ≥ n0, ∃ p, ask Ex.pext m [s] none ⟨.par "b", [(false, .par "a")]⟩ .gt (.num 1) = .ok (some p) := by
  obtain ⟨C, h1, h2⟩ := Ex.CpOk_iff.1 (show Ex.CpOk (cpFit (Ex.cpFull 2) 1 Ex.cpTwo) (fun C => decide (C.R.S.logEv.exp ≠ 0) && (cellsVal C.R.S.posts).isSome) = true by decide +kernel)
  rw [Bool.and_eq_true] at h2
  obtain ⟨h2, h3⟩ := h2
  obtain ⟨pp, h3⟩ := Option.isSome_iff_exists.1 h3
  have hf : ∀ g, createHyperGrid Ex.cpTwo.tm (Ex.cpFull 2).ts = .ok g → (g.rows.filter fun r => decide (r.Pairwise (· < ·))) = [[1, 2], [1, 4], [2, 4]] ∧ g.names = ["a", "b"] ∧
      g.priors = some (List.replicate 9 (1 / 9)) := by
    intro g hg
    cases hg
    decide +kernel
  obtain ⟨g, hg⟩ : ∃ g, createHyperGrid Ex.cpTwo.tm (Ex.cpFull 2).ts = .ok g := ⟨_, rfl⟩
  obtain ⟨f1, hnm, hps⟩ := hf g hg
  have hpos : C.R.S.logEv ≠ LogV.ninf := fun h0 => (of_decide_eq_true h2) (by rw [h0]; rfl)
  have hall : ∀ e ∈ entries Ex.cpTwo.tm, ∀ c ∈ valuesOf (Ex.cpFull 2).ts e.2, ∃ i : Fin 3, c = Ex.cpTimes i.castSucc := by
    intro e he
    have : e = ("a", .all) ∨ e = ("b", .all) := by simpa [Ex.cpTwo, Ex.cpAll, entries, entriesAll] using he
    rcases this with rfl | rfl <;> exact all_candidates Ex.cpTimes
  have hnn : ∀ p ∈ List.replicate 9 (1 / 9 : ℚ), 0 ≤ p := by intro p hp; rw [List.eq_of_mem_replicate hp]; norm_num
  obtain ⟨D, d1, d2⟩ := C130_changepoint_partial (Ex.cpFull 2) 1 Ex.cpTwo C g _ Ex.cpTwo_built (by decide) ⟨⟨rfl, rfl⟩, ⟨rfl, rfl⟩, trivial⟩ (Ex.regular2 (by norm_num))
    Ex.cpUniform .flat (.inl rfl) Ex.cpTimes Ex.cpTimes_mono rfl Ex.cpLik rfl (fun i x => (Ex.cpLik_pos i x).le)
    (.inr (.inr (.inl ⟨ext_proper, trivial, Ex.cpLik_pos⟩))) hg hps hnn hall (by rw [f1]; decide) h1 hpos
  obtain ⟨s, hs⟩ : ∃ s, hyperView Ex.cpTwo.tm (fun _ => "x") (Ex.grid Ex.gs2) (Ex.cpFull 2).ts { C.grid with rows := C.allRows } C.R.S D = some s :=
    ⟨_, by rw [hyperView, parserView, h3]; rfl⟩
  obtain ⟨a3, a4⟩ := d2 s hs
  obtain ⟨b1, b2⟩ := a3 (by rw [hnm]; decide)
  refine ⟨g, _, C, D, s, hg, hps, h1, d1, hs, ?_⟩
  obtain ⟨n0, h0⟩ := a4 Ex.pext [s] 0 none rfl b1 b2 (fun r q => r.getD (g.names.idxOf q.1) 0) (by
      intro r a name ha
      rw [hnm] at ha ⊢
      rcases a with _ | _ | a <;> simp at ha <;> subst ha <;> rfl) ⟨.par "b", [(false, .par "a")]⟩ .gt (.num 1) (by simp [Side.refs, Query.refs])
    (by intro r hr; rw [hnm]; simp [Side.refs, Query.refs] at hr; rcases hr with rfl | rfl <;> simp) (by simp [Side.Clean, Query.Clean]) (by simp [Query.Clean])
    (by intro z _ _; simp [Comparable, Side.extended, Query.extended])
  exact ⟨n0, fun m hm => ⟨_, h0 m hm⟩⟩

/-- The study `s`, alone or with others (study `k` of `ss`), answers every query about its parameters at time `τ` with the probability that the comparison is true if the grid points have probabilities `Q`,
up to an error of at most `δ`. -/
def AnswersNear (names : Fin d → String) (grid : (a : Fin d) → Fin (gs a) → K) (τ : K) (s : PStudy K) (Q : Idx gs → K) (δ : K) : Prop :=
  ∀ (X : PExt K) (ss : List (PStudy K)) (k : ℕ) (t : Option K), ss[k]? = some s → Accepts ss t → Stamps ss t →
  ∀ (ρ : Idx gs → String × Option K → K), (∀ x a u, ρ x (names a, u) = grid a (x a)) →
  ∀ (left : Side K) (rel : Rel) (right : Query K), left.refs ++ right.refs ≠ [] →
    (∀ r ∈ left.refs ++ right.refs, (∃ a, names a = r.1) ∧ (t = none ∧ r.2 = some τ ∨ t = some τ ∧ r.2 = none)) →
    left.Clean X → right.Clean X → (∀ x, Comparable (left.extended X (ρ x)) (right.extended X (ρ x))) →
    ∃ p n0, (∀ m ≥ n0, ask X m ss t left rel right = .ok (some p)) ∧ |p - ∑ x, Q x * xindicator rel (left.extended X (ρ x)) (right.extended X (ρ x))| ≤ δ

theorem hyper_near (tm : TM K) (names : Fin d → String) (grid : (a : Fin d) → Fin (gs a) → K) {n : ℕ} (τ : Fin (n + 1) → K) (g : HyperGrid K) (S : FitState K gs) (D : List K)
    (P Q : Fin (n + 1) → Idx gs → K) (hS : S.posts = List.ofFn fun i => .val (P i)) {δ : K} (hP : ∀ i, ∑ x, P i x = 1 ∧ ∀ x, |P i x - Q i x| ≤ δ) :
    ∃ s, hyperView tm names grid (List.ofFn τ) g S D = some s ∧ ∀ i, AnswersNear names grid (τ i) s (Q i) ((Fintype.card (Idx gs) : K) * δ) := by
  obtain ⟨s, hs, -, -, -, -, -, h⟩ := view_answers names grid τ S P hS
  refine ⟨_, by rw [hyperView, hs]; rfl, ?_⟩
  intro i X ss k t hk hA hSt ρ hρ left rel right hne hr hl hrt hc
  obtain ⟨n0, h0⟩ := h i _ (Idx gs) (P i) id (fun x => by rw [(hP i).1]; simp [Finset.sum_filter]) X ss k t hk hA hSt ρ hρ left rel right hne hr hl hrt fun z _ => hc z
  refine ⟨_, n0, h0, ?_⟩
  rw [(hP i).1, div_one, ← Finset.sum_sub_distrib]
  refine (Finset.abs_sum_le_sum_abs _ _).trans ?_
  rw [← nsmul_eq_mul, ← Finset.card_univ]
  refine Finset.sum_le_card_nsmul _ _ _ fun x _ => ?_
  simp only [id]
  rw [← sub_mul, abs_mul]
  have hx : |xindicator rel (left.extended X (ρ x)) (right.extended X (ρ x))| ≤ (1 : K) := by
    unfold xindicator
    split
    · split <;> simp
    · simp
  exact (mul_le_of_le_one_right (abs_nonneg _) hx).trans ((hP i).2 x)

/-- **C130, parameters of a hyper-study.** After a full fit of a hyper-study (time stamps one unit apart), a query about the parameters at one time stamp is answered with the probability under the average of the exact posterior
distributions over the hyper-parameters, up to the square of the number of grid points times the floor `ε` (`10**-300`). -/
theorem C130_parameters_partial (I : FitIn K gs) (nJobs : ℕ) (H R : HState K gs) (g : HyperGrid K) (ps : List K) (hb : Built H.tm)
    (hsp : " " ∉ (entries H.tm).map (·.1)) (htm : WalkModel I.E H.tm) (hE : Regular I.E)
    (π : Idx gs → K) (hp : PriorMass I.E.cell H.S.prior π) (hn : H.S.prior.isArray = false)
    {n : ℕ} (τ : Fin (n + 1) → K) (hU : ∀ i : Fin n, τ i.succ = τ i.castSucc + 1) (hts : I.ts = List.ofFn τ)
    (L : Fin (n + 1) → Idx gs → K) (hls : I.liks = List.ofFn L) (hL0 : ∀ i x, 0 ≤ L i x)
    (hfo : I.forwardOnly = false) (heo : I.evidenceOnly = false) (hε : 0 < I.ε)
    (hg : createHyperGrid H.tm I.ts = .ok g) (hps : g.priors = some ps) (hnn : ∀ p ∈ ps, 0 ≤ p) (hr : 1 < g.rows.length)
    (h : hyperFit I nJobs H = .ok (some R)) (hpos : R.S.logEv ≠ LogV.ninf) :
    ∃ D s, R.hpd = some D ∧ hyperView H.tm I.E.names I.grid I.ts g R.S D = some s ∧ ∀ i, AnswersNear I.E.names I.grid (τ i) s
      (fun x => overAll g.rows ps (fun r => rowEvidence I.E π H.tm τ L r * rowPosterior I.E π H.tm τ L r i x) / overAll g.rows ps (rowEvidence I.E π H.tm τ L))
      ((Fintype.card (Idx gs) : K) * ((Fintype.card (Idx gs) : K) * I.ε)) := by
  obtain ⟨P, p1, -, p2⟩ := C119_average_partial I nJobs H R g ps hb hsp htm hE π hp hn τ hU hts L hls hL0 hfo heo hε hg hps hnn hr h hpos
  obtain ⟨⟨D, d1, -⟩, -⟩ := C119_partial I nJobs H R g ps hb hsp htm hE π hp hn τ hts L hls hL0 (.inr (.inr hU)) hg hps hnn hr h hpos
  obtain ⟨s, hs, h⟩ := hyper_near H.tm I.E.names I.grid τ g R.S D P _ p1 p2
  exact ⟨D, s, d1, hts ▸ hs, h⟩

/-- **C130, parameters of a change-point study** (flat prior of the parameters): the same for the average over all change-points. -/
theorem C130_pieces_partial (I : FitIn K gs) (nJobs : ℕ) (H : HState K gs) (C : CState K gs) (g : HyperGrid K) (ps : List K) (hb : Built H.tm)
    (hsp : " " ∉ (entries H.tm).map (·.1)) (htm : StepModel H.tm) (hE : Regular I.E) (hprior : H.S.prior = .none)
    {n : ℕ} (τ : Fin (n + 1) → K) (hU : ∀ i : Fin n, τ i.succ = τ i.castSucc + 1) (hts : I.ts = List.ofFn τ)
    (L : Fin (n + 1) → Idx gs → K) (hls : I.liks = List.ofFn L) (hL0 : ∀ i x, 0 ≤ L i x)
    (hfo : I.forwardOnly = false) (heo : I.evidenceOnly = false) (hε : 0 < I.ε)
    (hg : createHyperGrid H.tm I.ts = .ok g) (hps : g.priors = some ps) (hnn : ∀ p ∈ ps, 0 ≤ p)
    (hv : ∀ e ∈ entries H.tm, ∀ c ∈ valuesOf I.ts e.2, ∃ i : Fin n, c = τ i.castSucc)
    (hr : 1 < (g.rows.filter fun r => decide (r.Pairwise (· < ·))).length)
    (h : cpFit I nJobs H = .ok (some C)) (hpos : C.R.S.logEv ≠ LogV.ninf) (D : List K) :
    ∃ s, hyperView H.tm I.E.names I.grid I.ts { C.grid with rows := C.allRows } C.R.S D = some s ∧ ∀ i, AnswersNear I.E.names I.grid (τ i) s
      (fun x => overOrdered g.rows ps (fun r => changeEvidence (fun _ => 1 / (Fintype.card (Idx gs) : K)) r τ L * piecePosterior (fun _ => 1 / (Fintype.card (Idx gs) : K)) r τ L i x) /
        overOrdered g.rows ps (changeEvidence (fun _ => 1 / (Fintype.card (Idx gs) : K)) · τ L))
      ((Fintype.card (Idx gs) : K) * ((Fintype.card (Idx gs) : K) * I.ε)) := by
  obtain ⟨P, p1, -, p2⟩ := C112_partial I nJobs H C g ps hb hsp htm hE hprior τ hU hts L hls hL0 hfo heo hε hg hps hnn hv hr h hpos
  obtain ⟨s, hs, h⟩ := hyper_near H.tm I.E.names I.grid τ { C.grid with rows := C.allRows } C.R.S D P _ p1 p2
  exact ⟨s, hts ▸ hs, h⟩

/-- the study of structural breaks above: `x@1 > 0` is answered -/
example : ∃ g R D s, createHyperGrid Ex.hbTM Ex.brkFull.ts = .ok g ∧ hyperFit Ex.brkFull 2 Ex.hbStudy = .ok (some R) ∧ R.hpd = some D ∧
    hyperView Ex.hbTM (fun _ => "x") (Ex.grid Ex.gs2) Ex.brkFull.ts g R.S D = some s ∧
    ∃ p n0, ∀ m ≥ n0, ask Ex.pext m [s] none ⟨.at "x" 1, []⟩ .gt (.num 0) = .ok (some p) := by
  obtain ⟨R, h1, h2⟩ := Ex.Ok_iff.1 (show Ex.Ok (hyperFit Ex.brkFull 2 Ex.hbStudy) (fun R => decide (R.S.logEv.exp ≠ 0)) = true by decide +kernel)
  have hf : ∀ g, createHyperGrid Ex.hbTM Ex.brkFull.ts = .ok g → g.rows.length = 8 ∧ g.names = ["s", "t1", "t2"] ∧ ∃ ps, g.priors = some ps ∧ ∀ p ∈ ps, 0 ≤ p := by
    intro g hg
    cases hg
    exact ⟨by decide +kernel, by decide +kernel, List.replicate 8 (1 / 8), by decide +kernel, by decide +kernel⟩
  obtain ⟨g, hg⟩ : ∃ g, createHyperGrid Ex.hbTM Ex.brkFull.ts = .ok g := ⟨_, rfl⟩
  have hpos : R.S.logEv ≠ LogV.ninf := fun h0 => (of_decide_eq_true h2) (by rw [h0]; rfl)
  obtain ⟨hl, hnm, ps, hp1, hp2⟩ := hf g hg
  have hE : Regular Ex.brkFull.E := Ex.regular2 (by norm_num)
  have hpm : PriorMass Ex.brkFull.E.cell Ex.hbStudy.S.prior Ex.brkPrior := .func _ (by decide +kernel) (by decide +kernel) (.inl (by decide +kernel))
  have hU : ∀ i : Fin 3, Ex.brkTimes i.succ = Ex.brkTimes i.castSucc + 1 := by decide +kernel
  have hr : 1 < g.rows.length := by rw [hl]; norm_num
  have hL0 : ∀ i x, 0 ≤ Ex.cpLik i x := fun i x => (Ex.cpLik_pos i x).le
  obtain ⟨D, s, a1, a2, a3, -⟩ := C130_partial Ex.brkFull 2 Ex.hbStudy R g ps Ex.hb_built (by decide) Ex.hb_walk hE Ex.brkPrior hpm rfl Ex.brkTimes rfl Ex.cpLik rfl hL0
    (.inr (.inr hU)) hg hp1 hp2 hr h1 hpos rfl (by decide +kernel)
  obtain ⟨D', s', a1', a2', a4⟩ := C130_parameters_partial Ex.brkFull 2 Ex.hbStudy R g ps Ex.hb_built (by decide) Ex.hb_walk hE Ex.brkPrior hpm rfl Ex.brkTimes hU rfl Ex.cpLik rfl hL0
    rfl rfl (by decide +kernel) hg hp1 hp2 hr h1 hpos
  obtain rfl : D = D' := Option.some.inj (a1.symm.trans a1')
  obtain rfl : s = s' := Option.some.inj (a2.symm.trans a2')
  obtain ⟨b1, b2⟩ := a3 (by rw [hnm]; decide) (unit_injective hU)
  refine ⟨g, R, D, s, hg, h1, a1, a2, ?_⟩
  obtain ⟨p, n0, h0, -⟩ := a4 1 Ex.pext [s] 0 none rfl b1 b2 (fun x _ => Ex.grid Ex.gs2 0 (x 0)) (fun x a _ => by rw [Fin.fin_one_eq_zero a]; rfl) ⟨.at "x" 1, []⟩ .gt (.num 0) (by simp [Side.refs, Query.refs])
    (by intro r hr; simp [Side.refs, Query.refs] at hr; subst hr; exact ⟨⟨0, rfl⟩, .inl ⟨rfl, rfl⟩⟩) (by simp [Side.Clean, Query.Clean]) (by simp [Query.Clean])
    (by intro z; simp [Comparable, Side.extended, Query.extended])
  exact ⟨p, n0, h0⟩

/-- two change-points, time stamps one unit apart -/
example : ∃ g ps C, createHyperGrid Ex.cpTwo.tm (Ex.cpUnit 2).ts = .ok g ∧ g.priors = some ps ∧ cpFit (Ex.cpUnit 2) 1 Ex.cpTwo = .ok (some C) ∧
    ∀ D, ∃ s, hyperView Ex.cpTwo.tm (fun _ => "x") (Ex.grid Ex.gs2) (Ex.cpUnit 2).ts { C.grid with rows := C.allRows } C.R.S D = some s ∧ ∀ i, AnswersNear (fun _ => "x") (Ex.grid Ex.gs2) (Ex.cpSteps i) s
      (fun x => overOrdered g.rows ps (fun r => changeEvidence Ex.cpUniform r Ex.cpSteps Ex.cpLik * piecePosterior Ex.cpUniform r Ex.cpSteps Ex.cpLik i x) /
        overOrdered g.rows ps (changeEvidence Ex.cpUniform · Ex.cpSteps Ex.cpLik)) ((Fintype.card (Idx Ex.gs2) : ℚ) * ((Fintype.card (Idx Ex.gs2) : ℚ) * (1 / 1000))) := by
  obtain ⟨C, h1, h2⟩ := Ex.CpOk_iff.1 (show Ex.CpOk (cpFit (Ex.cpUnit 2) 1 Ex.cpTwo) (fun C => decide (C.R.S.logEv.exp ≠ 0)) = true by decide +kernel)
  have hf : ∀ g, createHyperGrid Ex.cpTwo.tm (Ex.cpUnit 2).ts = .ok g → (g.rows.filter fun r => decide (r.Pairwise (· < ·))) = [[1, 2], [1, 3], [2, 3]] ∧ g.priors = some (List.replicate 9 (1 / 9)) := by
    intro g hg
    cases hg
    decide +kernel
  obtain ⟨g, hg⟩ : ∃ g, createHyperGrid Ex.cpTwo.tm (Ex.cpUnit 2).ts = .ok g := ⟨_, rfl⟩
  refine ⟨g, _, C, hg, (hf g hg).2, h1, fun D => ?_⟩
  exact C130_pieces_partial (Ex.cpUnit 2) 1 Ex.cpTwo C g _ Ex.cpTwo_built (by decide) ⟨⟨rfl, rfl⟩, ⟨rfl, rfl⟩, trivial⟩ (Ex.regular2 (by norm_num)) rfl
    Ex.cpSteps (by decide +kernel) rfl Ex.cpLik rfl (fun i x => (Ex.cpLik_pos i x).le) rfl rfl (by norm_num [Ex.cpUnit]) hg (hf g hg).2
    (by intro p hp; rw [List.eq_of_mem_replicate hp]; norm_num)
    (by
      intro e he
      have : e = ("a", .all) ∨ e = ("b", .all) := by simpa [Ex.cpTwo, Ex.cpAll, entries, entriesAll] using he
      rcases this with rfl | rfl <;> exact all_candidates Ex.cpSteps)
    (by rw [(hf g hg).1]; decide) h1 (fun h0 => (of_decide_eq_true h2) (by rw [h0]; rfl)) D

end Props

namespace Ex
open BL Spec

/-- random walk with standard deviation 0 or 1 -/
def mixTM : TM ℚ := .leaf (.grw "x") ["s"] [.array [0, 1]] (some (.item .none))
/-- the first data point favours the value 0, the second one the value 1 -/
def mixLik : Fin 2 → Idx gs2 → ℚ := ![v2 9 1, v2 1 9]
/-- time stamps -/
def mixTimes : Fin 2 → ℚ := ![0, 1]
/-- flat prior -/
def mixPrior : Idx gs2 → ℚ := fun _ => 1 / 2
/-- full fit to two data points -/
def mixFull : FitIn ℚ gs2 := ⟨env gs2 2, grid gs2, List.ofFn mixLik, List.ofFn mixTimes, false, false, 1 / 1000⟩
/-- study with a flat prior -/
def mixStudy : HState ℚ gs2 := ⟨mixTM, S0 (.func (v2 1 1)), [], none⟩

end Ex

namespace Props
open BL Spec _root_.Ex

/-- **C130 is false for queries that mix parameters and hyper-parameters.** A hyper-study of a random walk with standard deviation `s` equal to 0 or 1, parameter values 0 and 1, and two data points, the first favouring 0 and the second 1.
Given the data, `s > x@1` has probability 7/52, since the value 1 of the parameter and a moving parameter (`s = 1`) are correlated.  The answer to the query is 34/169, the value for independent quantities. -/
theorem C130_refuted : ∃ (R : HState ℚ gs2) (g : HyperGrid ℚ) (ps D : List ℚ) (s : PStudy ℚ), hyperFit mixFull 2 mixStudy = .ok (some R) ∧ createHyperGrid mixTM mixFull.ts = .ok g ∧ g.priors = some ps ∧ R.hpd = some D ∧
    hyperView mixTM mixFull.E.names mixFull.grid mixFull.ts g R.S D = some s ∧
    overAll g.rows ps (fun r => rowEvidence mixFull.E mixPrior mixTM mixTimes mixLik r *
      ∑ x : Idx gs2 with grid gs2 0 (x 0) < r.getD 0 0, rowPosterior mixFull.E mixPrior mixTM mixTimes mixLik r 1 x) /
      overAll g.rows ps (rowEvidence mixFull.E mixPrior mixTM mixTimes mixLik) = 7 / 52 ∧
    ask pext 10 [s] none ⟨.par "s", []⟩ .gt (.at "x" 1) = .ok (some (34 / 169)) := by
  obtain ⟨R, h1, h2⟩ := Ex.Ok_iff.1 (show Ex.Ok (hyperFit mixFull 2 mixStudy) (fun R => decide ((R.hpd.bind fun D => ((createHyperGrid mixTM mixFull.ts).toOption.bind fun g =>
    (hyperView mixTM mixFull.E.names mixFull.grid mixFull.ts g R.S D).map fun s => ask pext 10 [s] none ⟨.par "s", []⟩ .gt (.at "x" 1))) = some (.ok (some (34 / 169))))) = true by decide +kernel)
  have h3 := of_decide_eq_true h2
  obtain ⟨D, hD, h3⟩ := Option.bind_eq_some_iff.1 h3
  obtain ⟨g, hg, h3⟩ := Option.bind_eq_some_iff.1 h3
  obtain ⟨s, hs, h3⟩ := Option.map_eq_some_iff.1 h3
  have hg' : createHyperGrid mixTM mixFull.ts = .ok g := by
    cases hc : createHyperGrid mixTM mixFull.ts with
    | error e => rw [hc] at hg; cases hg
    | ok g' => rw [hc] at hg; cases hg; rfl
  have hr : g.rows = [[0], [1]] ∧ g.priors = some [1 / 2, 1 / 2] := by
    cases hg'
    exact ⟨by decide +kernel, by decide +kernel⟩
  refine ⟨R, g, _, D, s, h1, hg', hr.2, hD, hs, ?_, h3⟩
  rw [hr.1]
  decide +kernel

end Props
