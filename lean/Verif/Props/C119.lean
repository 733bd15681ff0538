import Verif.Props.C117
import Verif.Props.C34
import Verif.Props.C03

/-! # C119: hyper-studies -/

set_option linter.unusedSectionVars false

namespace Spec
open BL
variable {K : Type} [Field K]

/-- Prior probability `q.2` of the combination `q.1` of hyper-parameter values times the value `f q.1`, summed over all combinations. -/
def overAll (rows : List (List K)) (ps : List K) (f : List K → K) : K := ((rows.zip ps).map fun q => q.2 * f q.1).sum

end Spec

namespace Props
open BL Spec

variable {K : Type} [Field K] [LinearOrder K] [IsStrictOrderedRing K] {d : ℕ} {gs : Fin d → ℕ}

theorem hyperFit_nodup {I : FitIn K gs} {nJobs : ℕ} {H R : HState K gs} {g : HyperGrid K} {ps : List K} (hb : Built H.tm)
    (hsp : " " ∉ (entries H.tm).map (·.1)) (hn : H.S.prior.isArray = false)
    (hg : createHyperGrid H.tm I.ts = .ok g) (hps : g.priors = some ps) (hr : 1 < g.rows.length) (h : hyperFit I nJobs H = .ok (some R)) : ((entries H.tm).map (·.1)).Nodup := by
  rcases hyperFit_spec I nJobs H g ps hb hsp hn hg hps hr with ⟨e, he⟩ | ⟨As, a1, a2, a3, -⟩
  · rw [he] at h; cases h
  · exact a3.2.1

/-- a hyper-study whose single fits report the probabilities `ev` and, at time step `t`, the distributions `post` -/
theorem hyper_exact (I : FitIn K gs) (nJobs : ℕ) (H R : HState K gs) (g : HyperGrid K) (ps : List K) (hb : Built H.tm)
    (hsp : " " ∉ (entries H.tm).map (·.1)) (hE : Regular I.E) (hn : H.S.prior.isArray = false)
    (hg : createHyperGrid H.tm I.ts = .ok g) (hps : g.priors = some ps) (hnn : ∀ p ∈ ps, 0 ≤ p) (hr : 1 < g.rows.length)
    (h : hyperFit I nJobs H = .ok (some R)) (hpos : R.S.logEv ≠ LogV.ninf) (ev : List K → K)
    (hev : ∀ r ∈ g.rows, ∀ A, singleFit I H.tm H.S r = .ok A → A.logEv.exp = ev r) :
    (∃ D, R.hpd = some D ∧ D.length = g.rows.length ∧ D.map (· * g.hgc.prod) = (g.rows.zip ps).map fun q => q.2 * ev q.1 / overAll g.rows ps ev) ∧
    R.S.logEv.exp = overAll g.rows ps ev * g.hgc.prod ∧
    (I.evidenceOnly = false → 0 < I.ε → ∃ P : ℕ → Idx gs → K, R.S.posts = (List.range I.liks.length).map (fun t => .val (P t)) ∧
      (∀ a, R.S.means a = (List.range I.liks.length).map fun t => ∑ x, P t x * I.grid a (x a)) ∧ (∀ t < I.liks.length, ∑ x, P t x = 1) ∧ ∀ t < I.liks.length,
      ∀ post : List K → Idx gs → K, (∀ r ∈ g.rows, ∀ A, singleFit I H.tm H.S r = .ok A → ev r ≠ 0 → (∀ x, 0 ≤ post r x) ∧ ∑ x, post r x = 1 ∧ ∀ x, postOf A t x = post r x) →
        ∀ x, |P t x - overAll g.rows ps (fun r => ev r * post r x) / overAll g.rows ps ev| ≤ (Fintype.card (Idx gs) : K) * I.ε) := by
  have := hE.nonempty
  have hcell : 0 < I.E.cell := Finset.prod_pos fun a _ => hE.lattice_pos a
  obtain ⟨As, W, D, c1, c2, c3, c4, c5, c6, c7, c8⟩ := C31_partial I nJobs H R g ps hb hsp hn hcell.le hg hps hr hnn h hpos
  obtain ⟨As', b1, -, b2, b3⟩ := C29_partial I nJobs H R g ps hb hsp hn hg hps hr h
  have uniq : ∀ {As' : List (FitState K gs)}, Singles I H g.rows As' → As' = As := by
    intro As' b1
    have e1 := mapE_ok.2 b1
    rw [mapE_ok.2 c1] at e1
    exact (Except.ok.inj e1).symm
  obtain rfl := uniq b1
  clear b1
  rename_i As'
  have hAs := singles_map c1 (fun A => A.logEv.exp) ev hev
  have hzip : ∀ (F : K → K → K), (As'.zip ps).map (fun q => F q.1.logEv.exp q.2) = (g.rows.zip ps).map fun q => F (ev q.1) q.2 := by
    intro F
    have := zip_values F (fun A : FitState K gs => A.logEv.exp) ev id As' g.rows ps hAs
    simpa using this
  have hT : R.S.logEv.exp = overAll g.rows ps ev * g.hgc.prod := by
    rw [b3, hzip fun a b => a * (b * g.hgc.prod), overAll, ← List.sum_map_mul_right]
    congr 1
    refine List.map_congr_left fun q _ => ?_
    ring
  have hT0 : R.S.logEv.exp ≠ 0 := fun h0 => hpos (LogV.ext_exp h0)
  have hc0 : g.hgc.prod ≠ 0 := by rw [hT] at hT0; exact right_ne_zero_of_mul hT0
  have hW : W = (g.rows.zip ps).map fun q => q.2 * ev q.1 / overAll g.rows ps ev := by
    rw [c4, hzip fun a b => a * (b * g.hgc.prod) / R.S.logEv.exp]
    refine List.map_congr_left fun q _ => ?_
    rw [hT, ← mul_assoc, mul_div_mul_right _ _ hc0, mul_comm]
  refine ⟨⟨D, c2, by rw [← c5, ← c3, List.length_map], by rw [c3, hW]⟩, hT, ?_⟩
  intro heo hε
  obtain ⟨As2, W2, D2, d1, d2, d3, d4, d5, d6, d7, P, p1, p2⟩ := C30_partial I nJobs H R g ps hb hsp hn hcell.le hg hps hr hnn h hpos heo hε this
  obtain rfl := uniq d1
  rw [c2] at d2
  cases d2
  obtain rfl : W = W2 := by rw [← c3, ← d3]
  refine ⟨P, p1, ?_, fun t ht => (p2 t ht).1, ?_⟩
  · intro a
    rcases hyperFit_spec I nJobs H g ps hb hsp hn hg hps hr with ⟨e, he⟩ | ⟨As0, r1, r2, r3, R', r0, r4, r5, r6, r7, r9, r10, r11, r8⟩
    · rw [he] at h; cases h
    rw [r0] at h
    cases h
    rw [(r8 heo).2, p1]
    beta_reduce
    rw [List.filterMap_map, ← List.filterMap_eq_map]
    rfl
  · intro t ht post hpost x
    have hmix : overAll g.rows ps (fun r => ev r * post r x) / overAll g.rows ps ev = Spec.mixture As2 W fun A => postOf A t x := by
      have hl2 := singles_map c1 (fun A => A.logEv.exp * postOf A t x) (fun r => ev r * post r x) fun r hr A hA => by
        have e1 := hev r hr A hA
        by_cases h0 : ev r = 0
        · rw [e1, h0, zero_mul, zero_mul]
        · rw [((hpost r hr A hA h0).2.2 x), e1]
      unfold Spec.mixture
      rw [c4, zip_map_zip, List.map_map]
      have e := zip_values (fun a b => a * (b * g.hgc.prod) / R.S.logEv.exp) (fun A : FitState K gs => A.logEv.exp * postOf A t x) (fun r => ev r * post r x) id As2 g.rows ps hl2
      rw [List.map_id] at e
      have e' : (As2.zip ps).map ((fun q : FitState K gs × K => q.2 * postOf q.1 t x) ∘ fun q => (q.1, q.1.logEv.exp * (q.2 * g.hgc.prod) / R.S.logEv.exp)) =
          (g.rows.zip ps).map fun q => q.2 * (ev q.1 * post q.1 x) * (g.hgc.prod / R.S.logEv.exp) := by
        rw [show (fun q : List K × K => q.2 * (ev q.1 * post q.1 x) * (g.hgc.prod / R.S.logEv.exp)) = fun q : List K × K => ev q.1 * post q.1 x * (id q.2 * g.hgc.prod) / R.S.logEv.exp by
          funext q
          simp only [id]
          ring]
        rw [← e]
        refine List.map_congr_left fun q _ => ?_
        simp only [Function.comp]
        ring
      rw [e', List.sum_map_mul_right, hT, mul_comm (overAll g.rows ps ev), div_mul_cancel_left₀ hc0, ← div_eq_mul_inv]
      rfl
    rw [hmix, (p2 t ht).2.1 x]
    refine floor_error d4 d5 d6 hε t ?_ x
    intro k A w hA hw h0
    have hA0 : A.logEv.exp ≠ 0 := fun hz => d7 k A w hA hw h0 (LogV.ext_exp hz)
    obtain ⟨row, hrm, hs⟩ := Singles.mem c1 (List.mem_of_getElem? hA)
    rw [hev row hrm A hs] at hA0
    obtain ⟨q1, q2, q3⟩ := hpost row hrm A hs hA0
    exact ⟨fun y => by rw [q3]; exact q1 y, by simp only [q3]; exact q2⟩

/-- **C119 (what is proved).** Consider a hyper-study whose transition model never draws the parameters afresh (`WalkModel`): Static models and Gaussian random walks, combined and in series, separated by structural breaks, with any
number of uncertain hyper-parameters (standard deviations, times of structural breaks).  Let there be more than one combination of hyper-parameter values, let the prior of the parameters be anything but an array, with probabilities `π`, and let the evidence
reported be non-zero.  Then the distribution stored by `fit` gives every combination the posterior probability of Bayes' theorem: prior probability times the probability of the data (a sum over all parameter paths), divided by the sum of these
products; and the evidence reported is the sum over all combinations of prior probability (density times cell of the hyper-grid) times probability of the data.  Not covered: priors given as array (shared between the fits, C32), full fits with time stamps
not one unit apart (C08). -/
theorem C119_partial (I : FitIn K gs) (nJobs : ℕ) (H R : HState K gs) (g : HyperGrid K) (ps : List K) (hb : Built H.tm)
    (hsp : " " ∉ (entries H.tm).map (·.1)) (htm : WalkModel I.E H.tm) (hE : Regular I.E)
    (π : Idx gs → K) (hp : PriorMass I.E.cell H.S.prior π) (hn : H.S.prior.isArray = false)
    {n : ℕ} (τ : Fin (n + 1) → K) (hts : I.ts = List.ofFn τ)
    (L : Fin (n + 1) → Idx gs → K) (hls : I.liks = List.ofFn L) (hL0 : ∀ i x, 0 ≤ L i x) (hmode : WalkMode I τ)
    (hg : createHyperGrid H.tm I.ts = .ok g) (hps : g.priors = some ps) (hnn : ∀ p ∈ ps, 0 ≤ p) (hr : 1 < g.rows.length)
    (h : hyperFit I nJobs H = .ok (some R)) (hpos : R.S.logEv ≠ LogV.ninf) :
    (∃ D, R.hpd = some D ∧ D.length = g.rows.length ∧ D.map (· * g.hgc.prod) = (g.rows.zip ps).map fun q =>
      q.2 * rowEvidence I.E π H.tm τ L q.1 / overAll g.rows ps (rowEvidence I.E π H.tm τ L)) ∧
    R.S.logEv.exp = ((g.rows.zip ps).map fun q => (q.2 * g.hgc.prod) * rowEvidence I.E π H.tm τ L q.1).sum := by
  have hpr := (Built.matched hb).proper
  have hnd := hyperFit_nodup hb hsp hn hg hps hr h
  have hlen := rows_length hpr hg
  obtain ⟨h1, h2, -⟩ := hyper_exact I nJobs H R g ps hb hsp hE hn hg hps hnn hr h hpos (rowEvidence I.E π H.tm τ L)
    fun r hr A hA => walk_evidence I H hE htm hnd π hp τ hts L hls hL0 hmode (hlen r hr) hA
  refine ⟨h1, ?_⟩
  rw [h2, overAll, ← List.sum_map_mul_right]
  congr 1
  refine List.map_congr_left fun q _ => ?_
  ring

theorem sum_pick_all (P : List K → Prop) [DecidablePred P] (f : List K → K) (Z : K) : ∀ l : List (List K × K),
    ((l.map fun q => (q.1, q.2 * f q.1 / Z)).filter (fun q => decide (P q.1)) |>.map (·.2)).sum = (l.map fun q => q.2 * (if P q.1 then f q.1 else 0)).sum / Z
  | [] => by simp
  | q :: l => by
      have ih := sum_pick_all P f Z l
      rw [List.map_cons, List.filter_cons]
      by_cases h1 : P q.1 <;> simp [h1, ih, add_div]

/-- **C119, one hyper-parameter.** In the setting of `C119_partial`, the query for the distribution of one hyper-parameter returns its grid values and for every value its posterior probability: the sum over the combinations with this value, divided
by the sum over all combinations, of prior probability times probability of the data. -/
theorem C119_query_partial (I : FitIn K gs) (nJobs : ℕ) (H R : HState K gs) (g : HyperGrid K) (ps : List K) (hb : Built H.tm)
    (hsp : " " ∉ (entries H.tm).map (·.1)) (htm : WalkModel I.E H.tm) (hE : Regular I.E)
    (π : Idx gs → K) (hp : PriorMass I.E.cell H.S.prior π) (hn : H.S.prior.isArray = false)
    {n : ℕ} (τ : Fin (n + 1) → K) (hts : I.ts = List.ofFn τ)
    (L : Fin (n + 1) → Idx gs → K) (hls : I.liks = List.ofFn L) (hL0 : ∀ i x, 0 ≤ L i x) (hmode : WalkMode I τ)
    (hg : createHyperGrid H.tm I.ts = .ok g) (hps : g.priors = some ps) (hnn : ∀ p ∈ ps, 0 ≤ p) (hr : 1 < g.rows.length)
    (h : hyperFit I nJobs H = .ok (some R)) (hpos : R.S.logEv ≠ LogV.ninf) (name : String) (v : HVal K) (a : ℕ)
    (he : (entries H.tm)[a]? = some (name, v)) (hvn : (valuesOf I.ts v).Nodup) :
    ∃ D D' A, R.hpd = some D ∧ getHPD H.tm g D name = (D', .ok (expandAll I.ts v, A)) ∧
      A.flat = (valuesOf I.ts v).map fun t =>
        overAll g.rows ps (fun r => if r[a]? = some t then rowEvidence I.E π H.tm τ L r else 0) / overAll g.rows ps (rowEvidence I.E π H.tm τ L) := by
  obtain ⟨⟨D, d1, d2, d3⟩, -⟩ := C119_partial I nJobs H R g ps hb hsp htm hE π hp hn τ hts L hls hL0 hmode hg hps hnn hr h hpos
  have hpr := (Built.matched hb).proper
  have hnd := hyperFit_nodup hb hsp hn hg hps hr h
  obtain ⟨As, b1, -, b2, -⟩ := C29_partial I nJobs H R g ps hb hsp hn hg hps hr h
  have c6 : ps.length = g.rows.length := b2.trans b1.length_eq.symm
  obtain ⟨D', A, a1, a2, -, -⟩ := C34 H.tm I.ts g D name v a hpr hnd hg hr d2 he hvn
  refine ⟨D, D', A, d1, a1, ?_⟩
  rw [a2]
  refine List.map_congr_left fun t _ => ?_
  have := sum_pick_all (fun r => r[a]? = some t) (rowEvidence I.E π H.tm τ L) (overAll g.rows ps (rowEvidence I.E π H.tm τ L)) (g.rows.zip ps)
  unfold overAll at this ⊢
  rw [← this, ← zip_self_map (fun q => q.2 * rowEvidence I.E π H.tm τ L q.1 / _) g.rows ps c6, ← overAll, ← d3, probOf, List.zip_map_right, List.filter_map, List.map_map]
  rfl

/-- **C119, two hyper-parameters.** In the setting of `C119_partial`, the query for the joint distribution of two hyper-parameters with at least two values each returns their grid values and a table: the entry at `(i, j)` is the posterior probability of
the `i`-th value of the first and the `j`-th value of the second hyper-parameter, that is, the sum over the combinations with these two values, divided by the sum over all combinations, of prior probability times probability of the data. -/
theorem C119_joint_partial (I : FitIn K gs) (nJobs : ℕ) (H R : HState K gs) (g : HyperGrid K) (ps : List K) (hb : Built H.tm)
    (hsp : " " ∉ (entries H.tm).map (·.1)) (htm : WalkModel I.E H.tm) (hE : Regular I.E)
    (π : Idx gs → K) (hp : PriorMass I.E.cell H.S.prior π) (hn : H.S.prior.isArray = false)
    {n : ℕ} (τ : Fin (n + 1) → K) (hts : I.ts = List.ofFn τ)
    (L : Fin (n + 1) → Idx gs → K) (hls : I.liks = List.ofFn L) (hL0 : ∀ i x, 0 ≤ L i x) (hmode : WalkMode I τ)
    (hg : createHyperGrid H.tm I.ts = .ok g) (hps : g.priors = some ps) (hnn : ∀ p ∈ ps, 0 ≤ p) (hr : 1 < g.rows.length)
    (h : hyperFit I nJobs H = .ok (some R)) (hpos : R.S.logEv ≠ LogV.ninf) (n1 n2 : String) (v1 v2 : HVal K) (a b : ℕ) (hab : a ≠ b)
    (he1 : (entries H.tm)[a]? = some (n1, v1)) (he2 : (entries H.tm)[b]? = some (n2, v2)) (hv1 : (valuesOf I.ts v1).Nodup) (hv2 : (valuesOf I.ts v2).Nodup)
    (hl1 : 2 ≤ (valuesOf I.ts v1).length) (hl2 : 2 ≤ (valuesOf I.ts v2).length) :
    ∃ D D' Z, R.hpd = some D ∧ getJHPD H.tm g D [n1, n2] = (D', .ok (expandAll I.ts v1, expandAll I.ts v2, Z)) ∧
      Z.shape = [(valuesOf I.ts v1).length, (valuesOf I.ts v2).length] ∧
      ∀ (i j : ℕ) s t, (valuesOf I.ts v1)[i]? = some s → (valuesOf I.ts v2)[j]? = some t → Z.get [i, j] =
        overAll g.rows ps (fun r => if r[a]? = some s ∧ r[b]? = some t then rowEvidence I.E π H.tm τ L r else 0) / overAll g.rows ps (rowEvidence I.E π H.tm τ L) := by
  obtain ⟨⟨D, d1, d2, d3⟩, -⟩ := C119_partial I nJobs H R g ps hb hsp htm hE π hp hn τ hts L hls hL0 hmode hg hps hnn hr h hpos
  have hpr := (Built.matched hb).proper
  have hnd := hyperFit_nodup hb hsp hn hg hps hr h
  obtain ⟨As, b1, -, b2, -⟩ := C29_partial I nJobs H R g ps hb hsp hn hg hps hr h
  have c6 : ps.length = g.rows.length := b2.trans b1.length_eq.symm
  obtain ⟨D', Z, a1, a2, a3, -⟩ := C36_partial H.tm I.ts g D n1 n2 v1 v2 a b hpr hnd hg hr d2 hab he1 he2 hv1 hv2 hl1 hl2
  refine ⟨D, D', Z, d1, a1, a2, fun i j s t hs ht => ?_⟩
  rw [a3 i j s t hs ht]
  have := sum_pick_all (fun r => r[a]? = some s ∧ r[b]? = some t) (rowEvidence I.E π H.tm τ L) (overAll g.rows ps (rowEvidence I.E π H.tm τ L)) (g.rows.zip ps)
  unfold overAll at this ⊢
  rw [← this, ← zip_self_map (fun q => q.2 * rowEvidence I.E π H.tm τ L q.1 / _) g.rows ps c6, ← overAll, ← d3, probOf₂, List.zip_map_right, List.filter_map, List.map_map]
  rfl

/-- **C119, parameter estimates.** In the same setting, after a full fit with time stamps one unit apart, the posterior distribution stored for every time step sums to one and differs by at most `ε` (the code's `10^-300`) times the number of
grid points from the exact one, which averages the posterior distributions for given hyper-parameter values with the posterior probabilities of the hyper-parameter values; the reported mean values are the means of the stored distributions. -/
theorem C119_average_partial (I : FitIn K gs) (nJobs : ℕ) (H R : HState K gs) (g : HyperGrid K) (ps : List K) (hb : Built H.tm)
    (hsp : " " ∉ (entries H.tm).map (·.1)) (htm : WalkModel I.E H.tm) (hE : Regular I.E)
    (π : Idx gs → K) (hp : PriorMass I.E.cell H.S.prior π) (hn : H.S.prior.isArray = false)
    {n : ℕ} (τ : Fin (n + 1) → K) (hU : ∀ i : Fin n, τ i.succ = τ i.castSucc + 1) (hts : I.ts = List.ofFn τ)
    (L : Fin (n + 1) → Idx gs → K) (hls : I.liks = List.ofFn L) (hL0 : ∀ i x, 0 ≤ L i x)
    (hfo : I.forwardOnly = false) (heo : I.evidenceOnly = false) (hε : 0 < I.ε)
    (hg : createHyperGrid H.tm I.ts = .ok g) (hps : g.priors = some ps) (hnn : ∀ p ∈ ps, 0 ≤ p) (hr : 1 < g.rows.length)
    (h : hyperFit I nJobs H = .ok (some R)) (hpos : R.S.logEv ≠ LogV.ninf) :
    ∃ P : Fin (n + 1) → Idx gs → K, R.S.posts = List.ofFn (fun i => .val (P i)) ∧
      (∀ a, R.S.means a = List.ofFn fun i => ∑ x, P i x * I.grid a (x a)) ∧ ∀ i, ∑ x, P i x = 1 ∧ ∀ x,
        |P i x - overAll g.rows ps (fun r => rowEvidence I.E π H.tm τ L r * rowPosterior I.E π H.tm τ L r i x) /
          overAll g.rows ps (rowEvidence I.E π H.tm τ L)| ≤ (Fintype.card (Idx gs) : K) * I.ε := by
  have := hE.nonempty
  have hpr := (Built.matched hb).proper
  have hnd := hyperFit_nodup hb hsp hn hg hps hr h
  have hlen := rows_length hpr hg
  have hπ0 : ∀ x, 0 ≤ π x := priorMass_nonneg (Finset.prod_pos fun a _ => hE.lattice_pos a) hp
  have hN : I.liks.length = n + 1 := by rw [hls, List.length_ofFn]
  have hofFn : ∀ {β : Type} (F : ℕ → β), (List.range I.liks.length).map F = List.ofFn fun i : Fin (n + 1) => F i := by
    intro β F
    refine List.ext_getElem (by simp [hN]) fun k h1 h2 => ?_
    rw [List.getElem_map, List.getElem_range, List.getElem_ofFn]
  obtain ⟨-, -, h3⟩ := hyper_exact I nJobs H R g ps hb hsp hE hn hg hps hnn hr h hpos (rowEvidence I.E π H.tm τ L)
    fun r hr A hA => walk_evidence I H hE htm hnd π hp τ hts L hls hL0 (.inr (.inr hU)) (hlen r hr) hA
  obtain ⟨P, p1, p2, p3, p4⟩ := h3 heo hε
  refine ⟨fun i => P i, by rw [p1, hofFn], fun a => by rw [p2, hofFn], fun i => ⟨p3 i (by omega), ?_⟩⟩
  refine p4 i (by omega) (fun r => rowPosterior I.E π H.tm τ L r i) ?_
  intro r hr A hA h0
  obtain ⟨w1, w2⟩ := modelAt_walk htm hnd (hlen r hr)
  obtain ⟨q1, q2⟩ := posterior_dist I.E hE.gauss π hπ0 τ L hL0 h0 i
  refine ⟨q1, q2, fun x => ?_⟩
  obtain ⟨S', f1, f2⟩ := C04_smoothing I.E I.grid _ hE w1 H.S π hp (.inl w2) L hL0 τ hU h0
  unfold singleFit at hA
  rw [hls, hts, hfo, heo, f1] at hA
  cases hA
  unfold postOf
  rw [f2, List.getElem?_ofFn, dif_pos i.2]
  rfl

/-- **C119, forward-only fits.** In the same setting (time stamps arbitrary), after a forward-only fit the distribution stored for the last time step differs by at most `ε` times the number of grid points from the exact posterior distribution.  Distributions of
earlier time steps are averaged with the final probabilities of the hyper-parameter values (`C101_hyper_refuted`). -/
theorem C119_forward_partial (I : FitIn K gs) (nJobs : ℕ) (H R : HState K gs) (g : HyperGrid K) (ps : List K) (hb : Built H.tm)
    (hsp : " " ∉ (entries H.tm).map (·.1)) (htm : WalkModel I.E H.tm) (hE : Regular I.E)
    (π : Idx gs → K) (hp : PriorMass I.E.cell H.S.prior π) (hn : H.S.prior.isArray = false)
    {n : ℕ} (τ : Fin (n + 1) → K) (hts : I.ts = List.ofFn τ)
    (L : Fin (n + 1) → Idx gs → K) (hls : I.liks = List.ofFn L) (hL0 : ∀ i x, 0 ≤ L i x)
    (hfo : I.forwardOnly = true) (heo : I.evidenceOnly = false) (hε : 0 < I.ε)
    (hg : createHyperGrid H.tm I.ts = .ok g) (hps : g.priors = some ps) (hnn : ∀ p ∈ ps, 0 ≤ p) (hr : 1 < g.rows.length)
    (h : hyperFit I nJobs H = .ok (some R)) (hpos : R.S.logEv ≠ LogV.ninf) :
    ∃ p : Idx gs → K, R.S.posts.getLast? = some (.val p) ∧ (∀ a, (R.S.means a).getLast? = some (∑ x, p x * I.grid a (x a))) ∧ ∑ x, p x = 1 ∧ ∀ x,
        |p x - overAll g.rows ps (fun r => rowEvidence I.E π H.tm τ L r * rowPosterior I.E π H.tm τ L r (Fin.last n) x) /
          overAll g.rows ps (rowEvidence I.E π H.tm τ L)| ≤ (Fintype.card (Idx gs) : K) * I.ε := by
  have := hE.nonempty
  have hpr := (Built.matched hb).proper
  have hnd := hyperFit_nodup hb hsp hn hg hps hr h
  have hlen := rows_length hpr hg
  have hπ0 : ∀ x, 0 ≤ π x := priorMass_nonneg (Finset.prod_pos fun a _ => hE.lattice_pos a) hp
  have hN : I.liks.length = n + 1 := by rw [hls, List.length_ofFn]
  obtain ⟨-, -, h3⟩ := hyper_exact I nJobs H R g ps hb hsp hE hn hg hps hnn hr h hpos (rowEvidence I.E π H.tm τ L)
    fun r hr A hA => walk_evidence I H hE htm hnd π hp τ hts L hls hL0 (.inr (.inl hfo)) (hlen r hr) hA
  obtain ⟨P, p1, p2, p3, p4⟩ := h3 heo hε
  refine ⟨P n, by rw [p1, hN, List.range_succ]; simp, fun a => by rw [p2, hN, List.range_succ]; simp, p3 n (by omega), ?_⟩
  refine p4 n (by omega) (fun r => rowPosterior I.E π H.tm τ L r (Fin.last n)) ?_
  intro r hr A hA h0
  obtain ⟨w1, w2⟩ := modelAt_walk htm hnd (hlen r hr)
  obtain ⟨q1, q2⟩ := posterior_dist I.E hE.gauss π hπ0 τ L hL0 h0 (Fin.last n)
  refine ⟨q1, q2, fun x => ?_⟩
  obtain ⟨S', f1, f2⟩ := C03_filtering I.E I.grid _ hE w1 H.S π hp (.inl w2) L hL0 τ h0
  unfold singleFit at hA
  rw [hls, hts, hfo, heo, f1] at hA
  cases hA
  unfold postOf
  rw [f2, List.getElem?_ofFn, dif_pos (by omega)]
  rfl

end Props

namespace Ex
open BL Spec

/-- random walk with uncertain standard deviation between two static periods; both structural breaks are uncertain -/
def hbArgs : List (TM ℚ) := [mkStatic, mkBreakPoint "t1" (.list [0, 1]) (.item .none), .leaf (.grw "x") ["s"] [.array [0, 1]] (some (.item .none)),
  mkBreakPoint "t2" (.list [2, 3]) (.item .none), mkStatic]
/-- the model returned by the constructor -/
def hbTM : TM ℚ := .serial ["t1", "t2"] [.array [0, 1], .array [2, 3]] [.item .none, .item .none] [false, false]
  [mkStatic, .leaf (.grw "x") ["s"] [.array [0, 1]] (some (.item .none)), mkStatic]
/-- study with a prior given as function -/
def hbStudy : HState ℚ gs2 := ⟨hbTM, S0 (.func (v2 1 2)), [], none⟩

end Ex

namespace Props
open BL Spec

theorem Ex.hb_built : Built Ex.hbTM := by
  refine .serial (args := Ex.hbArgs) ?_ rfl
  intro a ha hn
  simp only [Ex.hbArgs, List.mem_cons, List.not_mem_nil, or_false] at ha
  rcases ha with rfl | rfl | rfl | rfl | rfl
  · exact .static
  · exact absurd ⟨_, _, _, rfl, trivial, rfl⟩ hn
  · exact .grw (name := "s") (value := .list [0, 1]) (target := some "x") (prior := .item .none) rfl trivial rfl
  · exact absurd ⟨_, _, _, rfl, trivial, rfl⟩ hn
  · exact .static

theorem Ex.hb_walk : WalkModel Ex.brkFull.E Ex.hbTM :=
  ⟨rfl, by decide, rfl, trivial, ⟨⟨0, Ex.axis_x _ _⟩, rfl, rfl⟩, trivial, trivial⟩

/-- Concrete case: two structural breaks and the standard deviation of a random walk uncertain, a prior that is not flat, grid cells of volume 2, eight combinations, two jobs; all theorems apply. -/
example : ∃ g ps R D, createHyperGrid Ex.hbTM Ex.brkFull.ts = .ok g ∧ g.priors = some ps ∧ g.rows.length = 8 ∧
    hyperFit Ex.brkFull 2 Ex.hbStudy = .ok (some R) ∧ R.hpd = some D ∧ R.S.logEv.exp = ((g.rows.zip ps).map fun q => (q.2 * g.hgc.prod) * rowEvidence Ex.brkFull.E Ex.brkPrior Ex.hbTM Ex.brkTimes Ex.cpLik q.1).sum ∧
    (∃ D' A, getHPD Ex.hbTM g D "s" = (D', .ok (.array [0, 1], A)) ∧ A.flat = [0, 1].map fun t : ℚ =>
      overAll g.rows ps (fun r => if r[0]? = some t then rowEvidence Ex.brkFull.E Ex.brkPrior Ex.hbTM Ex.brkTimes Ex.cpLik r else 0) /
        overAll g.rows ps (rowEvidence Ex.brkFull.E Ex.brkPrior Ex.hbTM Ex.brkTimes Ex.cpLik)) ∧
    (∃ D' Z, getJHPD Ex.hbTM g D ["t2", "s"] = (D', .ok (.array [2, 3], .array [0, 1], Z)) ∧ Z.shape = [2, 2]) ∧
    (∃ P : Fin 4 → Idx Ex.gs2 → ℚ, R.S.posts = List.ofFn (fun i => .val (P i)) ∧ ∀ i, ∑ x, P i x = 1) ∧
    ∃ R' p, hyperFit { Ex.brkFull with forwardOnly := true } 2 Ex.hbStudy = .ok (some R') ∧ R'.S.posts.getLast? = some (.val p) ∧ ∑ x, p x = 1 := by
  obtain ⟨R, h1, h2⟩ := Ex.Ok_iff.1 (show Ex.Ok (hyperFit Ex.brkFull 2 Ex.hbStudy) (fun R => decide (R.S.logEv.exp ≠ 0)) = true by decide +kernel)
  obtain ⟨R', h1', h2'⟩ := Ex.Ok_iff.1 (show Ex.Ok (hyperFit { Ex.brkFull with forwardOnly := true } 2 Ex.hbStudy) (fun R => decide (R.S.logEv.exp ≠ 0)) = true by decide +kernel)
  have hf : ∀ g, createHyperGrid Ex.hbTM Ex.brkFull.ts = .ok g → g.rows.length = 8 := by
    intro g hg
    cases hg
    decide +kernel
  have hps : ∀ g, createHyperGrid Ex.hbTM Ex.brkFull.ts = .ok g → ∃ ps, g.priors = some ps ∧ ∀ p ∈ ps, 0 ≤ p := by
    intro g hg
    cases hg
    exact ⟨List.replicate 8 (1 / 8), by decide +kernel, by decide +kernel⟩
  obtain ⟨g, hg⟩ : ∃ g, createHyperGrid Ex.hbTM Ex.brkFull.ts = .ok g := ⟨_, rfl⟩
  have hpos : R.S.logEv ≠ LogV.ninf := fun h0 => (of_decide_eq_true h2) (by rw [h0]; rfl)
  have hpos' : R'.S.logEv ≠ LogV.ninf := fun h0 => (of_decide_eq_true h2') (by rw [h0]; rfl)
  obtain ⟨ps, hp1, hp2⟩ := hps g hg
  have hE : Regular Ex.brkFull.E := Ex.regular2 (by norm_num)
  have hpm : PriorMass Ex.brkFull.E.cell Ex.hbStudy.S.prior Ex.brkPrior := .func _ (by decide +kernel) (by decide +kernel) (.inl (by decide +kernel))
  have hU : ∀ i : Fin 3, Ex.brkTimes i.succ = Ex.brkTimes i.castSucc + 1 := by decide +kernel
  have hr : 1 < g.rows.length := by rw [hf g hg]; norm_num
  have hL0 : ∀ i x, 0 ≤ Ex.cpLik i x := fun i x => (Ex.cpLik_pos i x).le
  obtain ⟨-, e2⟩ := C119_partial Ex.brkFull 2 Ex.hbStudy R g ps Ex.hb_built (by decide) Ex.hb_walk hE Ex.brkPrior hpm rfl Ex.brkTimes rfl Ex.cpLik rfl hL0
    (.inr (.inr hU)) hg hp1 hp2 hr h1 hpos
  obtain ⟨D, D', A, a1, a2, a3⟩ := C119_query_partial Ex.brkFull 2 Ex.hbStudy R g ps Ex.hb_built (by decide) Ex.hb_walk hE Ex.brkPrior hpm rfl Ex.brkTimes rfl Ex.cpLik rfl hL0
    (.inr (.inr hU)) hg hp1 hp2 hr h1 hpos "s" (.array [0, 1]) 0 rfl (by decide +kernel)
  obtain ⟨D2, D3, Z, j1, j2, j3, -⟩ := C119_joint_partial Ex.brkFull 2 Ex.hbStudy R g ps Ex.hb_built (by decide) Ex.hb_walk hE Ex.brkPrior hpm rfl Ex.brkTimes rfl Ex.cpLik rfl hL0
    (.inr (.inr hU)) hg hp1 hp2 hr h1 hpos "t2" "s" (.array [2, 3]) (.array [0, 1]) 2 0 (by decide) rfl rfl (by decide +kernel) (by decide +kernel) (by decide) (by decide)
  rw [a1] at j1
  cases j1
  obtain ⟨P, q1, -, q3⟩ := C119_average_partial Ex.brkFull 2 Ex.hbStudy R g ps Ex.hb_built (by decide) Ex.hb_walk hE Ex.brkPrior hpm rfl Ex.brkTimes hU rfl Ex.cpLik rfl hL0 rfl rfl
    (show (0 : ℚ) < 1 / 1000 by norm_num) hg hp1 hp2 hr h1 hpos
  obtain ⟨p, f1, -, f3, -⟩ := C119_forward_partial { Ex.brkFull with forwardOnly := true } 2 Ex.hbStudy R' g ps Ex.hb_built (by decide) Ex.hb_walk hE Ex.brkPrior hpm rfl Ex.brkTimes rfl Ex.cpLik rfl hL0 rfl rfl
    (show (0 : ℚ) < 1 / 1000 by norm_num) hg hp1 hp2 hr h1' hpos'
  exact ⟨g, ps, R, D, hg, hp1, hf g hg, h1, a1, e2, ⟨D', A, a2, a3⟩, ⟨D3, Z, j2, j3⟩, ⟨P, q1, fun i => (q3 i).1⟩, R', p, h1', f1, f3⟩

end Props
