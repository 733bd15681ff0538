import Verif.Lemmas.Changepoint
import Verif.Lemmas.Duration
import Verif.Props.C32

/-! # C38, C39: change-point studies -/

set_option linter.unusedSectionVars false

namespace Props
open BL Spec

variable {K : Type} [Field K] [LinearOrder K] [IsStrictOrderedRing K] {d : ℕ} {gs : Fin d → ℕ}

/-- the stored distribution for given evidences and prior values -/
theorem dist_spec {As : List (FitState K gs)} {ps hgc : List K} (hl : ps.length = As.length) (hev0 : ∀ A ∈ As, 0 ≤ A.logEv.exp)
    (hnn : ∀ p ∈ ps, 0 ≤ p) (hc : 0 ≤ hgc.prod) {T : K} (hT : T = (joint (As.map FitState.logEv) ps hgc).sum) (hT0 : T ≠ 0) :
    ∃ D, hyperDist (As.map FitState.logEv) ps hgc = some D ∧ D.length = As.length ∧
      D.map (· * hgc.prod) = (As.zip ps).map (fun q => q.1.logEv.exp * (q.2 * hgc.prod) / T) ∧ (D.map (· * hgc.prod)).sum = 1 := by
  have hj0 : ∀ w ∈ joint (As.map FitState.logEv) ps hgc, 0 ≤ w := by
    intro w hw
    rw [joint_eq] at hw
    obtain ⟨q, hq, rfl⟩ := List.mem_map.1 hw
    exact mul_nonneg (mul_nonneg (hev0 _ (List.of_mem_zip hq).1) (hnn _ (List.of_mem_zip hq).2)) hc
  have hex : ∃ w ∈ joint (As.map FitState.logEv) ps hgc, 0 < w := by
    by_contra hno
    push Not at hno
    apply hT0
    rw [hT]
    exact List.sum_eq_zero fun w hw => le_antisymm (hno w hw) (hj0 w hw)
  have hc0 : hgc.prod ≠ 0 := by
    intro h0
    obtain ⟨w, hw, hwp⟩ := hex
    rw [joint_eq] at hw
    obtain ⟨q, hq, rfl⟩ := List.mem_map.1 hw
    rw [h0, mul_zero] at hwp
    exact lt_irrefl _ hwp
  have hD := hyperDist_eq hj0 hex
  rw [← hT] at hD
  have hW : ((joint (As.map FitState.logEv) ps hgc).map fun w => w / T / hgc.prod).map (· * hgc.prod) =
      (As.zip ps).map (fun q => q.1.logEv.exp * (q.2 * hgc.prod) / T) := by
    rw [joint_eq, List.map_map, List.map_map]
    apply List.map_congr_left
    intro q _
    simp only [Function.comp]
    rw [div_mul_cancel₀ _ hc0, mul_assoc]
  refine ⟨_, hD, by simp [joint, hl], hW, ?_⟩
  rw [hW]
  have : (As.zip ps).map (fun q => q.1.logEv.exp * (q.2 * hgc.prod) / T) =
      ((As.zip ps).map fun q => q.1.logEv.exp * q.2 * hgc.prod).map fun x => x / T := by
    rw [List.map_map]
    apply List.map_congr_left
    intro q _
    simp only [Function.comp, mul_assoc]
  rw [this, sum_div_list, ← joint_eq, ← hT, div_self hT0]

/-- the mask keeps the rows in order -/
theorem cp_mask {tm : TM K} {ts : List K} {g : HyperGrid K} (hp : Proper tm) (hg : createHyperGrid tm ts = .ok g)
    (hnd : ((entries tm).map (·.1)).Nodup)
    (h1 : ¬ ((flatten tm.cpNameTree).length > 0 ∧ (flatten tm.bpNameTree).length > 0)) :
    g.rows.map (fun x => ordered (if (flatten tm.cpNameTree).length > 0 then flatten tm.cpNameTree else flatten tm.bpNameTree).length
      (pointValues g.names (if (flatten tm.cpNameTree).length > 0 then flatten tm.cpNameTree else flatten tm.bpNameTree) x)) =
    g.rows.map fun x => decide (InOrder tm x) := by
  obtain ⟨-, e2, -, e4⟩ := createHyperGrid_eq hp hg
  set points := if (flatten tm.cpNameTree).length > 0 then flatten tm.cpNameTree else flatten tm.bpNameTree with hpt
  have hsub : points.Sublist g.names := by
    rw [e2, ← entries_names tm hp, hpt]
    split
    · exact cpNames_sub tm hp
    · exact bpNames_sub tm hp
  have hmem : ∀ n, n ∈ pointNames tm ↔ n ∈ points := by
    intro n
    rw [pointNames_mem, hpt]
    split
    · rename_i hc
      have : flatten tm.bpNameTree = [] := List.length_eq_zero_iff.1 (by omega)
      simp [this]
    · rename_i hc
      have : flatten tm.cpNameTree = [] := List.length_eq_zero_iff.1 (by omega)
      simp [this]
  apply List.map_congr_left
  intro x hx
  have hlx : x.length = g.names.length := by
    rw [e4] at hx
    split at hx
    · simp at hx
    · rw [cart_mem] at hx
      rw [hx.length_eq, axes, List.length_map, e2, List.length_map]
  have hv : pointValues g.names points x = pointsOf tm x := by
    rw [pointValues, pointsOf, e2]
    congr 1
    apply List.filter_congr
    intro p _
    simp [hmem]
  have := ordered_iff points.length (pointValues g.names points x) (pointValues_length hsub (by rw [e2]; exact hnd) hlx)
  rw [hv] at this ⊢
  rw [Bool.eq_iff_iff, this, decide_eq_true_iff]
  rfl

/-- what a change-point study computes, in terms of the rows in order -/
theorem cpFit_full (I : FitIn K gs) (nJobs : ℕ) (H : HState K gs) (C : CState K gs) (g : HyperGrid K) (ps : List K) (hb : Built H.tm)
    (hsp : " " ∉ (entries H.tm).map (·.1)) (hn : H.S.prior.isArray = false)
    (hg : createHyperGrid H.tm I.ts = .ok g) (hps : g.priors = some ps)
    (hr : 1 < (g.rows.filter fun r => decide (InOrder H.tm r)).length) (h : cpFit I nJobs H = .ok (some C)) :
    ∃ As qs hpd,
      C.allRows = g.rows ∧ C.grid.rows = g.rows.filter (fun r => decide (InOrder H.tm r)) ∧ C.grid.hgc = g.hgc ∧
      qs = (select (g.rows.map fun r => decide (InOrder H.tm r)) ps).map
        (· * (ps.sum / (select (g.rows.map fun r => decide (InOrder H.tm r)) ps).sum)) ∧
      (select (g.rows.map fun r => decide (InOrder H.tm r)) ps).sum ≠ 0 ∧ ps.length = g.rows.length ∧
      C.grid.priors = some (scatter (g.rows.map fun r => decide (InOrder H.tm r)) qs) ∧
      Singles I H (g.rows.filter fun r => decide (InOrder H.tm r)) As ∧ qs.length = As.length ∧ C.R.evs = As.map FitState.logEv ∧
      hpd = hyperDist (As.map FitState.logEv) qs g.hgc ∧ C.R.hpd = hpd.map (scatter (g.rows.map fun r => decide (InOrder H.tm r))) ∧
      C.R.S.logEv = hyperEvidence (As.map FitState.logEv) qs g.hgc ∧ C.R.tm.flatNames = H.tm.flatNames ∧
      (I.evidenceOnly = false → C.R.S.posts = finishAvg (rep I.liks.length (List.zipWith (contrib I.ε) As qs).sum) ∧
        C.R.S.means = fun a => C.R.S.posts.filterMap fun c => c.get?.map (mean I.grid a)) := by
  have hm := Built.matched hb
  have hp := hm.proper
  obtain ⟨e1, e2, -, e4⟩ := Props.createHyperGrid_eq hp hg
  have hne : entries H.tm ≠ [] := by
    intro h0
    rw [if_pos h0] at e4
    rw [e4] at hr
    simp at hr
  rw [if_neg hne] at e4
  unfold cpFit at h
  split at h
  · cases h
  simp only at h
  split at h
  · cases h
  rename_i hnb
  split at h
  · cases h
  rw [hg] at h
  simp only [bind, Except.bind] at h
  split at h
  · cases h
  rename_i hd
  have hnd : ((entries H.tm).map (·.1)).Nodup := by
    rw [← entries_names H.tm hp]
    exact (Props.duplicates_eq_nil _).1 (List.length_eq_zero_iff.1 (by omega))
  rw [cp_mask hp hg hnd hnb, hps, select_map] at h
  simp only at h
  have hw : WellNamed H.tm := ⟨hp, hnd, hsp⟩
  have hpl := weights_len hm hne hg hps
  have hlen : ∀ r ∈ g.rows.filter (fun r => decide (InOrder H.tm r)), r.length = (entries H.tm).length := by
    intro r hr
    have hr := (List.mem_filter.1 hr).1
    rw [e4, cart_mem] at hr
    rw [hr.length_eq, axes, List.length_map]
  have hfl : g.flat.length = (entries H.tm).length := by rw [e1, List.length_map, entries_values H.tm hp, List.length_map]
  have hfp : ∀ v ∈ g.flat, Plain v := by
    intro v hv
    rw [e1] at hv
    obtain ⟨w, hw, rfl⟩ := List.mem_map.1 hv
    exact expandAll_plain (entries_plain H.tm hp w hw)
  have hsl := select_length (fun r => decide (InOrder H.tm r)) g.rows ps hpl
  unfold rescaled at h
  simp only at h
  by_cases hs : (select (g.rows.map fun r => decide (InOrder H.tm r)) ps).sum = 0
  · rw [if_pos hs] at h
    cases h
  rw [if_neg hs] at h
  simp only at h
  set qs := (select (g.rows.map fun r => decide (InOrder H.tm r)) ps).map
        (· * (ps.sum / (select (g.rows.map fun r => decide (InOrder H.tm r)) ps).sum)) with hqs
  have hql : qs.length = (g.rows.filter fun r => decide (InOrder H.tm r)).length := by rw [hqs, List.length_map, hsl]
  have hcore := hyperCore_spec I nJobs g.flat _ g.hgc qs H hw hn hr hql hlen hfl hfp
  cases hA : mapE (singleFit I H.tm H.S) (g.rows.filter fun r => decide (InOrder H.tm r)) with
  | error e =>
      rw [hA] at hcore
      simp only at hcore
      rw [hcore] at h
      cases h
  | ok As =>
      rw [hA] at hcore
      simp only at hcore
      obtain ⟨R, r0, r1, r2, r3, r4, r5, r6, r7, r8⟩ := hcore
      have hS := mapE_ok.1 hA
      have hnames : R.tm.flatNames = H.tm.flatNames := by rw [r5, TM.flatNames, nameTree_withValues]; rfl
      rw [r0] at h
      simp only at h
      cases hh : R.hpd with
      | none =>
          rw [hh] at h
          simp only [Except.ok.injEq, Option.some.injEq] at h
          subst h
          refine ⟨As, qs, none, rfl, rfl, rfl, rfl, hs, hpl, rfl, hS, by rw [hql, hS.length_eq], r1, by rw [← r2, hh], rfl, r3, hnames, r8⟩
      | some l =>
          rw [hh] at h
          simp only at h
          by_cases hll : l.length = (g.rows.filter fun r => decide (InOrder H.tm r)).length
          · rw [if_pos hll] at h
            simp only [Except.ok.injEq, Option.some.injEq] at h
            subst h
            refine ⟨As, qs, some l, rfl, rfl, rfl, rfl, hs, hpl, rfl, hS, by rw [hql, hS.length_eq], r1, by rw [← r2, hh], rfl, r3, hnames, r8⟩
          · rw [if_neg hll] at h
            cases h

theorem cpFit_spec (I : FitIn K gs) (nJobs : ℕ) (H : HState K gs) (C : CState K gs) (g : HyperGrid K) (ps : List K) (hb : Built H.tm)
    (hsp : " " ∉ (entries H.tm).map (·.1)) (hn : H.S.prior.isArray = false)
    (hg : createHyperGrid H.tm I.ts = .ok g) (hps : g.priors = some ps)
    (hr : 1 < (g.rows.filter fun r => decide (InOrder H.tm r)).length) (h : cpFit I nJobs H = .ok (some C)) :
    ∃ As qs hpd,
      C.allRows = g.rows ∧ C.grid.rows = g.rows.filter (fun r => decide (InOrder H.tm r)) ∧ C.grid.hgc = g.hgc ∧
      qs = (select (g.rows.map fun r => decide (InOrder H.tm r)) ps).map
        (· * (ps.sum / (select (g.rows.map fun r => decide (InOrder H.tm r)) ps).sum)) ∧
      (select (g.rows.map fun r => decide (InOrder H.tm r)) ps).sum ≠ 0 ∧ ps.length = g.rows.length ∧
      C.grid.priors = some (scatter (g.rows.map fun r => decide (InOrder H.tm r)) qs) ∧
      Singles I H (g.rows.filter fun r => decide (InOrder H.tm r)) As ∧ qs.length = As.length ∧ C.R.evs = As.map FitState.logEv ∧
      hpd = hyperDist (As.map FitState.logEv) qs g.hgc ∧ C.R.hpd = hpd.map (scatter (g.rows.map fun r => decide (InOrder H.tm r))) ∧
      C.R.S.logEv = hyperEvidence (As.map FitState.logEv) qs g.hgc ∧ C.R.tm.flatNames = H.tm.flatNames := by
  obtain ⟨As, qs, hpd, c1, c2, c3, c4, c5, c6, c7, c8, c9, c10, c11, c12, c13, c14, -⟩ := cpFit_full I nJobs H C g ps hb hsp hn hg hps hr h
  exact ⟨As, qs, hpd, c1, c2, c3, c4, c5, c6, c7, c8, c9, c10, c11, c12, c13, c14⟩

/-- **C38 (part that holds: the prior of the parameters is not a numpy array, more than one combination is in order).** Every change-point study, any number of
change- or break-points and other hyper-parameters: exactly the rows of the full hyper-grid in which the points increase strictly are analysed (one plain
fit each), their prior values are the original ones times one common factor, the other rows get prior value zero, the total prior mass stays the same,
and the evidence is the sum over the rows in order of evidence times prior probability. -/
theorem C38_partial (I : FitIn K gs) (nJobs : ℕ) (H : HState K gs) (C : CState K gs) (g : HyperGrid K) (ps : List K) (hb : Built H.tm)
    (hsp : " " ∉ (entries H.tm).map (·.1)) (hn : H.S.prior.isArray = false)
    (hg : createHyperGrid H.tm I.ts = .ok g) (hps : g.priors = some ps)
    (hr : 1 < (g.rows.filter fun r => decide (InOrder H.tm r)).length) (h : cpFit I nJobs H = .ok (some C)) :
    C.allRows = g.rows ∧ C.grid.rows = g.rows.filter (fun r => decide (InOrder H.tm r)) ∧
    ∃ (As : List (FitState K gs)) (qs Q : List K), Singles I H C.grid.rows As ∧ C.R.evs = As.map FitState.logEv ∧
      C.grid.priors = some Q ∧ Q.length = g.rows.length ∧ Q.sum = ps.sum ∧ (∀ p ∈ g.rows.zip Q, ¬ InOrder H.tm p.1 → p.2 = 0) ∧
      (g.rows.zip Q).filter (fun p => decide (InOrder H.tm p.1)) = C.grid.rows.zip qs ∧ qs.length = C.grid.rows.length ∧
      (∃ c, (((g.rows.zip ps).filter fun p => decide (InOrder H.tm p.1)).map fun p => p.2 * c) = qs) ∧
      C.R.S.logEv.exp = ((As.zip qs).map fun q => q.1.logEv.exp * (q.2 * g.hgc.prod)).sum := by
  obtain ⟨As, qs, hpd, c1, c2, -, c4, c5, c6, c7, c8, c9, c10, -, -, c13, -⟩ := cpFit_spec I nJobs H C g ps hb hsp hn hg hps hr h
  have hsel := select_zip (fun r => decide (InOrder H.tm r)) g.rows ps c6
  have hsl := select_length (fun r => decide (InOrder H.tm r)) g.rows ps c6
  have hql : qs.length = (g.rows.filter fun r => decide (InOrder H.tm r)).length := by rw [c4, List.length_map, hsl]
  refine ⟨c1, c2, As, qs, _, by rw [c2]; exact c8, c10, c7, by rw [scatter_length, List.length_map], ?_, ?_, ?_, by rw [c2, hql], ?_, ?_⟩
  · rw [scatter_sum _ _ _ hql, c4, List.sum_map_mul_right, List.map_id', mul_div_cancel₀ _ c5]
  · intro p hp hno
    exact scatter_zero (fun r => decide (InOrder H.tm r)) g.rows qs p hp (by simp [hno])
  · rw [scatter_zip _ _ _ hql, c2]
  · refine ⟨ps.sum / (select (g.rows.map fun r => decide (InOrder H.tm r)) ps).sum, ?_⟩
    rw [hsel, c4]
    conv_rhs => rw [← List.map_snd_zip (l₁ := g.rows.filter fun r => decide (InOrder H.tm r))
      (l₂ := select (g.rows.map fun r => decide (InOrder H.tm r)) ps) (by rw [hsl]), List.map_map]
    rw [List.map_snd_zip (by rw [hsl])]
    rfl
  · rw [c13, hyperEvidence_eq, joint_eq]
    congr 1
    apply List.map_congr_left
    intro q _
    ring

/-- **C38 (posterior, same part).** If the hyper-priors are not negative and the evidence is not zero, the stored distribution covers the full hyper-grid,
vanishes on rows not in order, is prior probability times evidence over total evidence on the others, and its total mass is one. -/
theorem C38_posterior_partial (I : FitIn K gs) (nJobs : ℕ) (H : HState K gs) (C : CState K gs) (g : HyperGrid K) (ps : List K) (hb : Built H.tm)
    (hsp : " " ∉ (entries H.tm).map (·.1)) (hn : H.S.prior.isArray = false) (hcell : 0 ≤ I.E.cell)
    (hg : createHyperGrid H.tm I.ts = .ok g) (hps : g.priors = some ps) (hnn : ∀ p ∈ ps, 0 ≤ p)
    (hr : 1 < (g.rows.filter fun r => decide (InOrder H.tm r)).length) (h : cpFit I nJobs H = .ok (some C))
    (hpos : C.R.S.logEv ≠ LogV.ninf) :
    ∃ (As : List (FitState K gs)) (qs Q D W : List K), Singles I H C.grid.rows As ∧ C.grid.priors = some Q ∧
      (g.rows.zip Q).filter (fun p => decide (InOrder H.tm p.1)) = C.grid.rows.zip qs ∧ C.R.hpd = some D ∧
      D.length = g.rows.length ∧ (D.map (· * g.hgc.prod)).sum = 1 ∧ (∀ p ∈ g.rows.zip D, ¬ InOrder H.tm p.1 → p.2 = 0) ∧
      (g.rows.zip (D.map (· * g.hgc.prod))).filter (fun p => decide (InOrder H.tm p.1)) = C.grid.rows.zip W ∧
      W = (As.zip qs).map (fun q => q.1.logEv.exp * (q.2 * g.hgc.prod) / C.R.S.logEv.exp) ∧ W.length = C.grid.rows.length := by
  obtain ⟨As, qs, hpd, c1, c2, -, c4, c5, c6, c7, c8, c9, c10, c11, c12, c13, -⟩ := cpFit_spec I nJobs H C g ps hb hsp hn hg hps hr h
  have hsl := select_length (fun r => decide (InOrder H.tm r)) g.rows ps c6
  have hql : qs.length = (g.rows.filter fun r => decide (InOrder H.tm r)).length := by rw [c4, List.length_map, hsl]
  have hc := hgc_nonneg (Built.matched hb).proper hg
  have hev0 : ∀ A ∈ As, 0 ≤ A.logEv.exp := by
    intro A hA
    obtain ⟨row, -, hs⟩ := Singles.mem c8 hA
    exact fit_ev_nonneg hcell hs
  have hsel := select_zip (fun r => decide (InOrder H.tm r)) g.rows ps c6
  have hsn : ∀ p ∈ select (g.rows.map fun r => decide (InOrder H.tm r)) ps, 0 ≤ p := by
    intro p hp
    have h2 := List.map_snd_zip (l₁ := g.rows.filter fun r => decide (InOrder H.tm r))
      (l₂ := select (g.rows.map fun r => decide (InOrder H.tm r)) ps) (by rw [hsl])
    rw [← h2, ← hsel] at hp
    obtain ⟨q, hq, rfl⟩ := List.mem_map.1 hp
    exact hnn _ (List.of_mem_zip (List.mem_filter.1 hq).1).2
  have hqn : ∀ p ∈ qs, 0 ≤ p := by
    intro p hp
    rw [c4] at hp
    obtain ⟨q, hq, rfl⟩ := List.mem_map.1 hp
    exact mul_nonneg (hsn q hq) (div_nonneg (List.sum_nonneg hnn) (List.sum_nonneg hsn))
  have hT : C.R.S.logEv.exp = (joint (As.map FitState.logEv) qs g.hgc).sum := by rw [c13, hyperEvidence_eq]
  have hT0 : C.R.S.logEv.exp ≠ 0 := fun h0 => hpos (LogV.ext_exp h0)
  obtain ⟨D, d1, d2, d3, d4⟩ := dist_spec c9 hev0 hqn hc hT hT0
  have hDl : D.length = (g.rows.filter fun r => decide (InOrder H.tm r)).length := by rw [d2, ← c8.length_eq]
  refine ⟨As, qs, _, _, D.map (· * g.hgc.prod), by rw [c2]; exact c8, c7, by rw [scatter_zip _ _ _ hql, c2], by rw [c12, c11, d1]; rfl,
    by rw [scatter_length, List.length_map], ?_, ?_, ?_, d3, by rw [List.length_map, hDl, c2]⟩
  · rw [scatter_map, scatter_sum _ _ _ (by rw [List.length_map, hDl]), d4]
  · intro p hp hno
    exact scatter_zero (fun r => decide (InOrder H.tm r)) g.rows D p hp (by simp [hno])
  · rw [scatter_map]
    exact (scatter_zip (fun r => decide (InOrder H.tm r)) g.rows _ (by rw [List.length_map, hDl])).trans (by rw [c2])

/-- **C38 (settings that are refused).** A model without change- and break-points, with both kinds, or with several serial models raises the documented
exception, whatever the data; nothing is analysed. -/
theorem C38_refused (I : FitIn K gs) (nJobs : ℕ) (H : HState K gs) :
    (pointNames H.tm = [] → H.tm.serialCount ≤ 1 → cpFit I nJobs H = .error .configuration) ∧
    (1 < H.tm.serialCount → cpFit I nJobs H = .error .notImplemented) ∧
    (flatten H.tm.cpNameTree ≠ [] → flatten H.tm.bpNameTree ≠ [] → cpFit I nJobs H = .error .notImplemented) := by
  refine ⟨fun h0 hs => ?_, fun hs => ?_, fun h1 h2 => ?_⟩
  · have hc : flatten H.tm.cpNameTree = [] := List.eq_nil_iff_forall_not_mem.2 fun n hn => by
      have := (pointNames_mem n H.tm).2 (Or.inl hn)
      rw [h0] at this
      simp at this
    have hb : flatten H.tm.bpNameTree = [] := List.eq_nil_iff_forall_not_mem.2 fun n hn => by
      have := (pointNames_mem n H.tm).2 (Or.inr hn)
      rw [h0] at this
      simp at this
    unfold cpFit
    rw [if_neg (by omega)]
    simp [hc, hb]
  · unfold cpFit
    rw [if_pos hs]
  · unfold cpFit
    split
    · rfl
    · simp only
      rw [if_pos ⟨List.length_pos_iff.2 h1, List.length_pos_iff.2 h2⟩]

/-! ## C39 -/

/-- in a row in order, the later point of the model has the larger value -/
theorem inOrder_lt {tm : TM K} {row : List K} (ho : InOrder tm row) (hl : row.length = (entries tm).length) {n m : String}
    (hn : n ∈ pointNames tm) (hm : m ∈ pointNames tm) (hnm : ((entries tm).map (·.1)).idxOf n < ((entries tm).map (·.1)).idxOf m)
    (hme : m ∈ (entries tm).map (·.1)) :
    valueIn tm row n < valueIn tm row m := by
  unfold InOrder pointsOf at ho
  rw [List.pairwise_map, List.pairwise_filter, List.pairwise_iff_getElem] at ho
  have h2 := List.idxOf_lt_length_iff.2 hme
  have h1 := hnm.trans h2
  have hlen : (((entries tm).map (·.1)).zip row).length = ((entries tm).map (·.1)).length := by simp [hl]
  have := ho _ _ (by rw [hlen]; exact h1) (by rw [hlen]; exact h2) hnm
  simp only [List.getElem_zip, List.getElem_idxOf, decide_eq_true_eq] at this
  have h3 := this hn hm
  unfold valueIn
  rw [List.length_map] at h1 h2
  rw [List.getD, List.getD, List.getElem?_eq_getElem (by omega), List.getElem?_eq_getElem (by omega)]
  exact h3

/-- rows of the hyper-grid have one entry per hyper-parameter -/
theorem rows_length {tm : TM K} {ts : List K} {g : HyperGrid K} (hp : Proper tm) (hg : createHyperGrid tm ts = .ok g) :
    ∀ r ∈ g.rows, r.length = (entries tm).length := by
  intro r hr
  obtain ⟨-, -, -, e4⟩ := createHyperGrid_eq hp hg
  rw [e4] at hr
  split at hr
  · simp at hr
  · rw [cart_mem] at hr
    rw [hr.length_eq, axes, List.length_map]

theorem mapE_total {α β : Type} (f : α → Except PyErr β) (h : α → β) : ∀ l : List α, (∀ x ∈ l, f x = .ok (h x)) → mapE f l = .ok (l.map h)
  | [], _ => rfl
  | x :: l, hf => by
      simp only [mapE, hf x (by simp), mapE_total f h l fun y hy => hf y (by simp [hy]), bind, Except.bind, List.map_cons]

/-- points are hyper-parameters -/
theorem point_entry {tm : TM K} (hp : Proper tm) {n : String} (hn : n ∈ pointNames tm) : n ∈ (entries tm).map (·.1) := by
  rw [← entries_names tm hp]
  rcases (pointNames_mem n tm).1 hn with h | h
  · exact (cpNames_sub tm hp).subset h
  · exact (bpNames_sub tm hp).subset h

theorem sum_filter_congr {α : Type} (w : α → K) (p q : α → Bool) : ∀ L : List α, (∀ x ∈ L, p x ≠ q x → w x = 0) →
    ((L.filter p).map w).sum = ((L.filter q).map w).sum
  | [], _ => rfl
  | x :: L, h => by
      have ih := sum_filter_congr w p q L fun y hy => h y (by simp [hy])
      have hx := h x (by simp)
      cases hp : p x <;> cases hq : q x <;> simp [hp, hq] at hx <;> simp [hp, hq, ih, hx]

theorem zip_map_mul {α : Type} (c : K) (P : α → Bool) : ∀ (rows : List α) (D : List K),
    (((rows.zip (D.map (· * c))).filter fun p => P p.1).map (·.2)).sum = (((rows.zip D).filter fun p => P p.1).map (·.2)).sum * c
  | [], _ => by simp
  | _ :: _, [] => by simp
  | r :: rows, x :: D => by
      have ih := zip_map_mul c P rows D
      cases h : P r <;> simp [h, ih, add_mul]

/-- what `getDurationDistribution` computes -/
theorem getDD_spec (tm : TM K) (hp : Proper tm) (hnd : ((entries tm).map (·.1)).Nodup) (rows : List (List K)) (D : List K) (c : K) (C : CState K gs)
    (h1 : C.allRows = rows) (h2 : C.grid.rows = rows.filter fun r => decide (InOrder tm r)) (h3 : C.R.tm.flatNames = tm.flatNames)
    (hrl : ∀ r ∈ rows, r.length = (entries tm).length) (hD : D.length = rows.length) (hz : ∀ p ∈ rows.zip D, ¬ InOrder tm p.1 → p.2 = 0)
    (hsum : (D.map (· * c)).sum = 1) (n1 n2 : String) (hn1 : n1 ∈ pointNames tm) (hn2 : n2 ∈ pointNames tm) (hne : n1 ≠ n2) :
    ∃ dur : List K, dur.Pairwise (· < ·) ∧ (∀ δ, δ ∈ dur ↔ ∃ row ∈ rows, InOrder tm row ∧ distance tm n1 n2 row = δ) ∧
      (dur.map fun δ => (((rows.zip (D.map (· * c))).filter fun p => decide (distance tm n1 n2 p.1 = δ)).map (·.2)).sum).sum = 1 ∧
      (getDD C D [n1, n2] = .ok (dur, some (dur.map fun δ =>
        (((rows.zip (D.map (· * c))).filter fun p => decide (distance tm n1 n2 p.1 = δ)).map (·.2)).sum)) ∨
      getDD C D [n1, n2] = .error .indexError) ∧
      ((∀ n ∈ pointNames tm, n = n1 ∨ n = n2) → ∃ r, getDD C D [n1, n2] = .ok r) := by
  have he1 := point_entry hp hn1
  have he2 := point_entry hp hn2
  -- the earlier and the later point
  obtain ⟨n, m, hn, hm, hen, hem, hlt, hab, hdist, hex⟩ : ∃ n m, n ∈ pointNames tm ∧ m ∈ pointNames tm ∧ n ∈ (entries tm).map (·.1) ∧
      m ∈ (entries tm).map (·.1) ∧ ((entries tm).map (·.1)).idxOf n < ((entries tm).map (·.1)).idxOf m ∧
      getDD C D [n1, n2] = (do
        let diffs ← mapE (rowGap (((entries tm).map (·.1)).idxOf n) (((entries tm).map (·.1)).idxOf m)) C.grid.rows
        let dur := unique diffs
        let dd ← durationLoop dur (((entries tm).map (·.1)).idxOf n) (((entries tm).map (·.1)).idxOf m) (C.allRows.zip D) (dur.map fun _ => 0)
        .ok (dur, if dd.sum = 0 then none else some (dd.map (· / dd.sum)))) ∧
      (∀ row, distance tm n1 n2 row = |valueIn tm row m - valueIn tm row n|) ∧ (∀ k, k = n1 ∨ k = n2 → k = n ∨ k = m) := by
    have hi : ∀ x ∈ (entries tm).map (·.1), C.R.tm.hyperIndex x = .ok (((entries tm).map (·.1)).idxOf x) := by
      intro x hx
      rw [TM.hyperIndex, h3, entries_names tm hp, if_pos hx]
    have hidx : ((entries tm).map (·.1)).idxOf n1 ≠ ((entries tm).map (·.1)).idxOf n2 := by
      intro h'
      exact hne (by rw [← List.getElem_idxOf (List.idxOf_lt_length_iff.2 he1), ← List.getElem_idxOf (List.idxOf_lt_length_iff.2 he2)]; congr 1)
    by_cases hlt : ((entries tm).map (·.1)).idxOf n1 < ((entries tm).map (·.1)).idxOf n2
    · refine ⟨n1, n2, hn1, hn2, he1, he2, hlt, ?_, fun row => abs_sub_comm _ _, fun k h => h⟩
      unfold getDD
      simp only [hi n1 he1, hi n2 he2, bind, Except.bind, if_pos hlt]
    · refine ⟨n2, n1, hn2, hn1, he2, he1, by omega, ?_, fun row => rfl, fun k h => h.symm⟩
      unfold getDD
      simp only [hi n1 he1, hi n2 he2, bind, Except.bind, if_neg hlt]
  rw [hab]
  set a := ((entries tm).map (·.1)).idxOf n with ha
  set b := ((entries tm).map (·.1)).idxOf m with hb
  have hbl : b < (entries tm).length := by have := List.idxOf_lt_length_iff.2 hem; rwa [List.length_map] at this
  have hal : a < (entries tm).length := hlt.trans hbl
  have hgap : ∀ row, gap a b row = valueIn tm row m - valueIn tm row n := fun row => rfl
  have hpos : ∀ row ∈ rows, InOrder tm row → 0 < gap a b row := by
    intro row hr ho
    rw [hgap, sub_pos]
    exact inOrder_lt ho (hrl row hr) hn hm hlt hem
  have hdg : ∀ row, 0 < gap a b row → distance tm n1 n2 row = gap a b row := by
    intro row h
    rw [hdist, ← hgap, abs_of_pos h]
  have hmap : mapE (rowGap a b) C.grid.rows = .ok (C.grid.rows.map (gap a b)) := by
    apply mapE_total
    intro r hr
    rw [h2] at hr
    have hl := hrl r (List.mem_filter.1 hr).1
    simp [rowGap, gap, List.getD, List.getElem?_eq_getElem (show a < r.length by omega), List.getElem?_eq_getElem (show b < r.length by omega)]
  rw [hmap]
  simp only [bind, Except.bind]
  set dur := unique (C.grid.rows.map (gap a b)) with hdur
  have hmem : ∀ δ, δ ∈ dur ↔ ∃ row ∈ rows, InOrder tm row ∧ gap a b row = δ := by
    intro δ
    rw [hdur, unique_mem, h2, List.mem_map]
    constructor
    · rintro ⟨r, hr, rfl⟩
      obtain ⟨x1, x2⟩ := List.mem_filter.1 hr
      exact ⟨r, x1, by simpa using x2, rfl⟩
    · rintro ⟨r, x1, x2, rfl⟩
      exact ⟨r, List.mem_filter.2 ⟨x1, by simpa using x2⟩, rfl⟩
  have hmem' : ∀ δ, δ ∈ dur ↔ ∃ row ∈ rows, InOrder tm row ∧ distance tm n1 n2 row = δ := by
    intro δ
    rw [hmem]
    constructor
    · rintro ⟨r, x1, x2, rfl⟩
      exact ⟨r, x1, x2, hdg r (hpos r x1 x2)⟩
    · rintro ⟨r, x1, x2, rfl⟩
      exact ⟨r, x1, x2, (hdg r (hpos r x1 x2)).symm⟩
  have hndd : dur.Nodup := unique_nodup _
  -- weights of the distances
  set Lp := (rows.zip D).filter fun q => decide (0 < gap a b q.1) with hLp
  have hhits : ∀ δ ∈ dur, hits a b Lp δ = (((rows.zip D).filter fun p => decide (distance tm n1 n2 p.1 = δ)).map (·.2)).sum := by
    intro δ hδ
    have hδ0 : 0 < δ := by
      obtain ⟨r, x1, x2, rfl⟩ := (hmem δ).1 hδ
      exact hpos r x1 x2
    rw [hits, hLp, List.filter_filter]
    apply sum_filter_congr
    intro p hpL hpq
    apply hz p hpL
    intro ho
    apply hpq
    have h0 := hpos p.1 (List.of_mem_zip hpL).1 ho
    rw [hdg p.1 h0]
    simp [h0]
  have hDs : (dur.map (hits a b Lp)).sum = D.sum := by
    rw [hits_sum a b dur hndd, hLp, List.filter_filter]
    have : D = (rows.zip D).map (·.2) := (List.map_snd_zip (by omega)).symm
    conv_rhs => rw [this]
    have hT : (rows.zip D) = (rows.zip D).filter fun _ => true := by simp
    conv_rhs => rw [hT]
    apply sum_filter_congr
    intro p hpL hpq
    apply hz p hpL
    intro ho
    apply hpq
    have h0 := hpos p.1 (List.of_mem_zip hpL).1 ho
    simp [h0, (hmem (gap a b p.1)).2 ⟨p.1, (List.of_mem_zip hpL).1, ho, rfl⟩]
  have hDc : D.sum * c = 1 := by
    rw [List.sum_map_mul_right, List.map_id'] at hsum
    exact hsum
  have hD0 : D.sum ≠ 0 := left_ne_zero_of_mul_eq_one hDc
  have hpr : ∀ δ ∈ dur, hits a b Lp δ / D.sum =
      (((rows.zip (D.map (· * c))).filter fun p => decide (distance tm n1 n2 p.1 = δ)).map (·.2)).sum := by
    intro δ hδ
    rw [zip_map_mul c (fun r => decide (distance tm n1 n2 r = δ)), ← hhits δ hδ, div_eq_iff hD0, mul_assoc, mul_comm c, hDc, mul_one]
  have hlens : ∀ q ∈ C.allRows.zip D, a < q.1.length ∧ b < q.1.length := by
    intro q hq
    rw [h1] at hq
    have := hrl q.1 (List.of_mem_zip hq).1
    omega
  have hloop := durationLoop_spec dur a b hndd (C.allRows.zip D) (dur.map fun _ => 0) (by simp) hlens
  have hzw : List.zipWith (fun e c => c + hits a b Lp e) dur (dur.map fun _ => (0 : K)) = dur.map (hits a b Lp) := by
    rw [List.zipWith_map_right, List.zipWith_self]
    simp
  rw [h1, ← hLp, hzw] at hloop
  rw [h1]
  refine ⟨dur, unique_sorted _, hmem', ?_, ?_, ?_⟩
  · have : (dur.map fun δ => (((rows.zip (D.map (· * c))).filter fun p => decide (distance tm n1 n2 p.1 = δ)).map (·.2)).sum) =
        (dur.map (hits a b Lp)).map (· / D.sum) := by
      rw [List.map_map]
      exact (List.map_congr_left hpr).symm
    rw [this, sum_div_list, hDs, div_self hD0]
  · by_cases hall : ∀ q ∈ rows.zip D, 0 < gap a b q.1 → gap a b q.1 ∈ dur
    · left
      rw [if_pos hall] at hloop
      rw [hloop]
      simp only [hDs, if_neg hD0, List.map_map]
      rw [show dur.map ((fun x => x / D.sum) ∘ hits a b Lp) = _ from List.map_congr_left hpr]
    · right
      rw [if_neg hall] at hloop
      rw [hloop]
  · intro hon
    have hall : ∀ q ∈ rows.zip D, 0 < gap a b q.1 → gap a b q.1 ∈ dur := by
      intro q hq h0
      have hqr := (List.of_mem_zip hq).1
      refine (hmem _).2 ⟨q.1, hqr, ?_, rfl⟩
      unfold InOrder pointsOf
      rw [List.pairwise_map, List.pairwise_filter, List.pairwise_iff_getElem]
      intro i j hi hj hij pi pj
      simp only [List.getElem_zip, decide_eq_true_eq] at pi pj ⊢
      have hl := hrl q.1 hqr
      have hi' : i < ((entries tm).map (·.1)).length := by simp at hi ⊢; omega
      have hj' : j < ((entries tm).map (·.1)).length := by simp at hj ⊢; omega
      have key : ∀ k (hk : k < ((entries tm).map (·.1)).length), ((entries tm).map (·.1))[k] ∈ pointNames tm → k = a ∨ k = b := by
        intro k hk hkp
        have hidx : ((entries tm).map (·.1)).idxOf ((entries tm).map (·.1))[k] = k := hnd.idxOf_getElem k hk
        rcases hex _ (hon _ hkp) with h' | h'
        · left; rw [← hidx, h']
        · right; rw [← hidx, h']
      have hia : i = a := by
        rcases key i hi' pi with h' | h'
        · exact h'
        · rcases key j hj' pj with h'' | h'' <;> omega
      have hjb : j = b := by
        rcases key j hj' pj with h' | h'
        · omega
        · exact h'
      subst hia hjb
      rw [hgap, sub_pos] at h0
      unfold valueIn at h0
      rw [← ha, ← hb] at h0
      simpa [List.getD, List.getElem?_eq_getElem (show a < q.1.length by omega), List.getElem?_eq_getElem (show b < q.1.length by omega)] using h0
    rw [if_pos hall] at hloop
    rw [hloop]
    exact ⟨_, rfl⟩

/-- **C39 (part that holds: the prior of the parameters is not a numpy array, more than one combination is in order, and the query does not raise an
exception).** For every two different change/break-points of a fitted study: the first array returned holds, in increasing order, the distances that occur in
combinations in order; the second one the posterior probabilities that the distance has this value; they sum to one. The only
possible exception is an `IndexError`. -/
theorem C39_partial (I : FitIn K gs) (nJobs : ℕ) (H : HState K gs) (C : CState K gs) (g : HyperGrid K) (ps : List K) (hb : Built H.tm)
    (hsp : " " ∉ (entries H.tm).map (·.1)) (hn : H.S.prior.isArray = false) (hcell : 0 ≤ I.E.cell)
    (hg : createHyperGrid H.tm I.ts = .ok g) (hps : g.priors = some ps) (hnn : ∀ p ∈ ps, 0 ≤ p)
    (hr : 1 < (g.rows.filter fun r => decide (InOrder H.tm r)).length) (h : cpFit I nJobs H = .ok (some C))
    (hpos : C.R.S.logEv ≠ LogV.ninf) (n1 n2 : String) (hn1 : n1 ∈ pointNames H.tm) (hn2 : n2 ∈ pointNames H.tm) (hne : n1 ≠ n2) :
    ∃ D dur pr, C.R.hpd = some D ∧ dur.Pairwise (· < ·) ∧
      (∀ δ, δ ∈ dur ↔ ∃ row ∈ g.rows, InOrder H.tm row ∧ distance H.tm n1 n2 row = δ) ∧
      pr = dur.map (fun δ => (((g.rows.zip (D.map (· * g.hgc.prod))).filter fun p => decide (distance H.tm n1 n2 p.1 = δ)).map (·.2)).sum) ∧
      pr.sum = 1 ∧
      (getDD C D [n1, n2] = .ok (dur, some pr) ∨ getDD C D [n1, n2] = .error .indexError) ∧
      ((∀ n ∈ pointNames H.tm, n = n1 ∨ n = n2) → getDD C D [n1, n2] = .ok (dur, some pr)) := by
  have hp := (Built.matched hb).proper
  obtain ⟨As, qs, Q, D, W, d1, d2, d3, d4, d5, d6, d7, d8, d9, d10⟩ :=
    C38_posterior_partial I nJobs H C g ps hb hsp hn hcell hg hps hnn hr h hpos
  obtain ⟨As', qs', hpd, c1, c2, -, -, -, -, -, -, -, -, -, -, -, c14⟩ := cpFit_spec I nJobs H C g ps hb hsp hn hg hps hr h
  have hnd : ((entries H.tm).map (·.1)).Nodup := by
    rw [← entries_names H.tm hp]
    unfold cpFit at h
    split at h
    · cases h
    simp only at h
    split at h
    · cases h
    split at h
    · cases h
    rw [hg] at h
    simp only [bind, Except.bind] at h
    split at h
    · cases h
    exact (Props.duplicates_eq_nil _).1 (List.length_eq_zero_iff.1 (by omega))
  obtain ⟨dur, s1, s2, s3, s4, s5⟩ := getDD_spec H.tm hp hnd g.rows D g.hgc.prod C c1 c2 c14 (rows_length hp hg) d5 d7 d6 n1 n2 hn1 hn2 hne
  refine ⟨D, dur, _, d4, s1, s2, rfl, s3, s4, fun hon => ?_⟩
  obtain ⟨r, hr⟩ := s5 hon
  rcases s4 with h' | h'
  · exact h'
  · rw [hr] at h'
    cases h'

end Props

namespace Ex
open BL Spec

/-- a change-point with given candidates -/
def cpOf (n : String) (l : List ℚ) : TM ℚ := .leaf .changePoint [n] [.array l] (some (.item .none))
/-- two change-points -/
def cp2 : HState ℚ gs2 := ⟨.combined [cpOf "a" [1, 2, 3], cpOf "b" [1, 2, 3]], S0 .none, [], none⟩
/-- two change-points, one possible order -/
def cp1 : HState ℚ gs2 := ⟨.combined [cpOf "a" [1, 2], cpOf "b" [1, 2]], S0 .none, [], none⟩
/-- three change-points -/
def cp3 : HState ℚ gs2 := ⟨.combined [cpOf "a" [1, 2, 3], cpOf "b" [1, 2, 3, 4], cpOf "c" [2, 3, 4]], S0 .none, [], none⟩
/-- five data points -/
def cpIn : FitIn ℚ gs2 := ⟨env gs2 1, grid gs2, [v2 1 3, v2 2 1, v2 1 1, v2 1 3, v2 2 1], [1, 2, 3, 4, 5], false, true, 1 / 1000⟩

theorem cpOf_built (n : String) (l : List ℚ) : Built (cpOf n l) :=
  Built.changePoint (name := n) (value := .list l) (prior := .item .none) trivial rfl

/-- successful outcome with property `P` -/
def CpOk (r : Except PyErr (Option (CState ℚ gs2))) (P : CState ℚ gs2 → Bool) : Bool :=
  match r with
  | .ok (some C) => P C
  | _ => false

theorem CpOk_iff {r : Except PyErr (Option (CState ℚ gs2))} {P : CState ℚ gs2 → Bool} :
    CpOk r P = true ↔ ∃ R, r = .ok (some R) ∧ P R = true := by
  unfold CpOk
  match r with
  | .error e => simp
  | .ok none => simp
  | .ok (some R) => simp

end Ex

namespace Props
open BL Spec

/-- a study that meets all hypotheses of C38 and C39: nine combinations, three of them in order -/
example : ∃ g C, createHyperGrid Ex.cp2.tm Ex.cpIn.ts = .ok g ∧ g.priors = some (List.replicate 9 (1 / 9)) ∧
    (g.rows.filter fun r => decide (InOrder Ex.cp2.tm r)) = [[1, 2], [1, 3], [2, 3]] ∧ Built Ex.cp2.tm ∧
    " " ∉ (entries Ex.cp2.tm).map (·.1) ∧ pointNames Ex.cp2.tm = ["a", "b"] ∧ cpFit Ex.cpIn 1 Ex.cp2 = .ok (some C) ∧ C.R.S.logEv.exp = 85 / 12 ∧
    C.R.hpd = some [0, 6 / 17, 6 / 17, 0, 0, 5 / 17, 0, 0, 0] := by
  obtain ⟨C, h1, h2⟩ := Ex.CpOk_iff.1 (show Ex.CpOk (cpFit Ex.cpIn 1 Ex.cp2)
    (fun C => C.R.S.logEv.exp = 85 / 12 ∧ C.R.hpd = some [0, 6 / 17, 6 / 17, 0, 0, 5 / 17, 0, 0, 0]) = true by decide +kernel)
  refine ⟨_, C, rfl, by decide +kernel, by decide +kernel, Built.combined (ms := [Ex.cpOf "a" [1, 2, 3], Ex.cpOf "b" [1, 2, 3]]) ?_ rfl,
    by decide, rfl, h1, of_decide_eq_true h2⟩
  intro a ha
  simp only [List.mem_cons, List.not_mem_nil, or_false] at ha
  rcases ha with rfl | rfl <;> exact Ex.cpOf_built _ _

/-- **C38 refuted** for a single combination in order: two change-points with the candidates 1 and 2 each have exactly one
combination in order, but the fit raises a `ValueError` (the standard fit is run with the candidate arrays as values). -/
theorem C38_refuted : ∃ g, Built Ex.cp1.tm ∧ createHyperGrid Ex.cp1.tm Ex.cpIn.ts = .ok g ∧
    (g.rows.filter fun r => decide (InOrder Ex.cp1.tm r)) = [[1, 2]] ∧ cpFit Ex.cpIn 1 Ex.cp1 = .error .valueError := by
  refine ⟨_, Built.combined (ms := [Ex.cpOf "a" [1, 2], Ex.cpOf "b" [1, 2]]) ?_ rfl, rfl, by decide +kernel, ?_⟩
  · intro a ha
    simp only [List.mem_cons, List.not_mem_nil, or_false] at ha
    rcases ha with rfl | rfl <;> exact Ex.cpOf_built _ _
  · have h : (match cpFit Ex.cpIn 1 Ex.cp1 with
      | .error .valueError => true
      | _ => false) = true := by decide +kernel
    split at h
    · assumption
    · simp at h

/-- **C39 refuted**: with three change-points, a distance can occur only in combinations that are not in order; then the query raises an
`IndexError`, although the fit succeeds and its evidence is 33/4. -/
theorem C39_refuted : ∃ C D, Built Ex.cp3.tm ∧ cpFit Ex.cpIn 1 Ex.cp3 = .ok (some C) ∧ C.R.hpd = some D ∧ C.R.S.logEv.exp = 33 / 4 ∧
    getDD C D ["a", "b"] = .error .indexError := by
  obtain ⟨C, h1, h2⟩ := Ex.CpOk_iff.1 (show Ex.CpOk (cpFit Ex.cpIn 1 Ex.cp3)
    (fun C => decide (C.R.S.logEv.exp = 33 / 4) && match C.R.hpd with
      | some D => match getDD C D ["a", "b"] with
        | .error .indexError => true
        | _ => false
      | none => false) = true by decide +kernel)
  rw [Bool.and_eq_true] at h2
  obtain ⟨h3, h2⟩ := h2
  split at h2
  · rename_i D hD
    refine ⟨C, D, Built.combined (ms := [Ex.cpOf "a" [1, 2, 3], Ex.cpOf "b" [1, 2, 3, 4], Ex.cpOf "c" [2, 3, 4]]) ?_ rfl, h1, hD, of_decide_eq_true h3, ?_⟩
    · intro a ha
      simp only [List.mem_cons, List.not_mem_nil, or_false] at ha
      rcases ha with rfl | rfl | rfl <;> exact Ex.cpOf_built _ _
    · split at h2
      · assumption
      · simp at h2
  · simp at h2

end Props
