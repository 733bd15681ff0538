import Verif.Props.C111
import Verif.Props.C112
import Verif.Props.C34

/-! # C115: questions about single change-points and durations are answered exactly -/

set_option linter.unusedSectionVars false

namespace Props
open BL Spec

variable {K : Type} [Field K] [LinearOrder K] [IsStrictOrderedRing K] {d : ℕ} {gs : Fin d → ℕ}

theorem zip_self_map {α : Type} (F : α × K → K) : ∀ (rows : List α) (ps : List K), ps.length = rows.length → rows.zip ((rows.zip ps).map F) = (rows.zip ps).map fun q => (q.1, F q)
  | [], _, _ => by simp
  | r :: rows, [], h => by simp at h
  | r :: rows, p :: ps, h => by simp [zip_self_map F rows ps (by simpa using h)]

theorem sum_pick (P : List K → Prop) [DecidablePred P] (f : List K → K) (Z : K) : ∀ l : List (List K × K),
    ((l.map fun q => (q.1, if q.1.Pairwise (· < ·) then q.2 * f q.1 / Z else 0)).filter (fun q => decide (P q.1)) |>.map (·.2)).sum =
      ((l.filter fun q => decide (q.1.Pairwise (· < ·))).map fun q => q.2 * (if P q.1 then f q.1 else 0)).sum / Z
  | [] => by simp
  | q :: l => by
      have ih := sum_pick P f Z l
      rw [List.map_cons, List.filter_cons, List.filter_cons]
      by_cases h1 : P q.1 <;> by_cases h2 : q.1.Pairwise (· < ·) <;> simp [h1, h2, ih, add_div]

/-- the total probability of the combinations with a property -/
theorem pick_total (rows : List (List K)) (ps D : List K) (c Z : K) (f : List K → K) (hl : ps.length = rows.length)
    (hD : D.map (· * c) = (rows.zip ps).map fun q => if q.1.Pairwise (· < ·) then q.2 * f q.1 / Z else 0) (P : List K → Prop) [DecidablePred P] :
    (((rows.zip (D.map (· * c))).filter fun q => decide (P q.1)).map (·.2)).sum = overOrdered rows ps (fun r => if P r then f r else 0) / Z := by
  rw [hD, zip_self_map _ rows ps hl, sum_pick]
  rfl

theorem cpFit_grid {I : FitIn K gs} {nJobs : ℕ} {H : HState K gs} {C : CState K gs} {g : HyperGrid K} (hg : createHyperGrid H.tm I.ts = .ok g)
    (h : cpFit I nJobs H = .ok (some C)) : C.grid.flat = g.flat ∧ C.grid.names = g.names ∧ C.grid.hgc = g.hgc := by
  unfold cpFit at h
  split at h
  · cases h
  simp only at h
  split at h
  · cases h
  split at h
  · cases h
  rw [hg] at h
  simp only [bind, Except.bind] at h
  generalize (if (flatten H.tm.cpNameTree).length > 0 then flatten H.tm.cpNameTree else flatten H.tm.bpNameTree) = pts at h
  split at h
  · cases h
  split at h
  · cases h
  split at h
  · cases h
  split at h
  · cases h
  split at h
  · cases h
    exact ⟨rfl, rfl, rfl⟩
  · split at h
    · cases h
      exact ⟨rfl, rfl, rfl⟩
    · cases h

/-- **C115, time of one change-point.** In the setting of C111, the query for the distribution of one change-point (`getHyperParameterDistribution`) returns its candidate values and for every candidate value `t` the posterior
probability that this change-point lies at `t`: the sum over all increasing combinations with this value, divided by the sum over all increasing combinations, of prior probability times probability of the data. -/
theorem C115_time_partial (I : FitIn K gs) (nJobs : ℕ) (H : HState K gs) (C : CState K gs) (g : HyperGrid K) (ps : List K) (hb : Built H.tm)
    (hsp : " " ∉ (entries H.tm).map (·.1)) (htm : StepModel H.tm) (hE : Regular I.E)
    (π : Idx gs → K) (hp : PriorMass I.E.cell H.S.prior π) (hprior : H.S.prior = .none ∨ ∃ v, H.S.prior = .func v)
    {n : ℕ} (τ : Fin (n + 1) → K) (hτ : StrictMono τ) (hts : I.ts = List.ofFn τ)
    (L : Fin (n + 1) → Idx gs → K) (hls : I.liks = List.ofFn L) (hL0 : ∀ i x, 0 ≤ L i x) (hmode : ModeOK I H.S τ L)
    (hg : createHyperGrid H.tm I.ts = .ok g) (hps : g.priors = some ps) (hnn : ∀ p ∈ ps, 0 ≤ p)
    (hv : ∀ e ∈ entries H.tm, ∀ c ∈ valuesOf I.ts e.2, ∃ i : Fin n, c = τ i.castSucc)
    (hr : 1 < (g.rows.filter fun r => decide (r.Pairwise (· < ·))).length)
    (h : cpFit I nJobs H = .ok (some C)) (hpos : C.R.S.logEv ≠ LogV.ninf) (name : String) (v : HVal K) (a : ℕ)
    (he : (entries H.tm)[a]? = some (name, v)) (hvn : (valuesOf I.ts v).Nodup) :
    ∃ D D' A, C.R.hpd = some D ∧ getHPD C.R.tm C.grid D name = (D', .ok (expandAll I.ts v, A)) ∧
      A.flat = (valuesOf I.ts v).map fun t =>
        overOrdered g.rows ps (fun r => if r[a]? = some t then changeEvidence π r τ L else 0) / overOrdered g.rows ps (changeEvidence π · τ L) := by
  obtain ⟨⟨D, d1, d2, d3⟩, -⟩ := C111_partial I nJobs H C g ps hb hsp htm hE π hp hprior τ hτ hts L hls hL0 hmode hg hps hnn hv hr h hpos
  have hpr := (Built.matched hb).proper
  have hnd := cpFit_nodup hpr hg h
  have hlen := rows_length hpr hg
  have hord : ∀ r ∈ g.rows, decide (InOrder H.tm r) = decide (r.Pairwise (· < ·)) := fun r hr => by
    simp only [inOrder_step htm (hlen r hr)]
  have hfil : g.rows.filter (fun r => decide (InOrder H.tm r)) = g.rows.filter fun r => decide (r.Pairwise (· < ·)) := List.filter_congr hord
  have hn : H.S.prior.isArray = false := by rcases hprior with h | ⟨v, h⟩ <;> rw [h] <;> rfl
  obtain ⟨As, qs, hpd, c1, c2, c3, c4, c5, c6, c7, c8, c9, c10, c11, c12, c13, c14⟩ := cpFit_spec I nJobs H C g ps hb hsp hn hg hps (by rw [hfil]; exact hr) h
  obtain ⟨g1, g2, g3⟩ := cpFit_grid hg h
  have hr2 : 2 ≤ g.rows.length := le_trans hr (List.length_filter_le _ _)
  obtain ⟨D', A, a1, a2, -, -⟩ := C34 H.tm I.ts g D name v a hpr hnd hg hr2 d2 he hvn
  refine ⟨D, D', A, d1, ?_, ?_⟩
  · rw [← a1]
    unfold getHPD TM.hyperIndex marginalise
    have x1 : ¬ (g.rows.filter fun r => decide (r.Pairwise (· < ·))).length < 2 := by omega
    have x2 : ¬ g.rows.length < 2 := by omega
    rw [g1, g2, g3, c14, c2, hfil, if_neg x1, if_neg x2]
  · rw [a2]
    refine List.map_congr_left fun t _ => ?_
    rw [← pick_total g.rows ps D g.hgc.prod _ (changeEvidence π · τ L) c6 d3 (fun r => r[a]? = some t), probOf, List.zip_map_right, List.filter_map, List.map_map]
    rfl

/-- **C115, durations.** In the setting of C111, the query for the distribution of the time between two change-points (`getDurationDistribution`) returns all distances that occur in an increasing combination, in increasing
order, and for every distance `δ` its posterior probability: the sum over the increasing combinations with this distance, divided by the sum over all increasing combinations, of prior probability times probability of the
data.  With three and more change-points the query may raise an exception instead (`C39_refuted`). -/
theorem C115_duration_partial (I : FitIn K gs) (nJobs : ℕ) (H : HState K gs) (C : CState K gs) (g : HyperGrid K) (ps : List K) (hb : Built H.tm)
    (hsp : " " ∉ (entries H.tm).map (·.1)) (htm : StepModel H.tm) (hE : Regular I.E)
    (π : Idx gs → K) (hp : PriorMass I.E.cell H.S.prior π) (hprior : H.S.prior = .none ∨ ∃ v, H.S.prior = .func v)
    {n : ℕ} (τ : Fin (n + 1) → K) (hτ : StrictMono τ) (hts : I.ts = List.ofFn τ)
    (L : Fin (n + 1) → Idx gs → K) (hls : I.liks = List.ofFn L) (hL0 : ∀ i x, 0 ≤ L i x) (hmode : ModeOK I H.S τ L)
    (hg : createHyperGrid H.tm I.ts = .ok g) (hps : g.priors = some ps) (hnn : ∀ p ∈ ps, 0 ≤ p)
    (hv : ∀ e ∈ entries H.tm, ∀ c ∈ valuesOf I.ts e.2, ∃ i : Fin n, c = τ i.castSucc)
    (hr : 1 < (g.rows.filter fun r => decide (r.Pairwise (· < ·))).length)
    (h : cpFit I nJobs H = .ok (some C)) (hpos : C.R.S.logEv ≠ LogV.ninf) (n1 n2 : String) (hn1 : n1 ∈ pointNames H.tm) (hn2 : n2 ∈ pointNames H.tm) (hne : n1 ≠ n2) :
    ∃ D dur pr, C.R.hpd = some D ∧ dur.Pairwise (· < ·) ∧ (∀ δ, δ ∈ dur ↔ ∃ row ∈ g.rows, row.Pairwise (· < ·) ∧ distance H.tm n1 n2 row = δ) ∧
      pr = dur.map (fun δ => overOrdered g.rows ps (fun r => if distance H.tm n1 n2 r = δ then changeEvidence π r τ L else 0) / overOrdered g.rows ps (changeEvidence π · τ L)) ∧
      (getDD C D [n1, n2] = .ok (dur, some pr) ∨ getDD C D [n1, n2] = .error .indexError) ∧
      ((∀ n ∈ pointNames H.tm, n = n1 ∨ n = n2) → getDD C D [n1, n2] = .ok (dur, some pr)) := by
  obtain ⟨⟨D, d1, d2, d3⟩, -⟩ := C111_partial I nJobs H C g ps hb hsp htm hE π hp hprior τ hτ hts L hls hL0 hmode hg hps hnn hv hr h hpos
  have hpr := (Built.matched hb).proper
  have hlen := rows_length hpr hg
  have hord : ∀ r ∈ g.rows, decide (InOrder H.tm r) = decide (r.Pairwise (· < ·)) := fun r hr => by
    simp only [inOrder_step htm (hlen r hr)]
  have hfil : g.rows.filter (fun r => decide (InOrder H.tm r)) = g.rows.filter fun r => decide (r.Pairwise (· < ·)) := List.filter_congr hord
  have hn : H.S.prior.isArray = false := by rcases hprior with h | ⟨v, h⟩ <;> rw [h] <;> rfl
  have c6 : ps.length = g.rows.length := by
    obtain ⟨As, qs, hpd, c1, c2, c3, c4, c5, c6, -⟩ := cpFit_spec I nJobs H C g ps hb hsp hn hg hps (by rw [hfil]; exact hr) h
    exact c6
  obtain ⟨D0, dur, pr, e1, e2, e3, e4, e5, e6, e7⟩ := C39_partial I nJobs H C g ps hb hsp hn (Finset.prod_pos fun a _ => hE.lattice_pos a).le hg hps hnn (by rw [hfil]; exact hr) h hpos n1 n2 hn1 hn2 hne
  rw [d1] at e1
  cases e1
  refine ⟨D, dur, pr, d1, e2, fun δ => ?_, ?_, e6, e7⟩
  · rw [e3]
    constructor
    · rintro ⟨row, r1, r2, r3⟩
      exact ⟨row, r1, (inOrder_step htm (hlen row r1)).1 r2, r3⟩
    · rintro ⟨row, r1, r2, r3⟩
      exact ⟨row, r1, (inOrder_step htm (hlen row r1)).2 r2, r3⟩
  · rw [e4]
    refine List.map_congr_left fun δ _ => ?_
    exact pick_total g.rows ps D g.hgc.prod _ (changeEvidence π · τ L) c6 d3 (fun r => distance H.tm n1 n2 r = δ)

/-- Concrete case: four data points at the times 1, 2, 4, 5, cell volume 2, two change-points with the value `'all'`: the hypotheses of both theorems are met, the distances 1, 2, 3 occur. -/
example : ∃ g ps C D dur pr, createHyperGrid Ex.cpTwo.tm (Ex.cpFull 2).ts = .ok g ∧ g.priors = some ps ∧ cpFit (Ex.cpFull 2) 1 Ex.cpTwo = .ok (some C) ∧ C.R.hpd = some D ∧
    getDD C D ["a", "b"] = .ok (dur, some pr) ∧ (∀ δ ∈ dur, δ = 1 ∨ δ = 2 ∨ δ = 3) ∧
    pr = dur.map (fun δ => overOrdered g.rows ps (fun r => if distance Ex.cpTwo.tm "a" "b" r = δ then changeEvidence Ex.cpUniform r Ex.cpTimes Ex.cpLik else 0) /
      overOrdered g.rows ps (changeEvidence Ex.cpUniform · Ex.cpTimes Ex.cpLik)) ∧
    ∃ D' A, getHPD C.R.tm C.grid D "b" = (D', .ok (.array [1, 2, 4], A)) ∧ A.flat = [1, 2, 4].map fun t : ℚ =>
      overOrdered g.rows ps (fun r => if r[1]? = some t then changeEvidence Ex.cpUniform r Ex.cpTimes Ex.cpLik else 0) / overOrdered g.rows ps (changeEvidence Ex.cpUniform · Ex.cpTimes Ex.cpLik) := by
  obtain ⟨C, h1, h2⟩ := Ex.CpOk_iff.1 (show Ex.CpOk (cpFit (Ex.cpFull 2) 1 Ex.cpTwo) (fun C => decide (C.R.S.logEv.exp ≠ 0)) = true by decide +kernel)
  have hf : ∀ g, createHyperGrid Ex.cpTwo.tm (Ex.cpFull 2).ts = .ok g → (g.rows.filter fun r => decide (r.Pairwise (· < ·))) = [[1, 2], [1, 4], [2, 4]] := by
    intro g hg
    cases hg
    decide +kernel
  have hps : ∀ g, createHyperGrid Ex.cpTwo.tm (Ex.cpFull 2).ts = .ok g → g.priors = some (List.replicate 9 (1 / 9)) := by
    intro g hg
    cases hg
    decide +kernel
  have hdist : ∀ g, createHyperGrid Ex.cpTwo.tm (Ex.cpFull 2).ts = .ok g → ∀ row ∈ g.rows, row.Pairwise (· < ·) →
      distance Ex.cpTwo.tm "a" "b" row = 1 ∨ distance Ex.cpTwo.tm "a" "b" row = 2 ∨ distance Ex.cpTwo.tm "a" "b" row = 3 := by
    intro g hg
    cases hg
    decide +kernel
  obtain ⟨g, hg⟩ : ∃ g, createHyperGrid Ex.cpTwo.tm (Ex.cpFull 2).ts = .ok g := ⟨_, rfl⟩
  have hpos : C.R.S.logEv ≠ LogV.ninf := fun h0 => (of_decide_eq_true h2) (by rw [h0]; rfl)
  have hall : ∀ e ∈ entries Ex.cpTwo.tm, ∀ c ∈ valuesOf (Ex.cpFull 2).ts e.2, ∃ i : Fin 3, c = Ex.cpTimes i.castSucc := by
    intro e he
    have : e = ("a", .all) ∨ e = ("b", .all) := by simpa [Ex.cpTwo, Ex.cpAll, entries, entriesAll] using he
    rcases this with rfl | rfl <;> exact all_candidates Ex.cpTimes
  have hnn : ∀ p ∈ List.replicate 9 (1 / 9 : ℚ), 0 ≤ p := by intro p hp; rw [List.eq_of_mem_replicate hp]; norm_num
  obtain ⟨D, dur, pr, d1, d2, d3, d4, d5, d6⟩ := C115_duration_partial (Ex.cpFull 2) 1 Ex.cpTwo C g _ Ex.cpTwo_built (by decide) ⟨⟨rfl, rfl⟩, ⟨rfl, rfl⟩, trivial⟩ (Ex.regular2 (by norm_num))
    Ex.cpUniform .flat (.inl rfl) Ex.cpTimes Ex.cpTimes_mono rfl Ex.cpLik rfl (fun i x => (Ex.cpLik_pos i x).le)
    (.inr (.inr (.inl ⟨ext_proper, trivial, Ex.cpLik_pos⟩))) hg (hps g hg) hnn hall (by rw [hf g hg]; decide) h1 hpos "a" "b" (by decide) (by decide) (by decide)
  obtain ⟨D1, D', A, a1, a2, a3⟩ := C115_time_partial (Ex.cpFull 2) 1 Ex.cpTwo C g _ Ex.cpTwo_built (by decide) ⟨⟨rfl, rfl⟩, ⟨rfl, rfl⟩, trivial⟩ (Ex.regular2 (by norm_num))
    Ex.cpUniform .flat (.inl rfl) Ex.cpTimes Ex.cpTimes_mono rfl Ex.cpLik rfl (fun i x => (Ex.cpLik_pos i x).le)
    (.inr (.inr (.inl ⟨ext_proper, trivial, Ex.cpLik_pos⟩))) hg (hps g hg) hnn hall (by rw [hf g hg]; decide) h1 hpos "b" .all 1 rfl (by decide +kernel)
  rw [d1] at a1
  cases a1
  refine ⟨g, _, C, D, dur, pr, hg, hps g hg, h1, d1, d6 (by decide), fun δ hδ => ?_, d4, D', A, a2, a3⟩
  obtain ⟨row, r1, r2, rfl⟩ := (d3 δ).1 hδ
  exact hdist g hg row r1 r2

end Props
