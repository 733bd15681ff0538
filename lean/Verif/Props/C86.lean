import Verif.Props.C38
import Verif.Props.C85

/-! # C86: change-point studies and hyper-studies -/

set_option linter.unusedSectionVars false

namespace BL
open Spec
variable {K : Type} [Field K] [LinearOrder K] [IsStrictOrderedRing K] {d : ℕ} {gs : Fin d → ℕ}

theorem select_all {α β : Type} : ∀ (m : List β) (l : List α), m.length = l.length → select (m.map fun _ => true) l = l
  | [], [], _ => rfl
  | _ :: m, x :: l, h => by rw [List.map_cons, select, select_all m l (by simpa using h)]

theorem scatter_all {β : Type} : ∀ (m : List β) (l : List K), m.length = l.length → scatter (m.map fun _ => true) l = l
  | [], [], _ => rfl
  | _ :: m, x :: l, h => by rw [List.map_cons, scatter, scatter_all m l (by simpa using h)]

/-- values of points in order are different -/
theorem shared_false {tm : TM K} {ts : List K} {g : HyperGrid K} (hp : Proper tm) (hg : createHyperGrid tm ts = .ok g) (hnd : ((entries tm).map (·.1)).Nodup)
    (hnb : ¬ ((flatten tm.cpNameTree).length > 0 ∧ (flatten tm.bpNameTree).length > 0)) (ho : ∀ r ∈ g.rows, InOrder tm r) : sharedPoints tm g = false := by
  obtain ⟨-, e2, -, e4⟩ := Props.createHyperGrid_eq hp hg
  unfold sharedPoints
  simp only [Bool.and_eq_false_iff]
  right
  rw [List.any_eq_false]
  intro r hr
  simp only [Bool.not_eq_true', decide_eq_false_iff_not, not_not]
  have hlen : r.length = ((entries tm).map (·.1)).length := by
    rw [e4] at hr
    split at hr
    · simp at hr
    · rw [cart_mem] at hr
      rw [hr.length_eq, axes, List.length_map, List.length_map]
  have hn := entries_names tm hp
  have hsub : ∀ n ∈ flatten tm.cpNameTree ++ flatten tm.bpNameTree, n ∈ (entries tm).map (·.1) := by
    intro n h
    rw [← hn]
    rcases List.mem_append.1 h with h | h
    · exact (cpNames_sub tm hp).subset h
    · exact (bpNames_sub tm hp).subset h
  have hnd2 : (flatten tm.cpNameTree ++ flatten tm.bpNameTree).Nodup := by
    rw [← hn] at hnd
    rcases Nat.eq_zero_or_pos (flatten tm.cpNameTree).length with h0 | h0
    · rw [List.length_eq_zero_iff.1 h0, List.nil_append]
      exact (bpNames_sub tm hp).nodup hnd
    · have h1 : (flatten tm.bpNameTree).length = 0 := by
        by_contra h; exact hnb ⟨h0, Nat.pos_of_ne_zero h⟩
      rw [List.length_eq_zero_iff.1 h1, List.append_nil]
      exact (cpNames_sub tm hp).nodup hnd
  rw [e2]
  refine List.Nodup.map_on ?_ hnd2
  intro x hx y hy hxy
  by_contra hne
  have ix : ((entries tm).map (·.1)).idxOf x < ((entries tm).map (·.1)).length := List.idxOf_lt_length_of_mem (hsub x hx)
  have iy : ((entries tm).map (·.1)).idxOf y < ((entries tm).map (·.1)).length := List.idxOf_lt_length_of_mem (hsub y hy)
  have hio := ho r hr
  rw [InOrder, pointsOf, List.pairwise_map, List.pairwise_filter] at hio
  have hpx : x ∈ pointNames tm := (pointNames_mem x tm).2 (List.mem_append.1 hx)
  have hpy : y ∈ pointNames tm := (pointNames_mem y tm).2 (List.mem_append.1 hy)
  rw [List.getElem?_eq_getElem (by omega), List.getElem?_eq_getElem (by omega), Option.some.injEq] at hxy
  rw [List.pairwise_iff_getElem] at hio
  have hii : ((entries tm).map (·.1)).idxOf x ≠ ((entries tm).map (·.1)).idxOf y := fun h => hne ((List.idxOf_inj (hsub x hx)).1 h)
  rcases Nat.lt_or_gt_of_ne hii with h | h
  · have := hio _ _ (by rw [List.length_zip]; omega) (by rw [List.length_zip]; omega) h
    simp only [List.getElem_zip, List.getElem_idxOf, decide_eq_true_eq] at this
    exact absurd hxy (this hpx hpy).ne
  · have := hio _ _ (by rw [List.length_zip]; omega) (by rw [List.length_zip]; omega) h
    simp only [List.getElem_zip, List.getElem_idxOf, decide_eq_true_eq] at this
    exact absurd hxy (this hpy hpx).ne'

end BL

namespace Props
open BL Spec
variable {K : Type} [Field K] [LinearOrder K] [IsStrictOrderedRing K] {d : ℕ} {gs : Fin d → ℕ}

/-- **C86.** Every change-point study in which all combinations of the entered values have the points in order (in particular: one change-point or break-point, see `C86_one`), every prior (also arrays), data, number of
jobs and mode: if `ChangepointStudy.fit` returns, `HyperStudy.fit` returns exactly the same results, including the hyper-parameter distribution. -/
theorem C86 (I : FitIn K gs) (nJobs : ℕ) (H : HState K gs) (C : CState K gs) (hb : Built H.tm) (ho : ∀ r ∈ cart (axes H.tm I.ts), InOrder H.tm r)
    (h : cpFit I nJobs H = .ok (some C)) : hyperFit I nJobs H = .ok (some C.R) := by
  have hm := Built.matched hb
  have hp := hm.proper
  unfold cpFit at h
  split at h
  · cases h
  simp only at h
  split at h
  · cases h
  rename_i hnb
  split at h
  · cases h
  rename_i hsome
  cases hg : createHyperGrid H.tm I.ts with
  | error e => rw [hg] at h; cases h
  | ok g =>
  obtain ⟨e1, e2, -, e4⟩ := Props.createHyperGrid_eq hp hg
  have hne : entries H.tm ≠ [] := by
    intro h0
    have hn := entries_names H.tm hp
    rw [h0] at hn
    have h1 := (cpNames_sub H.tm hp).length_le
    have h2 := (bpNames_sub H.tm hp).length_le
    rw [hn] at h1 h2
    simp only [List.map_nil, List.length_nil, Nat.le_zero] at h1 h2
    exact hsome ⟨h1, h2⟩
  rw [if_neg hne] at e4
  rw [hg] at h
  simp only [bind, Except.bind] at h
  split at h
  · cases h
  rename_i hd
  have hnd : ((entries H.tm).map (·.1)).Nodup := by
    rw [← entries_names H.tm hp]
    exact (Props.duplicates_eq_nil _).1 (List.length_eq_zero_iff.1 (by omega))
  have hmask : (g.rows.map fun x => decide (InOrder H.tm x)) = g.rows.map fun _ => true :=
    List.map_congr_left fun r hr => by simpa using ho r (e4 ▸ hr)
  rw [cp_mask hp hg hnd hnb, hmask, select_all _ _ rfl] at h
  unfold hyperFit
  rw [hg]
  simp only [bind, Except.bind]
  rw [shared_false hp hg hnd hnb fun r hr => ho r (e4 ▸ hr), if_neg (by simp), if_neg hd]
  cases hps : g.priors with
  | none => rw [hps] at h; cases h
  | some ps =>
      have hpl := weights_len hm hne hg hps
      rw [hps] at h
      simp only [rescaled, select_all _ _ hpl.symm] at h
      split at h
      · cases h
      · rename_i qs hqs
        have hq : qs = ps := by
          split at hqs
          · cases hqs
          · rename_i h0
            simp only [Option.some.injEq] at hqs
            rw [← hqs, div_self h0]
            simp
        subst hq
        simp only at h ⊢
        revert h
        cases hyperCore I nJobs g.flat g.rows g.hgc qs H with
        | error e => intro h; cases h
        | ok r =>
            simp only
            cases hh : r.hpd with
            | none =>
                simp only [Except.ok.injEq, Option.some.injEq]
                rintro rfl
                simp only [← hh]
            | some l =>
                simp only
                by_cases hl : l.length = g.rows.length
                · rw [if_pos hl]
                  simp only [Except.ok.injEq, Option.some.injEq]
                  rintro rfl
                  simp only [scatter_all _ _ hl.symm, ← hh]
                · rw [if_neg hl]
                  intro h; cases h

theorem pointsOf_short {α β : Type} [DecidableEq α] (n : α) : ∀ (names : List α) (row : List β), names.Nodup → ((names.zip row).filter fun p => decide (p.1 ∈ [n])).length ≤ 1
  | [], _, _ => by simp
  | _ :: _, [], _ => by simp
  | a :: names, x :: row, h => by
      rw [List.nodup_cons] at h
      rw [List.zip_cons_cons, List.filter_cons]
      split
      · rename_i ha
        have ha : a = n := by simpa using ha
        have : ((names.zip row).filter fun p => decide (p.1 ∈ [n])) = [] := by
          rw [List.filter_eq_nil_iff]
          intro p hp
          have := (List.of_mem_zip hp).1
          simp only [List.mem_singleton, decide_eq_true_eq]
          rintro rfl
          exact h.1 (ha ▸ this)
        rw [this]; simp
      · exact pointsOf_short n names row h.2

/-- The hypothesis of `C86` holds for all models with one change-point or break-point. -/
theorem C86_one (tm : TM K) (ts : List K) (hnd : ((entries tm).map (·.1)).Nodup) (n : String) (h1 : pointNames tm = [n]) : ∀ r ∈ cart (axes tm ts), InOrder tm r := by
  intro r _
  have := pointsOf_short n ((entries tm).map (·.1)) r hnd
  rw [InOrder, pointsOf, h1]
  generalize ((((entries tm).map (·.1)).zip r).filter fun p => decide (p.1 ∈ [n])) = l at this
  match l, this with
  | [], _ => exact List.Pairwise.nil
  | [x], _ => exact List.pairwise_singleton _ _
  | x :: y :: l, h => simp at h

/-- **C86 (converse).** If `HyperStudy.fit` returns, so does `ChangepointStudy.fit`, with the same results: parameter priors that are not arrays, more than one combination, hyper-priors whose values do not sum to zero; the
model must have change-points or break-points, not both, and at most one serial model. -/
theorem C86_converse (I : FitIn K gs) (nJobs : ℕ) (H R : HState K gs) (g : HyperGrid K) (ps : List K) (hb : Built H.tm) (ho : ∀ r ∈ cart (axes H.tm I.ts), InOrder H.tm r)
    (hsp : " " ∉ (entries H.tm).map (·.1)) (hn : H.S.prior.isArray = false) (hg : createHyperGrid H.tm I.ts = .ok g) (hps : g.priors = some ps) (hs : ps.sum ≠ 0)
    (hr : 1 < g.rows.length) (hser : H.tm.serialCount ≤ 1) (hpt : pointNames H.tm ≠ [])
    (hnb : flatten H.tm.cpNameTree = [] ∨ flatten H.tm.bpNameTree = []) (h : hyperFit I nJobs H = .ok (some R)) :
    ∃ C, cpFit I nJobs H = .ok (some C) ∧ C.R = R := by
  have hm := Built.matched hb
  have hp := hm.proper
  obtain ⟨e1, e2, -, e4⟩ := Props.createHyperGrid_eq hp hg
  have hne : entries H.tm ≠ [] := by
    intro h0
    rw [if_pos h0] at e4
    rw [e4] at hr
    simp at hr
  rw [if_neg hne] at e4
  have hpl := weights_len hm hne hg hps
  rcases hyperFit_spec I nJobs H g ps hb hsp hn hg hps hr with ⟨e, he⟩ | ⟨As, hA, hAl, hw, R', hR', -, hhpd, -⟩
  · rw [he] at h; cases h
  rw [h] at hR'
  simp only [Except.ok.injEq, Option.some.injEq] at hR'
  subst hR'
  have hnb' : ¬ ((flatten H.tm.cpNameTree).length > 0 ∧ (flatten H.tm.bpNameTree).length > 0) := by
    rintro ⟨h1, h2⟩
    rcases hnb with h | h <;> simp [h] at h1 h2
  have hsome : ¬ ((flatten H.tm.cpNameTree).length = 0 ∧ (flatten H.tm.bpNameTree).length = 0) := by
    rintro ⟨h1, h2⟩
    refine hpt (List.eq_nil_iff_forall_not_mem.2 fun n hn => ?_)
    rw [pointNames_mem, List.length_eq_zero_iff.1 h1, List.length_eq_zero_iff.1 h2] at hn
    simp at hn
  have hd : ¬ (duplicates H.tm.flatNames).length > 0 := by
    rw [(Props.duplicates_eq_nil _).2 (by rw [entries_names H.tm hp]; exact hw.2.1)]
    simp
  have hmask : (g.rows.map fun x => decide (InOrder H.tm x)) = g.rows.map fun _ => true :=
    List.map_congr_left fun r hr => by simpa using ho r (e4 ▸ hr)
  have hq : rescaled (g.rows.map fun _ => true) ps = some ps := by
    simp only [rescaled, select_all _ _ hpl.symm, if_neg hs, div_self hs, mul_one, List.map_id']
  have hcore : hyperCore I nJobs g.flat g.rows g.hgc ps H = .ok R := by
    unfold hyperFit at h
    rw [hg] at h
    simp only [bind, Except.bind, shared_false hp hg hw.2.1 hnb' fun r hr => ho r (e4 ▸ hr), Bool.false_eq_true, if_false, if_neg hd, hps] at h
    revert h
    cases hyperCore I nJobs g.flat g.rows g.hgc ps H with
    | error e => intro h; cases h
    | ok r => simp only [Except.ok.injEq, Option.some.injEq]; exact id
  unfold cpFit
  rw [if_neg (by omega)]
  simp only
  rw [if_neg hnb', if_neg hsome, hg]
  simp only [bind, Except.bind]
  rw [if_neg hd, cp_mask hp hg hw.2.1 hnb', hmask, select_all _ _ rfl]
  simp only [hps, hq, hcore]
  cases hh : R.hpd with
  | none =>
      refine ⟨_, rfl, ?_⟩
      simp only [← hh]
  | some l =>
      have hl : l.length = g.rows.length := by
        rw [hhpd] at hh
        unfold hyperDist at hh
        simp only at hh
        split at hh
        · cases hh
        · split at hh
          · cases hh
          · simp only [Option.some.injEq] at hh
            rw [← hh]
            simp only [logHPD, List.length_map, List.length_zipWith]
            rw [hAl, min_self, hA.length_eq]
      simp only [if_pos hl]
      refine ⟨_, rfl, ?_⟩
      simp only [scatter_all _ _ hl.symm, ← hh]

/-- With a single combination the change-point study can fail where the hyper-study returns: the distribution of a previous fit with three combinations is still there (cf. C38, C85). -/
theorem C86_single_refuted : (∃ e, oneResult (hyperFit oneIn 1 (oneState (oneChange (.array [0])) (some [1 / 2, 1 / 4, 1 / 4]))) = some e) ∧
    cpFit oneIn 1 (oneState (oneChange (.array [0])) (some [1 / 2, 1 / 4, 1 / 4])) = .error .valueError := by
  refine ⟨Option.isSome_iff_exists.1 (by decide +kernel), ?_⟩
  have h : (match cpFit oneIn 1 (oneState (oneChange (.array [0])) (some [1 / 2, 1 / 4, 1 / 4])) with
      | .error .valueError => true
      | _ => false) = true := by decide +kernel
  split at h
  · assumption
  · simp at h

/-- Concrete case: two change-points, the candidates 1, 2 of the first one lie before the candidates 3, 4 of the second one; the study returns. -/
example : ∃ (H : HState ℚ Ex.gs2) (C : CState ℚ Ex.gs2), Built H.tm ∧ (∀ r ∈ cart (axes H.tm Ex.cpIn.ts), InOrder H.tm r) ∧ (cart (axes H.tm Ex.cpIn.ts)).length = 4 ∧
    cpFit Ex.cpIn 1 H = .ok (some C) ∧ hyperFit Ex.cpIn 1 H = .ok (some C.R) := by
  obtain ⟨C, h1, -⟩ := Ex.CpOk_iff.1 (show Ex.CpOk (cpFit Ex.cpIn 1 ⟨.combined [Ex.cpOf "a" [1, 2], Ex.cpOf "b" [3, 4]], Ex.S0 .none, [], none⟩) (fun _ => true) = true by decide +kernel)
  have hb : Built (.combined [Ex.cpOf "a" [1, 2], Ex.cpOf "b" [3, 4]]) := by
    refine Built.combined (ms := [Ex.cpOf "a" [1, 2], Ex.cpOf "b" [3, 4]]) ?_ rfl
    intro a ha
    simp only [List.mem_cons, List.not_mem_nil, or_false] at ha
    rcases ha with rfl | rfl <;> exact Ex.cpOf_built _ _
  have ho : ∀ r ∈ cart (axes (.combined [Ex.cpOf "a" [1, 2], Ex.cpOf "b" [3, 4]]) Ex.cpIn.ts), InOrder (.combined [Ex.cpOf "a" [1, 2], Ex.cpOf "b" [3, 4]]) r := by decide +kernel
  exact ⟨_, C, hb, ho, by decide +kernel, h1, C86 _ _ _ _ hb ho h1⟩

/-- one change-point with three candidates -/
example : ∃ C, cpFit Ex.cpIn 1 ⟨Ex.cpOf "a" [1, 2, 3], Ex.S0 .none, [], none⟩ = .ok (some C) ∧ hyperFit Ex.cpIn 1 ⟨Ex.cpOf "a" [1, 2, 3], Ex.S0 .none, [], none⟩ = .ok (some C.R) := by
  obtain ⟨C, h1, -⟩ := Ex.CpOk_iff.1 (show Ex.CpOk (cpFit Ex.cpIn 1 ⟨Ex.cpOf "a" [1, 2, 3], Ex.S0 .none, [], none⟩) (fun _ => true) = true by decide +kernel)
  exact ⟨C, h1, C86 _ _ _ _ (Ex.cpOf_built _ _) (C86_one _ _ (by decide) "a" rfl) h1⟩

end Props
