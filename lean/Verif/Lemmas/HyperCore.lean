import Verif.Lemmas.Hyper
import Verif.Props.C28
import Verif.Props.C27

/-! # `HyperStudy.fit` in terms of the single fits -/

set_option linter.unusedSectionVars false

namespace BL
open Spec
variable {K : Type} [Field K] [LinearOrder K] [IsStrictOrderedRing K] {d : ℕ} {gs : Fin d → ℕ}

theorem hyperCore_spec (I : FitIn K gs) (nJobs : ℕ) (flat : List (HVal K)) (rows : List (List K)) (hgc priors : List K) (H : HState K gs)
    (hw : WellNamed H.tm) (hn : H.S.prior.isArray = false) (hr : 1 < rows.length) (hpl : priors.length = rows.length)
    (hlen : ∀ r ∈ rows, r.length = (entries H.tm).length) (hfl : flat.length = (entries H.tm).length) (hfp : ∀ v ∈ flat, Plain v) :
    match mapE (singleFit I H.tm H.S) rows with
    | .error e => hyperCore I nJobs flat rows hgc priors H = .error e
    | .ok As => ∃ R, hyperCore I nJobs flat rows hgc priors H = .ok R ∧ R.evs = As.map FitState.logEv ∧
        R.hpd = hyperDist (As.map FitState.logEv) priors hgc ∧ R.S.logEv = hyperEvidence (As.map FitState.logEv) priors hgc ∧
        R.S.locals = localAvg I.liks.length (As.map FitState.locals) priors ∧
        R.tm = withValues (assigned ((entries H.tm).map (·.1)) flat) H.tm ∧ R.S.prior = H.S.prior ∧
        (I.evidenceOnly = true → R.S.posts = H.S.posts) ∧
        (I.evidenceOnly = false → R.S.posts = finishAvg (rep I.liks.length (List.zipWith (contrib I.ε) As priors).sum) ∧
          R.S.means = fun a => R.S.posts.filterMap fun c => c.get?.map (mean I.grid a)) := by
  have h1 : (rows.zip priors).map (·.1) = rows := List.map_fst_zip (by omega)
  have h2 : (rows.zip priors).map (·.2) = priors := List.map_snd_zip (by omega)
  have hs := hyperRun_spec I H.tm hw H.S hn nJobs (rows.zip priors) (by
    intro rp hrp
    exact hlen _ (List.of_mem_zip hrp).1)
  rw [mapE_map (singleFit I H.tm H.S) (fun rp : List K × K => rp.1), h1, h2] at hs
  unfold hyperCore
  rw [if_pos hr]
  cases hA : mapE (singleFit I H.tm H.S) rows with
  | error e =>
      rw [hA] at hs
      simp only at hs ⊢
      rw [hs]
      rfl
  | ok As =>
      rw [hA] at hs
      simp only at hs ⊢
      obtain ⟨L, l1, l2, l3, l4, l5, l6, l7⟩ := hs
      have hset := setAll_shape hw l4 hfl hfp
      rw [l1]
      simp only [bind, Except.bind]
      rw [hset.1]
      simp only [l2, l3]
      refine ⟨_, rfl, rfl, rfl, rfl, rfl, rfl, l5, fun h => by simp [h, l6 h], fun h => ?_⟩
      simp [h, l7 h]

theorem expandAll_plain {ts : List K} {v : HVal K} (h : Plain v) : Plain (expandAll ts v) := by
  cases v <;> first | trivial | exact h

theorem entries_plain : ∀ (tm : TM K), Proper tm → ∀ v ∈ tm.flatValues, Plain v := by
  have key : (∀ tm : TM K, Proper tm → ∀ e ∈ entries tm, Plain e.2) := by
    intro tm
    refine TM.rec (motive_1 := fun tm => Proper tm → ∀ e ∈ entries tm, Plain e.2)
      (motive_2 := fun ms => ProperAll ms → ∀ e ∈ entriesAll ms, Plain e.2) ?_ ?_ ?_ ?_ ?_ tm
    · intro k names vals pr hp e he
      rw [entries] at he
      exact (proper_leaf hp).2 _ (List.of_mem_zip he).2
    · intro ms ih hp e he
      exact ih hp e he
    · intro names vals pr mask ms ih hp e he
      rw [entries, List.mem_append] at he
      rcases he with he | he
      · exact ih hp.2.2 e he
      · exact hp.2.1 _ (List.of_mem_zip he).2
    · intro _ e he
      simp [entriesAll] at he
    · intro m ms ih1 ih2 hp e he
      rw [entriesAll, List.mem_append] at he
      rcases he with he | he
      · exact ih1 hp.1 e he
      · exact ih2 hp.2 e he
  intro tm hp v hv
  rw [entries_values tm hp] at hv
  obtain ⟨e, he, rfl⟩ := List.mem_map.1 hv
  exact key tm hp e he

theorem axis_len {pr : HPrior K} {v : HVal K} {vals : List K} {c : K} {q : List K}
    (h : hyperPriorAxis pr v vals c = .ok (some q)) : q.length = vals.length := by
  have hn : ∀ {p q : List K} {c : K}, normPrior p c = some q → q.length = p.length := by
    intro p q c h
    unfold normPrior at h
    split at h
    · cases h
    · cases h; simp
  cases pr with
  | none =>
      simp only [hyperPriorAxis, Except.ok.injEq] at h
      rw [hn h]; simp
  | func f =>
      have h' : normPrior (vals.map f) c = some q := by
        cases v <;> simp [hyperPriorAxis] at h <;> exact h
      rw [hn h']; simp
  | arr l =>
      have h' : normPrior l c = some q ∧ l.length = vals.length := by
        cases v <;> simp [hyperPriorAxis] at h <;> (split at h <;> simp at h; rename_i hl; exact ⟨h, hl⟩)
      rw [hn h'.1, h'.2]
  | rv pdf =>
      simp only [hyperPriorAxis, Except.ok.injEq, Option.some.injEq] at h
      subst h; simp
  | num x => simp [hyperPriorAxis] at h

theorem weights_len {ts : List K} {tm : TM K} {g : HyperGrid K} (hb : OnePrior tm) (hne : entries tm ≠ [])
    (hg : createHyperGrid tm ts = .ok g) {ps : List K} (hps : g.priors = some ps) : ps.length = g.rows.length := by
  have hp := hb.proper
  obtain ⟨p1, p2⟩ := hb.priors
  have hn := entries_names tm hp
  have key : ∀ (es : List (String × HVal K)) (prs : List (String × HPrior K)) (pa : List (Option (List K))) (q : List (List K)) (cs : List K),
      prs.length = es.length → cs.length = es.length →
      priorAxes (prs.map (·.2)) ((es.map (·.2)).map (expandAll ts)) (es.map fun e => valuesOf ts e.2) cs (es.map (·.1)) = .ok pa →
      allSome pa = some q → q.map List.length = (es.map fun e => valuesOf ts e.2).map List.length := by
    intro es
    induction es with
    | nil =>
        intro prs pa q cs h1 h2 h hq
        have : prs = [] := List.length_eq_zero_iff.1 h1
        subst this
        simp only [priorAxes, List.map_nil, List.zip_nil_left, mapE, Except.ok.injEq] at h
        subst h
        simp only [allSome, Option.some.injEq] at hq
        subst hq; rfl
    | cons e es ih =>
        intro prs pa q cs h1 h2 h hq
        cases prs with
        | nil => simp at h1
        | cons p prs =>
          cases cs with
          | nil => simp at h2
          | cons c cs =>
            simp only [priorAxes, List.map_cons, List.zip_cons_cons] at h
            rw [Props.mapE_ok] at h
            cases h with
            | @cons _ y _ r k1 k2 =>
              rw [← Props.mapE_ok] at k2
              simp only at k1
              cases y with
              | none => simp [allSome] at hq
              | some y =>
                  simp only [allSome, Option.map_eq_some_iff] at hq
                  obtain ⟨q', hq', rfl⟩ := hq
                  rw [List.map_cons, List.map_cons, List.map_cons, axis_len k1,
                    ih prs r q' cs (by simpa using h1) (by simpa using h2) k2 hq']
  obtain ⟨-, -, h3, h4⟩ := Props.createHyperGrid_eq hp hg
  rw [if_neg hne] at h4
  unfold createHyperGrid at hg
  simp only [bind, Except.bind] at hg
  cases ha : mapE axisValues (tm.flatValues.map (expandAll ts)) with
  | error e => rw [ha] at hg; cases hg
  | ok ax =>
      have hax : ax = axes tm ts := by
        rw [Props.axesOK ha, entries_values tm hp, axes, List.map_map]; rfl
      rw [ha] at hg
      simp only at hg
      split at hg
      · cases hg
      · rename_i pa hpa
        have hlen : tm.flatNames.length > 0 := by
          rw [hn, List.length_map]; exact List.length_pos_iff.2 hne
        rw [if_pos hlen] at hg
        split at hg
        · cases hg
        · cases hg
          simp only [Option.map_eq_some_iff] at hps
          obtain ⟨q, hq, rfl⟩ := hps
          rw [hax, p1, hn, entries_values tm hp] at hpa
          have hlp : (priorsOf tm).length = (entries tm).length := by
            rw [hn] at p2
            have := congrArg List.length p2
            simpa using this
          have hk := key (entries tm) (priorsOf tm) pa q _ hlp (by simp [axes]) hpa hq
          rw [List.length_map, cart_length, h4, cart_length, hk]
          rfl

/-- Successful `HyperStudy.fit` on more than one combination: everything in terms of the single fits. -/
theorem hyperFit_spec (I : FitIn K gs) (nJobs : ℕ) (H : HState K gs) (g : HyperGrid K) (ps : List K) (hb : Built H.tm)
    (hsp : " " ∉ (entries H.tm).map (·.1)) (hn : H.S.prior.isArray = false)
    (hg : createHyperGrid H.tm I.ts = .ok g) (hps : g.priors = some ps) (hr : 1 < g.rows.length) :
    (∃ e, ∀ nJobs, hyperFit I nJobs H = .error e) ∨
    ∃ As, List.Forall₂ (fun row A => singleFit I H.tm H.S row = .ok A) g.rows As ∧ ps.length = As.length ∧ WellNamed H.tm ∧ ∃ R,
      hyperFit I nJobs H = .ok (some R) ∧ R.evs = As.map FitState.logEv ∧
        R.hpd = hyperDist (As.map FitState.logEv) ps g.hgc ∧ R.S.logEv = hyperEvidence (As.map FitState.logEv) ps g.hgc ∧
        R.S.locals = localAvg I.liks.length (As.map FitState.locals) ps ∧
        R.tm = withValues (assigned ((entries H.tm).map (·.1)) g.flat) H.tm ∧ R.S.prior = H.S.prior ∧
        (I.evidenceOnly = true → R.S.posts = H.S.posts) ∧
        (I.evidenceOnly = false → R.S.posts = finishAvg (rep I.liks.length (List.zipWith (contrib I.ε) As ps).sum) ∧
          R.S.means = fun a => R.S.posts.filterMap fun c => c.get?.map (mean I.grid a)) := by
  have hm := Built.matched hb
  have hp := hm.proper
  obtain ⟨e1, e2, -, e4⟩ := Props.createHyperGrid_eq hp hg
  have hne : entries H.tm ≠ [] := by
    intro h0
    rw [if_pos h0] at e4
    rw [e4] at hr
    simp at hr
  rw [if_neg hne] at e4
  have hdef : ∀ n, hyperFit I n H = if sharedPoints H.tm g then .error .configuration
      else if (duplicates H.tm.flatNames).length > 0 then .error .configuration
      else (hyperCore I n g.flat g.rows g.hgc ps H).bind fun r => .ok (some r) := by
    intro n
    unfold hyperFit
    rw [hg]
    simp only [bind, Except.bind, hps]
  by_cases hsh : sharedPoints H.tm g = true
  · left
    exact ⟨.configuration, fun n => by rw [hdef, if_pos hsh]⟩
  by_cases hd : (duplicates H.tm.flatNames).length > 0
  · left
    exact ⟨.configuration, fun n => by rw [hdef, if_neg hsh, if_pos hd]⟩
  have hnd : ((entries H.tm).map (·.1)).Nodup := by
    rw [← entries_names H.tm hp]
    exact (Props.duplicates_eq_nil _).1 (List.length_eq_zero_iff.1 (by omega))
  have hw : WellNamed H.tm := ⟨hp, hnd, hsp⟩
  have hpl := weights_len hm hne hg hps
  have hlen : ∀ r ∈ g.rows, r.length = (entries H.tm).length := by
    intro r hr
    rw [e4, cart_mem] at hr
    rw [hr.length_eq, axes, List.length_map]
  have hfl : g.flat.length = (entries H.tm).length := by rw [e1, List.length_map, entries_values H.tm hp, List.length_map]
  have hfp : ∀ v ∈ g.flat, Plain v := by
    intro v hv
    rw [e1] at hv
    obtain ⟨w, hw, rfl⟩ := List.mem_map.1 hv
    exact expandAll_plain (entries_plain H.tm hp w hw)
  have hcore := fun n => hyperCore_spec I n g.flat g.rows g.hgc ps H hw hn hr hpl hlen hfl hfp
  cases hA : mapE (singleFit I H.tm H.S) g.rows with
  | error e =>
      left
      refine ⟨e, fun n => ?_⟩
      have := hcore n
      rw [hA] at this
      simp only at this
      rw [hdef, if_neg hsh, if_neg hd, this]
      rfl
  | ok As =>
      right
      have := hcore nJobs
      rw [hA] at this
      simp only at this
      obtain ⟨R, r1, r2⟩ := this
      refine ⟨As, Props.mapE_ok.1 hA, by rw [hpl, mapE_length hA], hw, R, ?_, r2⟩
      rw [hdef, if_neg hsh, if_neg hd, r1]
      rfl

end BL
