import Verif.Props.C40
import Verif.Lemmas.HyperAvg

/-! # C41, C42: weights of models and hyper-parameters in an online study -/

set_option linter.unusedSectionVars false

namespace Props
open BL Spec

variable {K D : Type} [Field K] [LinearOrder K] [IsStrictOrderedRing K] {d : ℕ} {gs : Fin d → ℕ}

theorem normWeights_eq {w r : List K} (h0 : ∀ x ∈ w, 0 ≤ x) (h : normWeights w = some r) : r = normalised w ∧ 0 < w.sum ∧ r.sum = 1 := by
  unfold normWeights at h
  split at h
  · cases h
  · rename_i M hM
    by_cases hm : M = 0
    · simp [hm] at h
    · simp only [hm, ↓reduceIte, Option.some.injEq] at h
      have hne : w ≠ [] := by rintro rfl; simp [listMax] at hM
      obtain ⟨M', m1, m2, m3⟩ := listMax_some hne
      rw [hM] at m1
      cases m1
      have hpos : 0 < w.sum := list_sum_pos h0 m2 (lt_of_le_of_ne (h0 M m2) (Ne.symm hm))
      have e : r = normalised w := by
        rw [← h, sum_div_list, List.map_map, normalised]
        apply List.map_congr_left
        intro x _
        simp only [Function.comp]
        rw [div_div_div_cancel_right₀ hm]
      refine ⟨e, hpos, ?_⟩
      rw [e, normalised, sum_div_list, div_self hpos.ne']

theorem chain_nonneg {E : Env K gs} {M : TM K} : ∀ (Ls : List (Idx gs → K)) (f : Option (Arr K gs)) (h h' : OHyp K gs),
    (∀ l, h.ev = some l → 0 ≤ l.exp) → chain E M f h Ls = .ok h' → ∀ l, h'.ev = some l → 0 ≤ l.exp
  | [], f, h, h', h0, hc, l, hl => by
      rw [chain] at hc
      cases hc
      exact h0 l hl
  | L :: Ls, f, h, h', h0, hc, l, hl => by
      rw [chain] at hc
      simp only [bind, Except.bind] at hc
      split at hc
      · cases hc
      · rename_i h1 hh1
        refine chain_nonneg Ls none h1 h' ?_ hc l hl
        intro l1 hl1
        rw [OHyp.update] at hh1
        cases hp : predictive E M f h.post with
        | error e => rw [hp] at hh1; cases hh1
        | ok a =>
            rw [hp] at hh1
            cases hh1
            cases a with
            | none => simp [OHyp.absorb] at hl1
            | some a =>
                simp only [OHyp.absorb] at hl1
                split at hl1
                · cases hl1
                · rename_i hn
                  cases he : h.ev with
                  | none => simp [he] at hl1
                  | some l0 =>
                      simp only [he, Option.map_some, Option.some.injEq] at hl1
                      rw [← hl1]
                      exact mul_nonneg (h0 l0 he) (not_lt.1 hn)

theorem chain_post {E : Env K gs} {M : TM K} : ∀ (Ls : List (Idx gs → K)) (f : Option (Arr K gs)) (h h' : OHyp K gs), Ls ≠ [] →
    chain E M f h Ls = .ok h' → ∀ p, h'.post = some p → ∑ x, p x = 1
  | [], _, _, _, hL, _, _, _ => absurd rfl hL
  | [L], f, h, h', _, hc, p, hp => by
      simp only [chain, bind, Except.bind] at hc
      split at hc
      · cases hc
      · rename_i h1 hh1
        cases hc
        rw [OHyp.update] at hh1
        cases hq : predictive E M f h.post with
        | error e => rw [hq] at hh1; cases hh1
        | ok a =>
            rw [hq] at hh1
            cases hh1
            cases a with
            | none => simp [OHyp.absorb] at hp
            | some a =>
                simp only [OHyp.absorb, divScalar] at hp
                split at hp
                · cases hp
                · rename_i hn
                  cases hp
                  rw [← Finset.sum_div, div_self hn]
  | L :: L' :: Ls, f, h, h', _, hc, p, hp => by
      rw [chain] at hc
      simp only [bind, Except.bind] at hc
      split at hc
      · cases hc
      · rename_i h1 hh1
        exact chain_post (L' :: Ls) none h1 h' (by simp) hc p hp

/-- the attributes of a finished model -/
theorem hypWeights_some {hyps : List (OHyp K gs)} {priors : Option (List K)} {w : List K} (h : hypWeights hyps priors = some w) :
    ∃ es ps, hyps.map (fun h => h.ev.map LogV.exp) = es.map some ∧ priors = some ps ∧ w = List.zipWith (· * ·) es ps := by
  unfold hypWeights at h
  split at h
  · rename_i evs ps h1
    cases h
    refine ⟨evs.map LogV.exp, ps, ?_, rfl, ?_⟩
    · have e := allSome_eq h1
      rw [List.map_map]
      have := congrArg (List.map (Option.map LogV.exp)) e
      rw [List.map_map, List.map_map] at this
      exact this
    · rw [List.zipWith_map_left]
      rfl
  · cases h

theorem zipWith_nonneg {es ps : List K} (h1 : ∀ e ∈ es, 0 ≤ e) (h2 : ∀ p ∈ ps, 0 ≤ p) : ∀ x ∈ List.zipWith (· * ·) es ps, 0 ≤ x := by
  intro x hx
  rw [List.mem_iff_getElem] at hx
  obtain ⟨i, hi, rfl⟩ := hx
  rw [List.getElem_zipWith]
  exact mul_nonneg (h1 _ (List.getElem_mem _)) (h2 _ (List.getElem_mem _))

theorem mix_sum {ws : List K} {ps : List (Idx gs → K)} (hl : ws.length = ps.length) (h1 : ∀ p ∈ ps, ∑ x, p x = 1) : ∑ x, mix ws ps x = ws.sum := by
  induction ps generalizing ws with
  | nil =>
      rw [List.length_nil, List.length_eq_zero_iff] at hl
      subst hl
      simp [mix]
  | cons p ps ih =>
      cases ws with
      | nil => simp at hl
      | cons w ws =>
          have := ih (ws := ws) (by simpa using hl) fun q hq => h1 q (by simp [hq])
          simp only [mix, List.zipWith_cons_cons, List.sum_cons, Finset.sum_add_distrib] at this ⊢
          rw [this, ← Finset.mul_sum, h1 p (by simp), mul_one]

/-- a finished model -/
structure Finished (m : OModelSt K gs) : Prop where
  priors : ∃ ps, m.grid.priors = some ps ∧ ps.length = m.hyps.length ∧ ∀ p ∈ ps, 0 ≤ p
  evs : ∀ h ∈ m.hyps, ∀ l, h.ev = some l → 0 ≤ l.exp
  posts : ∀ h ∈ m.hyps, ∀ p, h.post = some p → ∑ x, p x = 1
  eq : m = m.finish m.tm m.hyps

theorem online_facts {c : OConf K D gs} (h1 : 1 ≤ c.seg) (hcell : 0 ≤ c.E.cell) {ms : List (String × TM K)} (hg : GoodModels ms) (hnn : NonnegPriors ms)
    (hne : ms ≠ []) {store : Bool} {prior : PriorSpec K gs} {p : Option (List K)} {S S' : OState K D gs} (hs : setup store prior ms p = .ok S) {xs : List D}
    (hr : runSteps c S xs = .ok S') (hx : c.seg ≤ xs.length) :
    List.Forall₂ (fun q m => m.name = q.1 ∧ createHyperGrid q.2 [] = .ok m.grid ∧ Finished m) ms S'.models ∧
    S'.tmPrior = some (S.tmPrior.getD (ms.map fun _ => 1 / (ms.length : K))) ∧
    S'.tmd = ((allSome (S'.models.map OModelSt.hyperEv)).map fun l => l.map LogV.exp).bind normWeights ∧
    S'.marg = mixture (S'.models.map OModelSt.post) S'.tmd ∧
    S'.logEv = ((allSome (S'.models.map OModelSt.hyperEv)).map fun l => l.map LogV.exp).map fun l =>
      ⟨(List.zipWith (· * ·) l (S'.tmPrior.getD [])).sum⟩ := by
  obtain ⟨i1, -⟩ := setup_inv h1 hs
  have hi := runSteps_inv h1 hg hne xs [] S S' i1 hr
  rw [List.nil_append] at hi
  obtain ⟨-, a0, -, a2, -, a3, a4, a5, a6⟩ := hi.after hx
  have hL : segLiks c xs ≠ [] := by
    intro h0
    have := congrArg List.length h0
    simp only [segLiks, List.length_map, movingWindow_len, List.length_nil] at this
    omega
  refine ⟨?_, a2, a4, a5, a6⟩
  refine (forall₂_and_mem a3).imp ?_
  rintro q m ⟨hq, ht, hf⟩
  refine ⟨ht.name, ht.grid, ?_, ?_, ?_, hf⟩
  · obtain ⟨g1, -, g3⟩ := hg q hq
    have hb := Built.matched g1
    cases hp : m.grid.priors with
    | none => exact absurd hp (g3 _ ht.grid)
    | some ps =>
        refine ⟨ps, rfl, ?_, hnn q hq _ ps ht.grid hp⟩
        have hlen := ht.hyps.length_eq
        have e4 := (createHyperGrid_eq hb.proper ht.grid).2.2.2
        unfold hypotheses at hlen
        by_cases h0 : m.grid.rows.length = 0
        · have he := rows_short hb ht.grid (ht.short hL) (g3 _ ht.grid) h0
          rw [if_pos h0] at hlen
          have hgr := ht.grid
          have hnm : q.2.flatNames = [] := by rw [entries_names q.2 hb.proper, he]; rfl
          unfold createHyperGrid at hgr
          simp only [bind, Except.bind, hnm] at hgr
          split at hgr
          · cases hgr
          · split at hgr
            · cases hgr
            · simp only [List.length_nil, gt_iff_lt, lt_self_iff_false, ↓reduceIte, Except.ok.injEq] at hgr
              rw [← hgr] at hp
              cases hp
              exact hlen
        · rw [if_neg h0, List.length_map] at hlen
          rw [← hlen]
          refine weights_len hb ?_ ht.grid hp
          intro he
          rw [if_pos he] at e4
          rw [e4] at h0
          exact h0 rfl
  · intro h hh l hl
    obtain ⟨i, hi', rfl⟩ := List.mem_iff_getElem.1 hh
    have := (List.forall₂_iff_get.1 ht.hyps).2 i (by rw [ht.hyps.length_eq]; exact hi') hi'
    refine chain_nonneg _ _ _ _ ?_ this l hl
    intro l0 hl0
    cases hl0
    exact hcell
  · intro h hh p hp
    obtain ⟨i, hi', rfl⟩ := List.mem_iff_getElem.1 hh
    have := (List.forall₂_iff_get.1 ht.hyps).2 i (by rw [ht.hyps.length_eq]; exact hi') hi'
    exact chain_post _ _ _ _ hL this p hp

/-- accumulated evidence of a finished model -/
theorem Finished.hyperEv {m : OModelSt K gs} (hf : Finished m) {l : LogV K} (h : m.hyperEv = some l) :
    ∃ es ps, Weighted m es ps ∧ es.length = ps.length ∧ (∀ e ∈ es, 0 ≤ e) ∧ (∀ p ∈ ps, 0 ≤ p) ∧ l.exp = (List.zipWith (· * ·) es ps).sum := by
  rw [hf.eq] at h
  simp only [OModelSt.finish] at h
  cases hw : hypWeights m.hyps m.grid.priors with
  | none => simp [hw] at h
  | some w =>
      simp only [hw, Option.map_some, Option.some.injEq] at h
      obtain ⟨es, ps, e1, e2, e3⟩ := hypWeights_some hw
      obtain ⟨ps', p1, p2, p3⟩ := hf.priors
      rw [e2] at p1
      cases p1
      have hl : es.length = ps.length := by
        have := congrArg List.length e1
        rw [List.length_map, List.length_map] at this
        omega
      refine ⟨es, ps, ⟨e1, e2⟩, hl, ?_, p3, ?_⟩
      · intro e he
        obtain ⟨h', hh, hh'⟩ := List.mem_map.1 (show some e ∈ m.hyps.map (fun h => h.ev.map LogV.exp) by rw [e1]; exact List.mem_map.2 ⟨e, he, rfl⟩)
        cases hev : h'.ev with
        | none => simp [hev] at hh'
        | some l' =>
            simp only [hev, Option.map_some, Option.some.injEq] at hh'
            rw [← hh']
            exact hf.evs h' hh l' hev
      · rw [← h, e3]
        rfl

/-- The evidences of all models, discretised prior densities of hyper-parameter values as weights: `H i = Σ_j e_ij p_ij`. -/
def Evidences (ms : List (OModelSt K gs)) (Hs : List K) : Prop :=
  List.Forall₂ (fun m H => ∃ es ps, Weighted m es ps ∧ es.length = ps.length ∧ H = (List.zipWith (· * ·) es ps).sum) ms Hs

theorem evidences_of {ms : List (String × TM K)} {Ms : List (OModelSt K gs)} (hf : List.Forall₂ (fun q m => m.name = q.1 ∧ createHyperGrid q.2 [] = .ok m.grid ∧ Finished m) ms Ms)
    {ls : List (LogV K)} (h : Ms.map OModelSt.hyperEv = ls.map some) : Evidences Ms (ls.map LogV.exp) ∧ ∀ x ∈ ls.map LogV.exp, 0 ≤ x := by
  induction hf generalizing ls with
  | nil =>
      cases ls with
      | nil => exact ⟨.nil, by simp⟩
      | cons _ _ => simp at h
  | @cons q m ms Ms a _ ih =>
      cases ls with
      | nil => simp at h
      | cons l ls =>
          simp only [List.map_cons, List.cons.injEq] at h
          obtain ⟨es, ps, b1, b2, b3, b4, b5⟩ := a.2.2.hyperEv h.1
          obtain ⟨i1, i2⟩ := ih h.2
          refine ⟨.cons ⟨es, ps, b1, b2, b5⟩ i1, ?_⟩
          intro x hx
          rcases List.mem_cons.1 hx with rfl | hx
          · rw [b5]; exact List.sum_nonneg (zipWith_nonneg b3 b4)
          · exact i2 x hx

/-- **C41 (what the code computes).** All sets of models, hyper-grids, priors of models, data: the stored distribution of the transition models is the list of
evidences of the models divided by its sum, with the discretised prior densities of the hyper-parameters as weights; it sums to one.  The prior of the models does not enter. -/
theorem C41_exact (c : OConf K D gs) (h1 : 1 ≤ c.seg) (hcell : 0 ≤ c.E.cell) (ms : List (String × TM K)) (hg : GoodModels ms) (hnn : NonnegPriors ms)
    (hne : ms ≠ []) (store : Bool) (prior : PriorSpec K gs) (p : Option (List K)) (S S' : OState K D gs) (hs : setup store prior ms p = .ok S) (xs : List D)
    (hr : runSteps c S xs = .ok S') (hx : c.seg ≤ xs.length) (w : List K) (hw : S'.tmd = some w) :
    ∃ Hs, Evidences S'.models Hs ∧ w = normalised Hs ∧ 0 < Hs.sum ∧ w.sum = 1 := by
  obtain ⟨a1, -, a3, -⟩ := online_facts h1 hcell hg hnn hne hs hr hx
  rw [a3] at hw
  cases hl : allSome (S'.models.map OModelSt.hyperEv) with
  | none => simp [hl] at hw
  | some ls =>
      obtain ⟨b1, b2⟩ := evidences_of a1 (allSome_eq hl)
      rw [hl] at hw
      obtain ⟨c1, c2, c3⟩ := normWeights_eq b2 hw
      exact ⟨_, b1, c1, c2, c3⟩

/-- The stored distribution exists whenever every model has a number as evidence for every hyper-parameter value and the total is positive. -/
theorem C41_defined (c : OConf K D gs) (h1 : 1 ≤ c.seg) (hcell : 0 ≤ c.E.cell) (ms : List (String × TM K)) (hg : GoodModels ms) (hnn : NonnegPriors ms)
    (hne : ms ≠ []) (store : Bool) (prior : PriorSpec K gs) (p : Option (List K)) (S S' : OState K D gs) (hs : setup store prior ms p = .ok S) (xs : List D)
    (hr : runSteps c S xs = .ok S') (hx : c.seg ≤ xs.length) (Hs : List K) (hH : Evidences S'.models Hs) (h0 : 0 < Hs.sum) :
    S'.tmd = some (normalised Hs) := by
  obtain ⟨a1, -, a3, -⟩ := online_facts h1 hcell hg hnn hne hs hr hx
  have key : ∀ {qs : List (String × TM K)} {Ms : List (OModelSt K gs)} {Hs : List K},
      List.Forall₂ (fun q m => m.name = q.1 ∧ createHyperGrid q.2 [] = .ok m.grid ∧ Finished m) qs Ms → Evidences Ms Hs →
      Ms.map OModelSt.hyperEv = Hs.map fun h => some (LogV.log h) := by
    intro qs Ms Hs hf hE
    induction hE generalizing qs with
    | nil => rfl
    | @cons m H Ms Hs a _ ih =>
        cases hf with
        | cons b bs =>
            rw [List.map_cons, List.map_cons, ih bs]
            congr 1
            obtain ⟨es, ps, ⟨w1, w2⟩, -, w4⟩ := a
            have he : ∃ ls : List (LogV K), m.hyps.map OHyp.ev = ls.map some ∧ ls.map LogV.exp = es := by
              refine ⟨es.map LogV.log, ?_, by simp [Function.comp_def]⟩
              have := congrArg (List.map (Option.map LogV.log)) w1
              rw [List.map_map, List.map_map] at this
              rw [List.map_map]
              refine Eq.trans ?_ this
              apply List.map_congr_left
              intro h _
              simp only [Function.comp]
              cases h.ev <;> rfl
            obtain ⟨ls, l1, l2⟩ := he
            have : hypWeights m.hyps m.grid.priors = some (List.zipWith (· * ·) es ps) := by
              have ha := allSome_map (id : LogV K → LogV K) ls
              rw [List.map_id] at ha
              have l1' : allSome (m.hyps.map OHyp.ev) = some ls := by rw [l1]; exact ha
              simp only [hypWeights, l1', w2]
              rw [← l2, List.zipWith_map_left]
              rfl
            rw [show m.hyperEv = (m.finish m.tm m.hyps).hyperEv from congrArg OModelSt.hyperEv b.2.2.eq]
            simp only [OModelSt.finish, this, Option.map_some, w4]
            rfl
  rw [a3, key a1 hH, allSome_map]
  simp only [Option.map_some, Option.bind_some, List.map_map]
  have hb : (∀ x ∈ Hs, 0 ≤ x) := by
    have h2 := evidences_of a1 (ls := Hs.map LogV.log) (by rw [key a1 hH, List.map_map]; rfl)
    simpa [List.map_map, Function.comp_def] using h2.2
  have hid : Hs.map (LogV.exp ∘ LogV.log) = Hs := by simp [Function.comp_def]
  rw [hid]
  cases hn : normWeights Hs with
  | some r => rw [(normWeights_eq hb hn).1]
  | none =>
      exfalso
      have hne : Hs ≠ [] := by rintro rfl; simp at h0
      obtain ⟨M, m1, m2, m3⟩ := listMax_some hne
      have hM : M ≠ 0 := by
        rintro rfl
        exact h0.ne' (List.sum_eq_zero fun x hx => le_antisymm (m3 x hx) (hb x hx))
      simp [normWeights, m1, hM] at hn

/-- The evidence of the whole online study is the sum over models of prior probability times evidence. -/
theorem C41_evidence (c : OConf K D gs) (h1 : 1 ≤ c.seg) (hcell : 0 ≤ c.E.cell) (ms : List (String × TM K)) (hg : GoodModels ms) (hnn : NonnegPriors ms)
    (hne : ms ≠ []) (store : Bool) (prior : PriorSpec K gs) (p : Option (List K)) (S S' : OState K D gs) (hs : setup store prior ms p = .ok S) (xs : List D)
    (hr : runSteps c S xs = .ok S') (hx : c.seg ≤ xs.length) (l : LogV K) (hl : S'.logEv = some l) :
    ∃ Hs πs, Evidences S'.models Hs ∧ S'.tmPrior = some πs ∧ l.exp = (List.zipWith (· * ·) Hs πs).sum := by
  obtain ⟨a1, a2, -, -, a5⟩ := online_facts h1 hcell hg hnn hne hs hr hx
  rw [a5] at hl
  cases hls : allSome (S'.models.map OModelSt.hyperEv) with
  | none => simp [hls] at hl
  | some ls =>
      obtain ⟨b1, -⟩ := evidences_of a1 (allSome_eq hls)
      simp only [hls, Option.map_some, Option.some.injEq] at hl
      refine ⟨_, _, b1, a2, ?_⟩
      rw [← hl, a2]
      rfl

theorem normalised_scale {l : List K} {κ : K} (hκ : κ ≠ 0) : normalised (l.map (κ * ·)) = normalised l := by
  rw [normalised, normalised, List.map_map, show (l.map (κ * ·)).sum = κ * l.sum by simpa using List.sum_map_mul_left l id κ]
  apply List.map_congr_left
  intro x _
  simp only [Function.comp]
  rw [mul_div_mul_left _ _ hκ]

theorem tmPrior_len {c : OConf K D gs} (h1 : 1 ≤ c.seg) {ms : List (String × TM K)} {store : Bool} {prior : PriorSpec K gs} {p : Option (List K)} {S : OState K D gs}
    (hs : setup store prior ms p = .ok S) : (S.tmPrior.getD (ms.map fun _ => 1 / (ms.length : K))).length = ms.length := by
  obtain ⟨-, -, -, t1, t2, -⟩ := setup_inv h1 hs
  cases p with
  | none => simp only at t1; simp [t1]
  | some v =>
      simp only at t1
      rw [t1]
      split
      · simpa using t2 v rfl
      · split
        · simp
        · simpa using t2 v rfl

theorem mixture_none (ps : List (Arr K gs)) : mixture ps none = none := by
  unfold mixture
  cases allSome ps <;> rfl

/-- **C41 (part that holds).** If no prior of the models is set, or all models have the same prior probability, and if the hyper-grids of all models
have the same cell volume (in particular if no model has hyper-parameters): the distribution of the models is proportional to prior
times evidence, the evidence of a model being the average of the evidences of its hyper-parameter values over the prior probabilities of the cells. -/
theorem C41_partial (c : OConf K D gs) (h1 : 1 ≤ c.seg) (hcell : 0 ≤ c.E.cell) (ms : List (String × TM K)) (hg : GoodModels ms) (hnn : NonnegPriors ms)
    (hne : ms ≠ []) (store : Bool) (prior : PriorSpec K gs) (p : Option (List K)) (S S' : OState K D gs) (hs : setup store prior ms p = .ok S) (xs : List D)
    (hr : runSteps c S xs = .ok S') (hx : c.seg ≤ xs.length) (w : List K) (hw : S'.tmd = some w)
    (πs : List K) (hπ : S'.tmPrior = some πs) (hflat : ∀ a ∈ πs, a = 1 / (ms.length : K))
    (κ : K) (hκ0 : κ ≠ 0) (hκ : ∀ m ∈ S'.models, m.grid.hgc.prod = κ) :
    ∃ As, List.Forall₂ (fun m A => ∃ es ps, Weighted m es ps ∧ es.length = ps.length ∧
        A = (List.zipWith (fun e p => e * (p * m.grid.hgc.prod)) es ps).sum) S'.models As ∧
      w = normalised (List.zipWith (· * ·) πs As) ∧ w.sum = 1 := by
  obtain ⟨Hs, e1, e2, e3, e4⟩ := C41_exact c h1 hcell ms hg hnn hne store prior p S S' hs xs hr hx w hw
  obtain ⟨a1, a2, -⟩ := online_facts h1 hcell hg hnn hne hs hr hx
  have hN : (ms.length : K) ≠ 0 := by
    rw [Nat.cast_ne_zero]
    exact fun h => hne (List.length_eq_zero_iff.1 h)
  refine ⟨Hs.map (κ * ·), ?_, ?_, e4⟩
  · clear hw e2 e3 e4 a1 hr a2 hπ
    unfold Evidences at e1
    generalize S'.models = Ms at hκ e1
    induction e1 with
    | nil => exact .nil
    | @cons m H Ms Hs a _ ih =>
        refine .cons ?_ (ih fun m' hm' => hκ m' (by simp [hm']))
        obtain ⟨es, ps, w1, w2, rfl⟩ := a
        refine ⟨es, ps, w1, w2, ?_⟩
        rw [hκ m (by simp)]
        have := List.sum_map_mul_left (List.zipWith (· * ·) es ps) id κ
        rw [List.map_id] at this
        simp only
        rw [← this, List.map_zipWith]
        congr 2
        funext e p
        simp only [id]
        ring
  · have hlen : πs.length = Hs.length := by
      have l1 := a1.length_eq
      have l2 := e1.length_eq
      have l3 := tmPrior_len h1 hs
      rw [a2] at hπ
      cases hπ
      omega
    rw [e2]
    have : List.zipWith (· * ·) πs (Hs.map (κ * ·)) = Hs.map ((1 / (ms.length : K) * κ) * ·) := by
      apply List.ext_getElem
      · simp [hlen]
      · intro i h1 h2
        rw [List.getElem_zipWith, List.getElem_map, List.getElem_map, hflat _ (List.getElem_mem _), mul_assoc]
    rw [this, normalised_scale]
    exact mul_ne_zero (one_div_ne_zero hN) hκ0

/-- posterior of a finished model -/
theorem Finished.post_eq {m : OModelSt K gs} (hf : Finished m) {Q : Idx gs → K} (h : m.post = some Q) :
    ∃ es ps posts, Weighted m es ps ∧ es.length = ps.length ∧ m.hyps.map OHyp.post = posts.map some ∧ 0 < (List.zipWith (· * ·) es ps).sum ∧
      Q = mix (normalised (List.zipWith (· * ·) es ps)) posts ∧ ∑ x, Q x = 1 := by
  have heq := hf.eq
  cases hw : hypWeights m.hyps m.grid.priors with
  | none => 
      rw [heq] at h
      simp only [OModelSt.finish, hw, Option.bind_none, Option.map_none, mixture_none] at h
      cases h
  | some w =>
      have hH : m.hyperEv = some ⟨w.sum⟩ := by rw [heq]; simp only [OModelSt.finish, hw, Option.map_some]
      obtain ⟨es, ps, w1, w2, w3, w4, w5⟩ := hf.hyperEv hH
      obtain ⟨es', ps', e1, e2, e3⟩ := hypWeights_some hw
      have : es' = es := by
        have := e1.symm.trans w1.1
        exact List.map_injective_iff.2 (Option.some_injective _) this
      subst this
      have : ps' = ps := by
        have := e2.symm.trans w1.2
        simpa using this
      subst this
      rw [heq] at h
      simp only [OModelSt.finish, hw, Option.bind_some] at h
      cases hn : normWeights w with
      | none => 
          simp only [hn, Option.bind_none, Option.map_none, mixture_none] at h
          cases h
      | some l =>
          rw [e3] at hn
          obtain ⟨n1, n2, n3⟩ := normWeights_eq (zipWith_nonneg w3 w4) hn
          by_cases hc : m.grid.hgc.prod = 0
          · simp only [e3, hn, Option.bind_some, hc, ↓reduceIte, Option.map_none, mixture_none] at h
            cases h
          · simp only [e3, hn, Option.bind_some, hc, ↓reduceIte, Option.map_some, List.map_map, mixture] at h
            have hid : (fun x => x * m.grid.hgc.prod) ∘ (fun x => x / m.grid.hgc.prod) = id := by
              funext x
              simp only [Function.comp, id]
              rw [div_mul_cancel₀ _ hc]
            rw [hid, List.map_id] at h
            split at h
            · rename_i posts ws hps hws
              cases hws
              cases h
              have hpost := allSome_eq hps
              have hlen : l.length = posts.length := by
                have l1 := congrArg List.length hpost
                have l2 := congrArg List.length w1.1
                rw [List.length_map, List.length_map] at l1 l2
                rw [n1, normalised, List.length_map, List.length_zipWith, ← w2, min_self]
                omega
              have hQ : (fun x => (List.zipWith (fun p w => p x * w) posts l).sum) = mix l posts := by
                funext x
                rw [mix, List.zipWith_comm]
                congr 2
                funext a b
                exact mul_comm _ _
              refine ⟨es', ps', posts, w1, w2, hpost, n2, ?_, ?_⟩
              · rw [← n1]; exact hQ
              · change ∑ x, (fun x => (List.zipWith (fun p w => p x * w) posts l).sum) x = 1
                rw [hQ, mix_sum hlen, n3]
                intro p hp
                obtain ⟨h', hh, hh'⟩ := List.mem_map.1 (show some p ∈ m.hyps.map OHyp.post by rw [hpost]; exact List.mem_map.2 ⟨p, hp, rfl⟩)
                exact hf.posts h' hh p hh'
            · cases h

/-- **C42 (with the stored weights of the models, see C41).** All sets of models, hyper-grids and data: the posterior of an online study sums to one and is the
mixture, with the stored probabilities of the models (which sum to one), of distributions which sum to one and are in turn the mixture over the hyper-parameter values of the
posteriors of the hypotheses, weighted with evidence times prior density divided by the sum over all values. -/
theorem C42_partial (c : OConf K D gs) (h1 : 1 ≤ c.seg) (hcell : 0 ≤ c.E.cell) (ms : List (String × TM K)) (hg : GoodModels ms) (hnn : NonnegPriors ms)
    (hne : ms ≠ []) (store : Bool) (prior : PriorSpec K gs) (p : Option (List K)) (S S' : OState K D gs) (hs : setup store prior ms p = .ok S) (xs : List D)
    (hr : runSteps c S xs = .ok S') (hx : c.seg ≤ xs.length) (q : Idx gs → K) (hq : S'.marg = some q) :
    ∑ x, q x = 1 ∧ ∃ (w : List K) (Qs : List (Idx gs → K)), S'.tmd = some w ∧ w.sum = 1 ∧ q = mix w Qs ∧
      List.Forall₂ (fun m Q => ∑ x, Q x = 1 ∧ ∃ es ps posts, Weighted m es ps ∧ es.length = ps.length ∧ m.hyps.map OHyp.post = posts.map some ∧
        0 < (List.zipWith (· * ·) es ps).sum ∧ Q = mix (normalised (List.zipWith (· * ·) es ps)) posts) S'.models Qs := by
  obtain ⟨a1, -, -, a4, -⟩ := online_facts h1 hcell hg hnn hne hs hr hx
  cases hw : S'.tmd with
  | none => rw [a4, hw, mixture_none] at hq; cases hq
  | some w =>
      obtain ⟨Hs, e1, e2, e3, e4⟩ := C41_exact c h1 hcell ms hg hnn hne store prior p S S' hs xs hr hx w hw
      rw [a4, hw] at hq
      unfold mixture at hq
      split at hq
      · rename_i Qs ws hQ hws
        cases hws
        cases hq
        have hQ' := allSome_eq hQ
        have hall : List.Forall₂ (fun m Q => ∑ x, Q x = 1 ∧ ∃ es ps posts, Weighted m es ps ∧ es.length = ps.length ∧ m.hyps.map OHyp.post = posts.map some ∧
            0 < (List.zipWith (· * ·) es ps).sum ∧ Q = mix (normalised (List.zipWith (· * ·) es ps)) posts) S'.models Qs := by
          clear hr a4 hw e1 hQ e2 hs hg hnn hne
          generalize S'.models = Ms at a1 hQ'
          induction a1 generalizing Qs with
          | nil =>
              cases Qs with
              | nil => exact .nil
              | cons _ _ => simp at hQ'
          | @cons q m qs Ms b _ ih =>
              cases Qs with
              | nil => simp at hQ'
              | cons Q Qs =>
                  simp only [List.map_cons, List.cons.injEq] at hQ'
                  obtain ⟨es, ps, posts, f1, f2, f3, f4, f5, f6⟩ := b.2.2.post_eq hQ'.1
                  exact .cons ⟨f6, es, ps, posts, f1, f2, f3, f4, f5⟩ (ih Qs hQ'.2)
        have hmix : (fun x => (List.zipWith (fun p w => p x * w) Qs w).sum) = mix w Qs := by
          funext x
          rw [mix, List.zipWith_comm]
          congr 2
          funext a b
          exact mul_comm _ _
        refine ⟨?_, w, Qs, rfl, e4, hmix, hall⟩
        change ∑ x, (fun x => (List.zipWith (fun p w => p x * w) Qs w).sum) x = 1
        rw [hmix, mix_sum, e4]
        · rw [e2, normalised, List.length_map, ← e1.length_eq, hall.length_eq]
        · intro Q hQm
          obtain ⟨i, hi, rfl⟩ := List.mem_iff_getElem.1 hQm
          exact ((List.forall₂_iff_get.1 hall).2 i (by rw [hall.length_eq]; exact hi) hi).1
      · cases hq

end Props

namespace Ex
open BL Spec

theorem nonneg_of {ms : List (String × TM ℚ)} (h : ∀ q ∈ ms, holds (createHyperGrid q.2 []) (fun g => match g.priors with
    | some ps => ps.all fun p => decide (0 ≤ p)
    | none => true) = true) : NonnegPriors ms := by
  intro q hq g ps hg hps p hp
  have := h q hq
  simp only [holds, hg, hps, List.all_eq_true] at this
  exact of_decide_eq_true (this p hp)

theorem nonneg_two : NonnegPriors two := by
  apply nonneg_of
  simp only [two, List.mem_cons, List.not_mem_nil, or_false, forall_eq_or_imp, forall_eq]
  exact ⟨by decide +kernel, by decide +kernel⟩

end Ex

namespace Props
open BL Spec Ex

/-- The claim fails in two ways: (1) the prior `1/4, 3/4` of two equal models is ignored; (2) without prior, the
random walk with the grid `0, 1/2` for its standard deviation counts twice as much as it should (the evidences are `5/32` for the static model, `(5/32 + 11/64)/2 = 21/128` for the walk). -/
theorem C41_refuted :
    (∃ S S' : OState ℚ (ℚ × ℚ) gs2, setup true .none [("a", mkStatic), ("b", mkStatic)] (some [1 / 4, 3 / 4]) = .ok S ∧
      runSteps oc S [(1 / 4, 3 / 4), (1 / 2, 1 / 4)] = .ok S' ∧ S'.tmPrior = some [1 / 4, 3 / 4] ∧ S'.tmd = some [1 / 2, 1 / 2]) ∧
    (∃ S S' : OState ℚ (ℚ × ℚ) gs2, setup true .none two none = .ok S ∧
      runSteps oc S [(1 / 4, 3 / 4), (1 / 2, 1 / 4)] = .ok S' ∧ evs S' = [[some (5 / 32)], [some (5 / 32), some (11 / 64)]] ∧
      S'.tmPrior = some [1 / 2, 1 / 2] ∧ S'.tmd = some (normalised [5 / 32, 5 / 32 + 11 / 64]) ∧
      S'.tmd ≠ some (normalised [1 / 2 * (5 / 32), 1 / 2 * (1 / 2 * (5 / 32) + 1 / 2 * (11 / 64))])) := by
  constructor
  · have h1 : holds (orun true .none [("a", mkStatic), ("b", mkStatic)] (some [1 / 4, 3 / 4]) [(1 / 4, 3 / 4), (1 / 2, 1 / 4)])
      (fun S' => decide (S'.tmPrior = some [1 / 4, 3 / 4] ∧ S'.tmd = some [1 / 2, 1 / 2])) = true := by decide +kernel
    obtain ⟨S', a1, a2⟩ := holds_iff.1 h1
    obtain ⟨S, b1, b2⟩ := orun_ok a1
    have := of_decide_eq_true a2
    exact ⟨S, S', b1, b2, this.1, this.2⟩
  · have h1 : holds (orun true .none two none [(1 / 4, 3 / 4), (1 / 2, 1 / 4)])
      (fun S' => decide (evs S' = [[some (5 / 32)], [some (5 / 32), some (11 / 64)]] ∧
      S'.tmPrior = some [1 / 2, 1 / 2] ∧ S'.tmd = some (normalised [5 / 32, 5 / 32 + 11 / 64]) ∧
      S'.tmd ≠ some (normalised [1 / 2 * (5 / 32), 1 / 2 * (1 / 2 * (5 / 32) + 1 / 2 * (11 / 64))]))) = true := by decide +kernel
    obtain ⟨S', a1, a2⟩ := holds_iff.1 h1
    obtain ⟨S, b1, b2⟩ := orun_ok a1
    have := of_decide_eq_true a2
    exact ⟨S, S', b1, b2, this.1, this.2.1, this.2.2.1, this.2.2.2⟩

/-- **C42 refuted**: the static model and the random walk with the grid `0, 1/2`, equal prior probabilities, evidences `5/32` and `21/128`: the stored posterior is not the mixture of the
posteriors of the two models with their posterior probabilities. -/
theorem C42_refuted : ∃ (S S' : OState ℚ (ℚ × ℚ) gs2) (q : Idx gs2 → ℚ) (Qs : List (Idx gs2 → ℚ)), GoodModels two ∧ NonnegPriors two ∧ setup true .none two none = .ok S ∧
    runSteps oc S [(1 / 4, 3 / 4), (1 / 2, 1 / 4)] = .ok S' ∧ S'.tmPrior = some [1 / 2, 1 / 2] ∧ evs S' = [[some (5 / 32)], [some (5 / 32), some (11 / 64)]] ∧
    S'.marg = some q ∧ S'.models.map OModelSt.post = Qs.map some ∧ q ≠ mix (normalised [1 / 2 * (5 / 32), 1 / 2 * (1 / 2 * (5 / 32) + 1 / 2 * (11 / 64))]) Qs := by
  have h1 : holds (orun true .none two none [(1 / 4, 3 / 4), (1 / 2, 1 / 4)])
    (fun S' => decide (S'.tmPrior = some [1 / 2, 1 / 2] ∧ evs S' = [[some (5 / 32)], [some (5 / 32), some (11 / 64)]]) &&
      match S'.marg, allSome (S'.models.map OModelSt.post) with
      | some q, some Qs => decide (q ≠ mix (normalised [1 / 2 * (5 / 32), 1 / 2 * (1 / 2 * (5 / 32) + 1 / 2 * (11 / 64))]) Qs)
      | _, _ => false) = true := by decide +kernel
  obtain ⟨S', a1, a2⟩ := holds_iff.1 h1
  obtain ⟨S, b1, b2⟩ := orun_ok a1
  rw [Bool.and_eq_true] at a2
  obtain ⟨c1, c2⟩ := a2
  split at c2
  · rename_i q Qs hq hQ
    exact ⟨S, S', q, Qs, good_two, nonneg_two, b1, b2, (of_decide_eq_true c1).1, (of_decide_eq_true c1).2, hq, allSome_eq hQ, of_decide_eq_true c2⟩
  · cases c2

/-- the assumptions of C41 and C42 can be met: two models, one with two hyper-parameter values -/
example : ∃ (S S' : OState ℚ (ℚ × ℚ) gs2) (w : List ℚ) (q : Idx gs2 → ℚ), GoodModels two ∧ NonnegPriors two ∧ setup true .none two none = .ok S ∧
    runSteps oc S [(1 / 4, 3 / 4), (1 / 2, 1 / 4)] = .ok S' ∧ S'.tmd = some w ∧ S'.marg = some q ∧ (0 : ℚ) ≤ oc.E.cell := by
  have h1 : holds (orun true .none two none [(1 / 4, 3 / 4), (1 / 2, 1 / 4)]) (fun S' => S'.tmd.isSome && S'.marg.isSome) = true := by decide +kernel
  obtain ⟨S', a1, a2⟩ := holds_iff.1 h1
  obtain ⟨S, b1, b2⟩ := orun_ok a1
  simp only [Bool.and_eq_true, Option.isSome_iff_exists] at a2
  obtain ⟨⟨w, hw⟩, q, hq⟩ := a2
  exact ⟨S, S', w, q, good_two, nonneg_two, b1, b2, hw, hq, by decide +kernel⟩

/-- the assumptions of `C41_partial` can be met: two random walks with grids of the same spacing -/
example : ∃ (S S' : OState ℚ (ℚ × ℚ) gs2), setup true .none [("a", ogrw [0, 1 / 2]), ("b", .leaf (.grw "x") ["s2"] [.array [1, 3 / 2, 2]] (some (.item .none)))] none = .ok S ∧
    runSteps oc S [(1 / 4, 3 / 4), (1 / 2, 1 / 4)] = .ok S' ∧ S'.tmPrior = some [1 / 2, 1 / 2] ∧ S'.tmd.isSome = true ∧
    S'.models.map (fun m => m.grid.hgc.prod) = [1 / 2, 1 / 2] := by
  have h1 : holds (orun true .none [("a", ogrw [0, 1 / 2]), ("b", .leaf (.grw "x") ["s2"] [.array [1, 3 / 2, 2]] (some (.item .none)))] none [(1 / 4, 3 / 4), (1 / 2, 1 / 4)])
      (fun S' => decide (S'.tmPrior = some [1 / 2, 1 / 2] ∧ S'.tmd.isSome = true ∧
      S'.models.map (fun m => m.grid.hgc.prod) = [1 / 2, 1 / 2])) = true := by decide +kernel
  obtain ⟨S', a1, a2⟩ := holds_iff.1 h1
  obtain ⟨S, b1, b2⟩ := orun_ok a1
  exact ⟨S, S', b1, b2, of_decide_eq_true a2⟩

end Props
