import Verif.Props.C41
import Verif.Lemmas.OnlineQuery

/-! # C63: the local distribution of the transition models -/

set_option linter.unusedSectionVars false

namespace Spec
open BL
variable {K : Type} [Field K] [LinearOrder K] {d : ℕ} {gs : Fin d → ℕ}

/-- The evidence of a transition model: average of the evidences of its hyper-parameter values over the prior probabilities (density times cell volume) of the values. -/
def ModelEvidence (m : OModelSt K gs) (A : K) : Prop :=
  ∃ es ps, Weighted m es ps ∧ es.length = ps.length ∧ A = (List.zipWith (fun e p => e * (p * m.grid.hgc.prod)) es ps).sum

end Spec

namespace Props
open BL Spec

variable {K D : Type} [Field K] [LinearOrder K] [IsStrictOrderedRing K] {d : ℕ} {gs : Fin d → ℕ}

/-- the analysis inside a step -/
theorem step_analyse {c : OConf K D gs} {S S' : OState K D gs} {x : D} (hm : S.models ≠ []) (h : S.step (some c) x = (S', none))
    (hl : c.seg ≤ S.rawData.length + 1) : ∃ (T S2 : OState K D gs) (L : Idx gs → K), T.analyse c L = .ok S2 ∧ T.firstStep = S.firstStep ∧ T.prior = S.prior ∧
      T.tmPrior = S.tmPrior ∧ T.models = S.models ∧ SameButHistory S2 S' := by
  rw [step_eq hm] at h
  have hT : ∃ T : OState K D gs, T.proceed c = (S', none) ∧ T.rawData = S.rawData ++ [x] ∧
      T.firstStep = S.firstStep ∧ T.prior = S.prior ∧ T.tmPrior = S.tmPrior ∧ T.models = S.models := by
    unfold OState.stepAdded at h
    split at h
    · rename_i h0
      split at h
      · cases h
      · exact ⟨_, h, by rw [List.length_eq_zero_iff.1 h0]; rfl, rfl, rfl, rfl, rfl⟩
    · simp only at h
      split at h
      · cases h
      · exact ⟨_, h, rfl, rfl, rfl, rfl, rfl⟩
  obtain ⟨T, hp, T1, T7, T8, T9, T10⟩ := hT
  rcases proceed_ok hp with ⟨p1, -⟩ | ⟨p1, f0, t, f', S2, p2, p3, p4, p5, p6⟩
  · rw [T1, List.length_append, List.length_singleton] at p1
    omega
  · exact ⟨_, S2, _, p5, T7, T8, T9, T10, record_ok p6⟩

theorem mapE_grids {E : Env K gs} {first : Option (Arr K gs)} {L : Idx gs → K} : ∀ {Ms Ms' : List (OModelSt K gs)},
    mapE (OModelSt.update E first L) Ms = .ok Ms' → Ms'.map (fun m => m.grid) = Ms.map (fun m => m.grid)
  | [], Ms', h => by cases h; rfl
  | m :: Ms, Ms', h => by
      rw [mapE] at h
      simp only [bind, Except.bind] at h
      split at h
      · cases h
      · rename_i m' hm'
        split at h
        · cases h
        · rename_i Ms1 hMs1
          cases h
          rw [List.map_cons, List.map_cons, mapE_grids hMs1]
          congr 1
          unfold OModelSt.update at hm'
          split at hm'
          · cases hm'
          · cases hh : hypLoop E first L m.tm (rowsOf m.grid) m.hyps with
            | error e => rw [hh] at hm'; cases hm'
            | ok r => rw [hh] at hm'; cases hm'; rfl

/-- what a step computes after the first analysed segment -/
theorem step_local {c : OConf K D gs} {S S' : OState K D gs} {x : D} (hm : S.models ≠ []) (h : S.step (some c) x = (S', none))
    (hl : c.seg ≤ S.rawData.length + 1) (hf : S.firstStep = false) :
    S'.ltmd = (allSome (List.zipWith (fun q p => localWeight q.1 q.2 p) (S.models.zip S'.models) (S.tmPrior.getD []))).bind normWeights ∧
      S'.models.map (fun m => m.grid) = S.models.map (fun m => m.grid) := by
  obtain ⟨T, S2, L, a1, a2, a3, a4, a5, a6⟩ := step_analyse hm h hl
  obtain ⟨S1, first, Ms, i1, i2, i3, rfl⟩ := analyse_ok a1
  unfold OState.initialise at i1
  rw [a2, hf] at i1
  simp only [Bool.false_eq_true, ↓reduceIte] at i1
  cases i1
  obtain ⟨mn, ps, hh, tt, ll, rfl⟩ := a6
  rw [← a4, ← a5]
  exact ⟨rfl, mapE_grids i3⟩

/-- what a step computes at the first analysed segment -/
theorem step_local_first {c : OConf K D gs} {S S' : OState K D gs} {x : D} (hm : S.models ≠ []) (h : S.step (some c) x = (S', none))
    (hl : c.seg ≤ S.rawData.length + 1) (hf : S.firstStep = true) :
    ∃ Ms : List (OModelSt K gs), Ms.length = S'.models.length ∧ (∀ m ∈ Ms, m.hyperEv = some 0) ∧
      S'.ltmd = (allSome (List.zipWith (fun q p => localWeight q.1 q.2 p) (Ms.zip S'.models) (S'.tmPrior.getD []))).bind normWeights := by
  obtain ⟨T, S2, L, a1, a2, a3, a4, a5, a6⟩ := step_analyse hm h hl
  obtain ⟨S1, first, Ms, i1, i2, i3, rfl⟩ := analyse_ok a1
  unfold OState.initialise at i1
  rw [a2, hf] at i1
  simp only [↓reduceIte, bind, Except.bind] at i1
  split at i1
  · cases i1
  · cases i1
    obtain ⟨mn, ps, hh, tt, ll, rfl⟩ := a6
    refine ⟨_, ?_, ?_, rfl⟩
    · have := congrArg List.length (mapE_grids i3)
      simpa [OState.combine] using this.symm
    · intro m hm
      obtain ⟨m', -, rfl⟩ := List.mem_map.1 hm
      rfl

/-- evidences are determined -/
theorem Weighted.unique {m : OModelSt K gs} {es ps es' ps' : List K} (h : Weighted m es ps) (h' : Weighted m es' ps') : es' = es ∧ ps' = ps := by
  refine ⟨List.map_injective_iff.2 (Option.some_injective _) (h'.1.symm.trans h.1), ?_⟩
  simpa using h'.2.symm.trans h.2

theorem averages_of {ms : List (String × TM K)} {Ms : List (OModelSt K gs)} {Hs : List K}
    (hf : List.Forall₂ (fun q m => m.name = q.1 ∧ createHyperGrid q.2 [] = .ok m.grid ∧ Finished m) ms Ms) (hE : Evidences Ms Hs) :
    List.Forall₂ ModelEvidence Ms (List.zipWith (fun m H => H * m.grid.hgc.prod) Ms Hs) := by
  clear hf
  induction hE with
  | nil => exact .nil
  | @cons m H Ms Hs a _ ih =>
      refine .cons ?_ ih
      obtain ⟨es, ps, w1, w2, rfl⟩ := a
      refine ⟨es, ps, w1, w2, ?_⟩
      have := List.sum_map_mul_right (List.zipWith (· * ·) es ps) id m.grid.hgc.prod
      rw [List.map_id] at this
      simp only
      rw [← this, List.map_zipWith]
      congr 2
      funext e p
      simp only [id]
      ring

theorem runSteps_append {c : OConf K D gs} {x : D} {S2 : OState K D gs} : ∀ {xs : List D} {S S1 : OState K D gs}, runSteps c S xs = .ok S1 →
    S1.step (some c) x = (S2, none) → runSteps c S (xs ++ [x]) = .ok S2
  | [], S, S1, h, h' => by
      rw [runSteps] at h
      cases h
      simp only [List.nil_append, runSteps, h']
  | y :: ys, S, S1, h, h' => by
      rw [runSteps] at h
      rw [List.cons_append, runSteps]
      split at h
      · cases h
      · rename_i S3 hS3
        exact runSteps_append h h'

/-- cell volumes cancel -/
theorem ratios {Ms Ms' : List (OModelSt K gs)} {Hs Hs' : List K} (hg : Ms'.map (fun m => m.grid) = Ms.map (fun m => m.grid))
    (hv : ∀ m ∈ Ms', 0 < m.grid.hgc.prod) (h1 : Ms.length = Hs.length) (h2 : Ms'.length = Hs'.length) :
    List.zipWith (· / ·) (List.zipWith (fun m H => H * m.grid.hgc.prod) Ms' Hs') (List.zipWith (fun m H => H * m.grid.hgc.prod) Ms Hs) =
      List.zipWith (· / ·) Hs' Hs := by
  have hl : Ms'.length = Ms.length := by simpa using congrArg List.length hg
  apply List.ext_getElem
  · simp; omega
  · intro i hi hi'
    simp only [List.length_zipWith] at hi
    have hgi : Ms'[i].grid = Ms[i].grid := by
      have := List.getElem_of_eq hg (i := i) (by simp; omega)
      simpa using this
    simp only [List.getElem_zipWith]
    have := hv _ (List.getElem_mem (l := Ms') (n := i) (by omega))
    rw [hgi] at this ⊢
    rw [mul_div_mul_right _ _ this.ne']

/-- local weights in terms of the accumulated evidences -/
theorem local_weights : ∀ {Ms Ms' : List (OModelSt K gs)} {πs ws : List K}, Ms.length = Ms'.length → Ms.length = πs.length →
    allSome (List.zipWith (fun q p => localWeight q.1 q.2 p) (Ms.zip Ms') πs) = some ws →
    ∃ ls ls' : List (LogV K), Ms.map OModelSt.hyperEv = ls.map some ∧ Ms'.map OModelSt.hyperEv = ls'.map some ∧ (∀ l ∈ ls, l.exp ≠ 0) ∧
      ws = List.zipWith (· * ·) πs (List.zipWith (· / ·) (ls'.map LogV.exp) (ls.map LogV.exp))
  | [], [], πs, ws, _, _, h => by
      cases h
      exact ⟨[], [], rfl, rfl, by simp, by simp⟩
  | m :: Ms, m' :: Ms', π :: πs, ws, h1, h2, h => by
      have h0 := allSome_eq h
      simp only [List.zip_cons_cons, List.zipWith_cons_cons] at h0
      cases ws with
      | nil => simp at h0
      | cons w ws =>
          simp only [List.map_cons, List.cons.injEq] at h0
          obtain ⟨a, b⟩ := h0
          have hb : allSome (List.zipWith (fun q p => localWeight q.1 q.2 p) (Ms.zip Ms') πs) = some ws := by
            rw [b]
            simpa using allSome_map (id : K → K) ws
          obtain ⟨ls, ls', i1, i2, i3, i4⟩ := local_weights (by simpa using h1) (by simpa using h2) hb
          unfold localWeight at a
          split at a
          · rename_i o n ho hn
            by_cases h0 : o.exp = 0
            · simp [h0] at a
            · simp only [h0, ↓reduceIte, Option.some.injEq] at a
              refine ⟨o :: ls, n :: ls', by simp [ho, i1], by simp [hn, i2], ?_, ?_⟩
              · intro l hl
                rcases List.mem_cons.1 hl with rfl | hl
                · exact h0
                · exact i3 l hl
              · rw [i4, ← a]
                simp [mul_comm]
          · cases a
  | [], _ :: _, _, _, h1, _, _ => by simp at h1
  | _ :: _, [], _, _, h1, _, _ => by simp at h1
  | _ :: _, _ :: _, [], _, _, h2, _ => by simp at h2

/-- **C63 (every step but the first analysed one).** All sets of models, hyper-grids, priors of the models and data: the local distribution of the transition models after a
step is proportional to prior probability times the predictive probability of the newest data, i.e. evidence after the step divided by evidence before
the step; the evidence before was positive, and the distribution sums to one. -/
theorem C63_partial (c : OConf K D gs) (h1 : 1 ≤ c.seg) (hcell : 0 ≤ c.E.cell) (ms : List (String × TM K)) (hg : GoodModels ms) (hnn : NonnegPriors ms)
    (hne : ms ≠ []) (store : Bool) (prior : PriorSpec K gs) (p : Option (List K)) (S S1 S2 : OState K D gs) (hs : setup store prior ms p = .ok S) (xs : List D)
    (hr : runSteps c S xs = .ok S1) (hx : c.seg ≤ xs.length) (x : D) (hst : S1.step (some c) x = (S2, none))
    (hvol : ∀ m ∈ S2.models, 0 < m.grid.hgc.prod) (πs : List K) (hπ : S2.tmPrior = some πs) (hπ0 : ∀ a ∈ πs, 0 ≤ a)
    (names : List String) (w : List K) (hw : S2.getCurrentTMD true = (names, some w)) :
    names = ms.map (·.1) ∧ ∃ As Bs, List.Forall₂ ModelEvidence S1.models As ∧ List.Forall₂ ModelEvidence S2.models Bs ∧ (∀ a ∈ As, 0 < a) ∧
      w = normalised (List.zipWith (· * ·) πs (List.zipWith (· / ·) Bs As)) ∧ w.sum = 1 := by
  have hr2 := runSteps_append hr hst
  obtain ⟨a1, a2, -⟩ := online_facts h1 hcell hg hnn hne hs hr hx
  obtain ⟨b1, b2, -⟩ := online_facts h1 hcell hg hnn hne hs hr2 (by simp; omega)
  obtain ⟨i1, -⟩ := setup_inv h1 hs
  have hi := runSteps_inv h1 hg hne xs [] S S1 i1 hr
  rw [List.nil_append] at hi
  have hm : S1.models ≠ [] := by
    intro h0
    have := a1.length_eq
    rw [h0] at this
    exact hne (List.length_eq_zero_iff.1 this)
  obtain ⟨l1, l2⟩ := step_local hm hst (by rw [hi.raw]; omega) (hi.after hx).1
  have hp : S1.tmPrior = some πs := by rw [a2, ← b2, hπ]
  rw [hp, Option.getD_some] at l1
  simp only [OState.getCurrentTMD, ↓reduceIte, Prod.mk.injEq] at hw
  refine ⟨?_, ?_⟩
  · rw [← hw.1]
    generalize S2.models = Ms at b1
    clear * - b1
    induction b1 with
    | nil => rfl
    | cons a _ ih => rw [List.map_cons, List.map_cons, ih, a.1]
  · rw [hw.2] at l1
    cases ha : allSome (List.zipWith (fun q p => localWeight q.1 q.2 p) (S1.models.zip S2.models) πs) with
    | none => rw [ha] at l1; cases l1
    | some ws =>
        rw [ha, Option.bind_some] at l1
        have hl : S1.models.length = S2.models.length := by rw [← a1.length_eq, b1.length_eq]
        have hl' : S1.models.length = πs.length := by
          have := tmPrior_len h1 hs
          rw [b2] at hπ
          cases hπ
          rw [this, a1.length_eq]
        obtain ⟨ls, ls', e1, e2, e3, e4⟩ := local_weights hl hl' ha
        obtain ⟨E1, E2⟩ := evidences_of a1 e1
        obtain ⟨F1, F2⟩ := evidences_of b1 e2
        have hpos : ∀ x ∈ ls.map LogV.exp, 0 < x := by
          intro x hx
          obtain ⟨l, hl, rfl⟩ := List.mem_map.1 hx
          exact lt_of_le_of_ne (E2 _ hx) (Ne.symm (e3 l hl))
        have hws : ∀ x ∈ ws, 0 ≤ x := by
          rw [e4]
          refine zipWith_nonneg hπ0 ?_
          intro x hx
          obtain ⟨i, hi, rfl⟩ := List.mem_iff_getElem.1 hx
          rw [List.getElem_zipWith]
          exact div_nonneg (F2 _ (List.getElem_mem _)) (E2 _ (List.getElem_mem _))
        obtain ⟨n1, n2, n3⟩ := normWeights_eq hws l1.symm
        refine ⟨_, _, averages_of a1 E1, averages_of b1 F1, ?_, ?_, n3⟩
        · intro a ha
          obtain ⟨i, hi, rfl⟩ := List.mem_iff_getElem.1 ha
          rw [List.getElem_zipWith]
          refine mul_pos (hpos _ (List.getElem_mem _)) ?_
          simp only [List.length_zipWith] at hi
          have hgi : S2.models[i].grid = S1.models[i].grid := by
            have := List.getElem_of_eq l2 (i := i) (by simp; omega)
            simpa using this
          rw [← hgi]
          exact hvol _ (List.getElem_mem _)
        · rw [ratios l2 hvol E1.length_eq F1.length_eq, ← e4, n1]

/-- **C63 (first analysed data segment).** If the hyper-grids of all models have the same cell volume (in particular if no model has hyper-parameters), the local distribution
at the first analysed segment is proportional to prior probability times evidence of the segment. -/
theorem C63_first_partial (c : OConf K D gs) (h1 : 1 ≤ c.seg) (hcell : 0 ≤ c.E.cell) (ms : List (String × TM K)) (hg : GoodModels ms) (hnn : NonnegPriors ms)
    (hne : ms ≠ []) (store : Bool) (prior : PriorSpec K gs) (p : Option (List K)) (S S1 S2 : OState K D gs) (hs : setup store prior ms p = .ok S) (xs : List D)
    (hr : runSteps c S xs = .ok S1) (hx : c.seg = xs.length + 1) (x : D) (hst : S1.step (some c) x = (S2, none))
    (κ : K) (hκ0 : κ ≠ 0) (hκ : ∀ m ∈ S2.models, m.grid.hgc.prod = κ) (πs : List K) (hπ : S2.tmPrior = some πs) (hπ0 : ∀ a ∈ πs, 0 ≤ a)
    (names : List String) (w : List K) (hw : S2.getCurrentTMD true = (names, some w)) :
    ∃ Bs, List.Forall₂ ModelEvidence S2.models Bs ∧ w = normalised (List.zipWith (· * ·) πs Bs) ∧ w.sum = 1 := by
  have hr2 := runSteps_append hr hst
  obtain ⟨b1, b2, -⟩ := online_facts h1 hcell hg hnn hne hs hr2 (by simp; omega)
  obtain ⟨i1, -⟩ := setup_inv h1 hs
  have hi := runSteps_inv h1 hg hne xs [] S S1 i1 hr
  rw [List.nil_append] at hi
  obtain ⟨f1, -, -, f2⟩ := hi.before (by omega)
  have hm : S1.models ≠ [] := by
    intro h0
    have := f2.length_eq
    rw [h0] at this
    exact hne (List.length_eq_zero_iff.1 this)
  obtain ⟨Ms, l1, l2, l3⟩ := step_local_first hm hst (by rw [hi.raw]; omega) f1
  rw [hπ, Option.getD_some] at l3
  simp only [OState.getCurrentTMD, ↓reduceIte, Prod.mk.injEq] at hw
  rw [hw.2] at l3
  cases ha : allSome (List.zipWith (fun q p => localWeight q.1 q.2 p) (Ms.zip S2.models) πs) with
  | none => rw [ha] at l3; cases l3
  | some ws =>
      rw [ha, Option.bind_some] at l3
      have hl' : Ms.length = πs.length := by
        have := tmPrior_len h1 hs
        rw [b2] at hπ
        cases hπ
        rw [this, l1, b1.length_eq]
      obtain ⟨ls, ls', e1, e2, e3, e4⟩ := local_weights l1 hl' ha
      obtain ⟨F1, F2⟩ := evidences_of b1 e2
      have hls : ls.map LogV.exp = Ms.map fun _ => 1 := by
        have hz : ls = Ms.map fun _ => 0 := by
          apply List.map_injective_iff.2 (Option.some_injective _)
          rw [← e1, List.map_map]
          exact List.map_congr_left fun m hm => l2 m hm
        rw [hz, List.map_map]
        rfl
      have hdiv : List.zipWith (· / ·) (ls'.map LogV.exp) (ls.map LogV.exp) = ls'.map LogV.exp := by
        have hll := congrArg List.length e2
        rw [List.length_map, List.length_map] at hll
        rw [hls]
        apply List.ext_getElem
        · simp; omega
        · intro i hi hi'
          simp
      rw [hdiv] at e4
      have hws : ∀ x ∈ ws, 0 ≤ x := by
        rw [e4]
        exact zipWith_nonneg hπ0 F2
      obtain ⟨n1, n2, n3⟩ := normWeights_eq hws l3.symm
      refine ⟨_, averages_of b1 F1, ?_, n3⟩
      have hsc : List.zipWith (· * ·) πs (List.zipWith (fun m H => H * m.grid.hgc.prod) S2.models (ls'.map LogV.exp)) = ws.map (κ * ·) := by
        have hll := F1.length_eq
        rw [e4]
        apply List.ext_getElem
        · simp only [List.length_zipWith, List.length_map] at hll ⊢
          omega
        · intro i hi hi'
          simp only [List.getElem_zipWith, List.getElem_map]
          rw [hκ _ (List.getElem_mem _)]
          ring
      rw [hsc, normalised_scale hκ0, n1]

end Props

namespace Props
open BL Spec Ex

/-- The claim fails at the first analysed data point if the hyper-grids have different cell volumes: the evidence of the datum is `1/2` for
both models (and for both values of the hyper-parameter of the second one), so both models should have probability `1/2`; the second one gets `2/3`. -/
theorem C63_refuted : ∃ S S' : OState ℚ (ℚ × ℚ) gs2, setup true .none two none = .ok S ∧ runSteps oc S [(1 / 4, 3 / 4)] = .ok S' ∧
    evs S' = [[some (1 / 2)], [some (1 / 2), some (1 / 2)]] ∧ S'.tmPrior = some [1 / 2, 1 / 2] ∧ S'.getCurrentTMD true = (["s", "g"], some [1 / 3, 2 / 3]) := by
  have h1 : holds (orun true .none two none [(1 / 4, 3 / 4)]) (fun S' => decide (evs S' = [[some (1 / 2)], [some (1 / 2), some (1 / 2)]] ∧
      S'.tmPrior = some [1 / 2, 1 / 2] ∧ S'.getCurrentTMD true = (["s", "g"], some [1 / 3, 2 / 3]))) = true := by decide +kernel
  obtain ⟨S', a1, a2⟩ := holds_iff.1 h1
  obtain ⟨S, b1, b2⟩ := orun_ok a1
  exact ⟨S, S', b1, b2, of_decide_eq_true a2⟩

/-- the assumptions of `C63_partial` can be met: second step of the same study; the predictive probabilities are `5/16` and `21/64` -/
example : ∃ (S S1 S2 : OState ℚ (ℚ × ℚ) gs2), GoodModels two ∧ NonnegPriors two ∧ setup true .none two none = .ok S ∧ runSteps oc S [(1 / 4, 3 / 4)] = .ok S1 ∧
    S1.step (some oc) (1 / 2, 1 / 4) = (S2, none) ∧ S2.tmPrior = some [1 / 2, 1 / 2] ∧ (∀ m ∈ S2.models, 0 < m.grid.hgc.prod) ∧
    S2.getCurrentTMD true = (["s", "g"], some [20 / 41, 21 / 41]) := by
  have h1 : holds (orun true .none two none [(1 / 4, 3 / 4), (1 / 2, 1 / 4)]) (fun S' => decide (S'.tmPrior = some [1 / 2, 1 / 2] ∧
      (∀ v ∈ S'.models.map (fun m => m.grid.hgc.prod), 0 < v) ∧ S'.getCurrentTMD true = (["s", "g"], some [20 / 41, 21 / 41]))) = true := by decide +kernel
  obtain ⟨S', a1, a2⟩ := holds_iff.1 h1
  obtain ⟨S, b1, b2⟩ := orun_ok a1
  obtain ⟨c1, c2, c3⟩ := of_decide_eq_true a2
  obtain ⟨S1, d1, d2⟩ := runSteps_snoc (xs := [(1 / 4, 3 / 4)]) b2
  exact ⟨S, S1, S', good_two, nonneg_two, b1, d1, d2, c1, fun m hm => c2 _ (List.mem_map.2 ⟨m, hm, rfl⟩), c3⟩

/-- the assumptions of `C63_first_partial` can be met: two random walks with grids of the same spacing, unequal prior -/
example : ∃ (S S2 : OState ℚ (ℚ × ℚ) gs2), setup true .none [("a", ogrw [0, 1 / 2]), ("b", .leaf (.grw "x") ["s2"] [.array [1, 3 / 2, 2]] (some (.item .none)))] (some [1, 3]) = .ok S ∧
    S.step (some oc) (1 / 4, 3 / 4) = (S2, none) ∧ S2.tmPrior = some [1 / 4, 3 / 4] ∧ S2.models.map (fun m => m.grid.hgc.prod) = [1 / 2, 1 / 2] ∧
    S2.getCurrentTMD true = (["a", "b"], some [1 / 4, 3 / 4]) := by
  have h1 : holds (orun true .none [("a", ogrw [0, 1 / 2]), ("b", .leaf (.grw "x") ["s2"] [.array [1, 3 / 2, 2]] (some (.item .none)))] (some [1, 3]) [(1 / 4, 3 / 4)])
      (fun S2 => decide (S2.tmPrior = some [1 / 4, 3 / 4] ∧ S2.models.map (fun m => m.grid.hgc.prod) = [1 / 2, 1 / 2] ∧
        S2.getCurrentTMD true = (["a", "b"], some [1 / 4, 3 / 4]))) = true := by decide +kernel
  obtain ⟨S', a1, a2⟩ := holds_iff.1 h1
  obtain ⟨S, b1, b2⟩ := orun_ok a1
  obtain ⟨S1, d1, d2⟩ := runSteps_snoc (xs := []) b2
  rw [runSteps] at d1
  cases d1
  exact ⟨S, S', b1, d2, of_decide_eq_true a2⟩

end Props
