import Verif.Lemmas.OnlineLive
import Verif.Props.C70

/-! # C110: online studies neither fail nor produce undefined results when all data are possible -/

set_option linter.unusedSectionVars false

namespace Props
open BL Spec

variable {K D : Type} [Field K] [LinearOrder K] [IsStrictOrderedRing K] {d : ℕ} {gs : Fin d → ℕ}

/-- the models after the last step -/
theorem models_live {c : OConf K D gs} [Nonempty (Idx gs)] (hl : ∀ a, 0 < c.E.lattice a) (hX : ProperExt c.E.ext) {ms : List (String × TM K)} (h1 : 1 ≤ c.seg)
    (hg : LiveModels c.E ms) (hne : ms ≠ []) {store : Bool} {prior : PriorSpec K gs} {p : Option (List K)} {S S' : OState K D gs}
    (hs : setup store prior ms p = .ok S) (hpr : FullPrior prior) {xs : List D} (hL : ∀ L ∈ segLiks c xs, ∀ x, 0 < L x) (hr : runSteps c S xs = .ok S') (hx : c.seg ≤ xs.length) :
    S'.models.length = ms.length ∧ ∀ m ∈ S'.models, 0 < m.grid.hgc.prod ∧ (∀ h ∈ m.hyps, LiveHyp h) ∧ ∃ D l Q, m.hpd = some D ∧ Distribution m.hyps.length (some (D.map (· * m.grid.hgc.prod))) ∧ (∀ x ∈ D, 0 < x) ∧ m.hyperEv = some l ∧
      0 < l.exp ∧ m.post = some Q ∧ (∀ x, 0 < Q x) ∧ ∑ x, Q x = 1 := by
  obtain ⟨a1, -⟩ := online_facts h1 (env_cell_pos hl).le hg.good hg.nonneg hne hs hr hx
  obtain ⟨i1, i2, -⟩ := setup_inv h1 hs
  have hi := runSteps_inv h1 hg.good hne xs [] S S' i1 hr
  rw [List.nil_append] at hi
  obtain ⟨-, a0, b1, -, -, b2, -⟩ := hi.after hx
  rw [i2] at b1
  obtain ⟨a0', pr, k1, k2, k3⟩ := computePrior_full (E := { c.E with prior := prior }) hl hpr
  rw [b1] at k1
  cases k1
  have hLne : segLiks c xs ≠ [] := by
    intro h0
    have := congrArg List.length h0
    simp only [segLiks, List.length_map, movingWindow_len, List.length_nil] at this
    omega
  refine ⟨a1.length_eq.symm, fun m hm => ?_⟩
  obtain ⟨i, hi', rfl⟩ := List.mem_iff_getElem.1 hm
  have hi2 : i < ms.length := by rw [a1.length_eq]; exact hi'
  obtain ⟨-, -, hf⟩ := (List.forall₂_iff_get.1 a1).2 i hi2 hi'
  obtain ⟨ht, -⟩ := (List.forall₂_iff_get.1 b2).2 i hi2 hi'
  rw [List.get_eq_getElem, List.get_eq_getElem] at ht
  rw [List.get_eq_getElem] at hf
  obtain ⟨g1, -, g3⟩ := hg _ (List.getElem_mem hi2)
  obtain ⟨g4, ⟨ps, p1, p2, p3⟩, g5⟩ := g3 _ ht.grid
  have hlive : ∀ h ∈ S'.models[i].hyps, LiveHyp h := by
    intro h hh
    obtain ⟨j, hj, rfl⟩ := List.mem_iff_getElem.1 hh
    have hj' : j < (hypotheses ms[i].2 S'.models[i].grid).length := by rw [ht.hyps.length_eq]; exact hj
    have hch := (List.forall₂_iff_get.1 ht.hyps).2 j hj' hj
    obtain ⟨h', e1, e2⟩ := chain_live (E := { c.E with prior := S'.prior }) hl hX k3 (spreading_prior _ _ (g5 _ (List.getElem_mem hj'))) k2 _ hL
    rw [List.get_eq_getElem, List.get_eq_getElem] at hch
    rw [hch] at e1
    cases e1
    exact e2 hLne
  refine ⟨g4, hlive, model_live hf ?_ hlive g4 p1 p3⟩
  obtain ⟨ps', q1, q2, -⟩ := hf.priors
  rw [p1] at q1
  cases q1
  intro h0
  rw [h0] at q2
  exact p2 (List.length_eq_zero_iff.1 q2)

/-- prior probabilities of the models -/
theorem tmPrior_pos {c : OConf K D gs} (h1 : 1 ≤ c.seg) {ms : List (String × TM K)} (hne : ms ≠ []) {store : Bool} {prior : PriorSpec K gs} {p : Option (List K)} {S : OState K D gs}
    (hs : setup store prior ms p = .ok S) (hp : ∀ l, p = some l → ∀ x ∈ l, 0 < x) : ∀ x ∈ S.tmPrior.getD (ms.map fun _ => 1 / (ms.length : K)), 0 < x := by
  obtain ⟨-, -, -, t1, t2, -⟩ := setup_inv h1 hs
  have hd : ∀ x ∈ (none : Option (List K)).getD (ms.map fun _ => 1 / (ms.length : K)), 0 < x := by
    intro x hx
    obtain ⟨q, -, rfl⟩ := List.mem_map.1 hx
    exact one_div_pos.2 (Nat.cast_pos.2 (List.length_pos_iff.2 hne))
  cases p with
  | none => simp only at t1; rw [t1]; exact hd
  | some l =>
      simp only at t1
      rw [t1]
      have hl := hp l rfl
      split
      · exact hl
      · split
        · exact hd
        · rename_i h0
          intro x hx
          obtain ⟨y, hy, rfl⟩ := List.mem_map.1 hx
          exact div_pos (hl y hy) (lt_of_le_of_ne (List.sum_nonneg fun z hz => (hl z hz).le) (Ne.symm h0))

/-- **C110 (part that holds: models other than NotEqual).** A new online study with transition models that keep all parameter values possible, names of hyper-parameters that occur only once, a prior
without zeros and, if given, positive prior probabilities of the models.  Every data segment has a positive likelihood for all parameter values.  Then for data of any length no call of `step` raises an
exception; as soon as a data segment is complete the distribution of the models, their local distribution, the posterior and all hyper-parameter distributions are defined, sum up to one and contain no zeros
and the evidence of the study and of every model is positive. -/
theorem C110_partial (c : OConf K D gs) (h1 : 1 ≤ c.seg) (hgr : Nonempty (Idx gs)) (hl : ∀ a, 0 < c.E.lattice a) (hX : ProperExt c.E.ext) (ms : List (String × TM K)) (hne : ms ≠ [])
    (hg : LiveModels c.E ms) (hnd : (ms.flatMap fun q => (entries q.2).map (·.1)).Nodup) (store : Bool) (prior : PriorSpec K gs) (hpr : FullPrior prior) (p : Option (List K))
    (hp : ∀ l, p = some l → ∀ x ∈ l, 0 < x) (S : OState K D gs) (hs : setup store prior ms p = .ok S) (xs : List D) (hL : ∀ L ∈ segLiks c xs, ∀ x, 0 < L x) :
    ∃ S', runSteps c S xs = .ok S' ∧ (c.seg ≤ xs.length →
      Distribution ms.length S'.tmd ∧ Distribution ms.length S'.ltmd ∧ (∃ P, S'.marg = some P ∧ (∀ x, 0 < P x) ∧ ∑ x, P x = 1) ∧ (∃ l, S'.logEv = some l ∧ 0 < l.exp) ∧ S'.models.length = ms.length ∧
      ∀ m ∈ S'.models, (∃ D, m.hpd = some D ∧ Distribution D.length (some (D.map (· * m.grid.hgc.prod)))) ∧ ∃ l, m.hyperEv = some l ∧ 0 < l.exp) := by
  obtain ⟨S', hr, -⟩ := runSteps_total hl hX h1 hg hne hnd hs hpr xs hL
  refine ⟨S', hr, fun hx => ?_⟩
  obtain ⟨m1, m2⟩ := models_live hl hX h1 hg hne hs hpr hL hr hx
  obtain ⟨a1, a2, a3, a4, a5⟩ := online_facts h1 (env_cell_pos hl).le hg.good hg.nonneg hne hs hr hx
  have hn0 : 0 < S'.models.length := by rw [m1]; exact List.length_pos_iff.2 hne
  choose Dh lv Q k1 k2 k3 k4 k5 k6 k7 k8 using fun i : Fin S'.models.length => (m2 S'.models[i] (List.getElem_mem _)).2.2
  have e1 : S'.models.map OModelSt.hyperEv = List.ofFn fun i => some (lv i) := map_eq_ofFn _ _ k4
  have e2 : S'.models.map OModelSt.post = List.ofFn fun i => some (Q i) := map_eq_ofFn _ _ k6
  rw [e1, allSome_ofFn, Option.map_some, List.map_ofFn] at a3 a5
  obtain ⟨w1, w2, w3⟩ := normWeights_live hn0 (f := fun i => (lv i).exp) k5
  have hπl := tmPrior_len h1 hs
  have hπ := tmPrior_pos h1 hne hs hp
  generalize S.tmPrior.getD (ms.map fun _ => 1 / (ms.length : K)) = πs at a2 hπl hπ
  obtain ⟨π, rfl⟩ := eq_ofFn (hπl.trans m1.symm)
  have hπ0 : ∀ i, 0 < π i := fun i => hπ _ (List.mem_ofFn.2 ⟨i, rfl⟩)
  have hN : (Finset.univ : Finset (Fin S'.models.length)).Nonempty := ⟨⟨0, hn0⟩, Finset.mem_univ _⟩
  have htmd : S'.tmd = some (List.ofFn fun i => (lv i).exp / ∑ i, (lv i).exp) := a3.trans w1
  refine ⟨?_, ?_, ?_, ?_, m1, fun m hm => ?_⟩
  · rw [← m1, a3]; exact w3
  · -- the last step
    have key : ∃ Ms : List (OModelSt K gs), Ms.length = S'.models.length ∧ (∀ m ∈ Ms, ∃ l, m.hyperEv = some l ∧ 0 < l.exp) ∧
        S'.ltmd = (allSome (List.zipWith (fun q p => localWeight q.1 q.2 p) (Ms.zip S'.models) (List.ofFn π))).bind normWeights := by
      obtain ⟨ys, y, rfl⟩ : ∃ ys y, xs = ys ++ [y] := by
        rcases List.eq_nil_or_concat xs with rfl | ⟨ys, y, h⟩
        · simp at hx; omega
        · exact ⟨ys, y, by rw [h]; simp⟩
      have hL' : ∀ L ∈ segLiks c ys, ∀ x, 0 < L x := fun L hL' => hL L (by
        rw [segLiks, movingWindow_snoc ys y h1 hx, List.map_append]
        exact List.mem_append_left _ hL')
      obtain ⟨S1, hr1, hls⟩ := runSteps_total hl hX h1 hg hne hnd hs hpr ys hL'
      obtain ⟨i1, i2, -⟩ := setup_inv h1 hs
      have hi := runSteps_inv h1 hg.good hne ys [] S S1 i1 hr1
      rw [List.nil_append] at hi
      obtain ⟨S2, t1, -⟩ := step_total hl hX h1 hg hne hnd (by rw [i2]; exact hpr) (tmPrior_len h1 hs) hL hi hls
      have t2 := runSteps_append hr1 t1
      rw [hr] at t2
      cases t2
      have hml : S1.models.length = ms.length := by
        by_cases hl : ys.length < c.seg
        · exact (hi.before hl).2.2.2.length_eq.symm
        · exact (hi.after (by omega)).2.choose_spec.2.2.2.1.length_eq.symm
      have hmne : S1.models ≠ [] := by
        intro h0
        rw [h0] at hml
        exact hne (List.length_eq_zero_iff.1 hml.symm)
      have hlen : c.seg ≤ S1.rawData.length + 1 := by rw [hi.raw]; simpa using hx
      by_cases hlt : ys.length < c.seg
      · obtain ⟨Ms, l1, l2, l3⟩ := step_local_first hmne t1 hlen (hi.before hlt).1
        rw [a2] at l3
        exact ⟨Ms, l1, fun m hm => ⟨_, l2 m hm, by change (0 : K) < 1; exact zero_lt_one⟩, l3⟩
      · obtain ⟨l1, -⟩ := step_local hmne t1 hlen (hi.after (by omega)).1
        obtain ⟨-, n2⟩ := models_live hl hX h1 hg hne hs hpr hL' hr1 (by omega)
        obtain ⟨-, b2, -⟩ := online_facts h1 (env_cell_pos hl).le hg.good hg.nonneg hne hs hr1 (by omega)
        obtain ⟨-, b3, -⟩ := online_facts h1 (env_cell_pos hl).le hg.good hg.nonneg hne hs hr hx
        rw [b2, ← b3, a2] at l1
        refine ⟨S1.models, by rw [hml, m1], fun m hm => ?_, l1⟩
        obtain ⟨-, -, -, l, -, -, -, -, q1, q2, -⟩ := n2 m hm
        exact ⟨l, q1, q2⟩
    obtain ⟨Ms, l1, l2, l3⟩ := key
    choose lo j1 j2 using fun i : Fin S'.models.length => l2 (Ms[i.val]'(by rw [l1]; exact i.isLt)) (List.getElem_mem _)
    have hw : List.zipWith (fun q p => localWeight q.1 q.2 p) (Ms.zip S'.models) (List.ofFn π) = List.ofFn fun i => some ((lv i).exp / (lo i).exp * π i) := by
      apply List.ext_getElem
      · simp [l1]
      · intro i h1 h2
        have hir : i < S'.models.length := by simpa using h2
        simp only [List.getElem_zipWith, List.getElem_zip, List.getElem_ofFn, localWeight]
        have q1 := j1 ⟨i, hir⟩
        have q2 := k4 ⟨i, hir⟩
        simp only [Fin.getElem_fin] at q1 q2
        rw [q1, q2]
        simp only [if_neg (j2 ⟨i, hir⟩).ne']
    rw [l3, hw, allSome_ofFn, Option.bind_some, ← m1]
    exact (normWeights_live hn0 fun i => mul_pos (div_pos (k5 i) (j2 i)) (hπ0 i)).2.2
  · rw [a4, htmd, e2]
    simp only [BL.mixture, allSome_ofFn]
    refine ⟨_, rfl, fun x => ?_, ?_⟩
    · rw [zipWith_ofFn, List.sum_ofFn]
      exact Finset.sum_pos (fun i _ => mul_pos (k7 i x) (div_pos (k5 i) w2)) hN
    · simp only [zipWith_ofFn, List.sum_ofFn]
      rw [Finset.sum_comm]
      have : ∑ i, (lv i).exp / ∑ i, (lv i).exp = 1 := by rw [← Finset.sum_div, div_self w2.ne']
      rw [← this]
      exact Finset.sum_congr rfl fun i _ => by rw [← Finset.sum_mul, k8, one_mul]
  · refine ⟨_, a5, ?_⟩
    change 0 < (List.zipWith (· * ·) (List.ofFn (LogV.exp ∘ lv)) (S'.tmPrior.getD [])).sum
    rw [a2, Option.getD_some, zipWith_ofFn, List.sum_ofFn]
    exact Finset.sum_pos (fun i _ => mul_pos (k5 i) (hπ0 i)) hN
  · obtain ⟨-, -, D, l, -, q1, q2, q3, q4, q5, -⟩ := m2 m hm
    refine ⟨⟨D, q1, ?_⟩, l, q4, q5⟩
    obtain ⟨r, r1, r2, r3⟩ := q2
    cases r1
    exact ⟨_, rfl, by simp, r3⟩

end Props

namespace Props
open BL Spec Ex

theorem two_live : LiveModels oc.E two := by
  intro q hq
  simp only [two, List.mem_cons, List.not_mem_nil, or_false] at hq
  rcases hq with rfl | rfl
  · refine ⟨.static, by decide +kernel, fun g hg => ?_⟩
    have : createHyperGrid (mkStatic : TM ℚ) [] = .ok ⟨[], [], [], [], some [1]⟩ := by rfl
    rw [this] at hg
    cases hg
    refine ⟨by decide +kernel, ⟨_, rfl, by simp, by simp⟩, fun M hM => ?_⟩
    simp only [hypotheses, List.length_nil, if_true, List.mem_singleton] at hM
    subst hM
    simp [mkStatic, Spreading]
  · refine ⟨ogrw_built _, by decide +kernel, fun g hg => ?_⟩
    have : holds (createHyperGrid (ogrw [0, 1 / 2]) []) (fun g => decide (g.rows = [[0], [1 / 2]] ∧ g.hgc.prod = 1 / 2 ∧ g.priors = some [1, 1])) = true := by decide +kernel
    obtain ⟨g', h1, h2⟩ := holds_iff.1 this
    rw [h1] at hg
    cases hg
    obtain ⟨h2, h3, h4⟩ := of_decide_eq_true h2
    refine ⟨by rw [h3]; norm_num, ⟨_, h4, by simp, by simp⟩, fun M hM => ?_⟩
    rw [hypotheses, h2] at hM
    simp only [List.length_cons, List.length_nil, Nat.add_eq_zero_iff, one_ne_zero, and_false, if_false, List.map_cons, List.map_nil, List.mem_cons, List.not_mem_nil, or_false] at hM
    have e : ∀ v : ℚ, modelAt (ogrw [0, 1 / 2]) [v] = .leaf (.grw "x") ["sigma"] [.scalar v] (some (.item .none)) := fun v => by rfl
    rcases hM with rfl | rfl <;> (rw [e]; simp [Spreading, oc, Ex.axis_x])

/-- The hypotheses of `C110_partial` are met: a static model and a random walk with two values of its hyper-parameter, three data points, prior with unequal values. -/
example : ∃ S : OState ℚ (ℚ × ℚ) gs2, setup true (.array (some (v2 1 3))) two (some [1, 2]) = .ok S ∧ ∃ S', runSteps oc S [(1 / 4, 3 / 4), (2, 1), (1 / 9, 5)] = .ok S' ∧
    Distribution 2 S'.tmd ∧ Distribution 2 S'.ltmd := by
  have h1 : holds (setup (D := ℚ × ℚ) true (.array (some (v2 1 3))) two (some [1, 2])) (fun _ => true) = true := by decide +kernel
  obtain ⟨S, a1, -⟩ := holds_iff.1 h1
  obtain ⟨S', b1, b2⟩ := C110_partial oc le_rfl ⟨fun _ => ⟨0, by simp [gs2]⟩⟩ (by intro a; norm_num [oc, env]) ext_proper two (by simp [two]) two_live (by decide +kernel) true (.array (some (v2 1 3)))
    (by decide +kernel : ∀ x, 0 < v2 1 3 x) (some [1, 2]) (by rintro l ⟨⟩; simp) S a1 [(1 / 4, 3 / 4), (2, 1), (1 / 9, 5)] (by
      intro L hL
      have e : segLiks oc [(1 / 4, 3 / 4), (2, 1), (1 / 9, 5)] = [v2 (1 / 4) (3 / 4), v2 2 1, v2 (1 / 9) 5] := by rfl
      rw [e] at hL
      revert L
      simp only [List.forall_mem_cons]
      decide +kernel)
  obtain ⟨c1, c2, -⟩ := b2 (by simp [oc])
  exact ⟨S, a1, S', b1, c1, c2⟩

/-- NotEqual has to be excluded: after a data point that does not distinguish the two parameter values, the second data point makes all results undefined (no exception is raised). -/
theorem C110_notEqual_refuted : ∃ S S' : OState ℚ (ℚ × ℚ) gs2, setup true .none [("n", .leaf .notEqual ["log10pMin"] [.scalar 1] (some (.item .none)))] none = .ok S ∧
    runSteps oc S [(1, 1), (1, 2)] = .ok S' ∧ S'.tmd = none ∧ S'.marg = none ∧ S'.logEv = none := by
  have h1 : holds (orun true .none [("n", .leaf .notEqual ["log10pMin"] [.scalar 1] (some (.item .none)))] none [(1, 1), (1, 2)]) (fun S' => decide (S'.tmd = none) && S'.marg.isNone && S'.logEv.isNone) = true := by
    decide +kernel
  obtain ⟨S', a1, a2⟩ := holds_iff.1 h1
  obtain ⟨S, b1, b2⟩ := orun_ok a1
  simp only [Bool.and_eq_true, decide_eq_true_eq, Option.isNone_iff_eq_none] at a2
  exact ⟨S, S', b1, b2, a2.1.1, a2.1.2, a2.2⟩

end Props
