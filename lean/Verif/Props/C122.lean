import Verif.Props.C121
import Verif.Props.C63

/-! # C122: the history of an online study of random walks -/

set_option linter.unusedSectionVars false

namespace Props
open BL Spec

variable {K : Type} [Field K] [LinearOrder K] [IsStrictOrderedRing K] {d : ℕ} {gs : Fin d → ℕ} {D : Type}

/-- the entries of the history are the results that were current at the time -/
theorem history_entry {c : OConf K D gs} (h1 : 1 ≤ c.seg) {S : OState K D gs} (hi : HInv c true [] S) {ys : List D} (hy : c.seg ≤ ys.length) : ∀ (zs : List D) (S' : OState K D gs), runSteps c S (ys ++ zs) = .ok S' →
    ∃ T, runSteps c S ys = .ok T ∧ S'.posts.entries[ys.length - c.seg]? = some T.marg ∧ S'.means[ys.length - c.seg]? = some (T.marg.map fun p a => mean c.grid a p) ∧
      S'.hpds[ys.length - c.seg]? = some (T.models.map OModelSt.hpd) ∧ S'.tmds[ys.length - c.seg]? = some T.tmd := by
  intro zs
  induction zs using List.reverseRecOn with
  | nil =>
      intro S' h
      rw [List.append_nil] at h
      refine ⟨S', h, ?_⟩
      obtain ⟨ys', y, rfl⟩ : ∃ ys' y, ys = ys' ++ [y] := by
        rcases List.eq_nil_or_concat ys with rfl | ⟨ys', y, h⟩
        · simp at hy; omega
        · exact ⟨ys', y, by rw [h]; simp⟩
      obtain ⟨T, t1, t2⟩ := runSteps_snoc h
      have hT := runSteps_hist h1 hi ys' T t1
      obtain ⟨ha, -⟩ := step_hist h1 hT t2
      have hst := hT.store_eq
      have e : (T.store && decide (c.seg ≤ (ys' ++ [y]).length)) = true := by rw [hst, decide_eq_true hy]; rfl
      have hl : ∀ n : ℕ, (n = if true = true then ys'.length + 1 - c.seg else 0) → (ys' ++ [y]).length - c.seg = n := by
        intro n hn
        rw [hn]
        simp
      rw [ha.posts, ha.means, ha.hpds, ha.tmds, if_pos e, if_pos e, if_pos e, if_pos e]
      have hn1 := hl _ hT.posts
      have hn2 := hl _ hT.means
      have hn3 := hl _ hT.hpds
      have hn4 := hl _ hT.tmds
      refine ⟨?_, ?_, ?_, ?_⟩
      · rw [hn1]; simp
      · rw [hn2]; simp
      · rw [hn3]; simp
      · rw [hn4]; simp
  | append_singleton zs z ih =>
      intro S' h
      rw [← List.append_assoc] at h
      obtain ⟨U, u1, u2⟩ := runSteps_snoc h
      obtain ⟨T, t0, t1, t2, t3, t4⟩ := ih U u1
      obtain ⟨ha, -⟩ := step_hist h1 (runSteps_hist h1 hi _ U u1) u2
      have happ : ∀ {α : Type} {l : List α} {k : ℕ} {y : α} (r : List α), l[k]? = some y → (l ++ r)[k]? = some y := by
        intro α l k y r hk
        rw [List.getElem?_append_left (List.getElem?_eq_some_iff.1 hk).1]
        exact hk
      exact ⟨T, t0, by rw [ha.posts]; exact happ _ t1, by rw [ha.means]; exact happ _ t2, by rw [ha.hpds]; exact happ _ t3, by rw [ha.tmds]; exact happ _ t4⟩

/-- **C122, transition models and parameters (what is proved).** In the setting of C120 with `storeHistory=True` and hyper-grids of the same cell volume, let `ys` be the first data points of a stream `ys ++ zs`.  After the whole stream,
the history still holds the exact results for the data `ys` alone: `getTransitionModelDistributions()` and `getParameterMeanValues(name)` contain, in the row for the last data point of `ys`, the posterior probabilities of the transition models and the posterior
mean given `ys`; `getParameterDistribution(t, name, density=False)` at its time stamp returns the grid values and their posterior probabilities given `ys`. -/
theorem C122_partial (c : OConf K D gs) (h1 : 1 ≤ c.seg) (ms : List (String × TM K)) (hg : GoodModels ms) (hnn : NonnegPriors ms) (hne : ms ≠ []) (hE : Regular c.E)
    (prior : PriorSpec K gs) (hn : prior.isArray = false) (π : Idx gs → K) (hp : PriorMass c.E.cell prior π) (p : Option (List K)) (S S' : OState K D gs) (hs : setup true prior ms p = .ok S) (ys zs : List D)
    {n : ℕ} (L : Fin (n + 1) → Idx gs → K) (hls : segLiks c ys = List.ofFn L) (hL0 : ∀ i x, 0 ≤ L i x) (τ : Fin (n + 1) → K) (hw : Walks c.E π τ L ms)
    (hr : runSteps c S (ys ++ zs) = .ok S') (hy : c.seg ≤ ys.length) (G : Fin ms.length → HyperGrid K) (ρ : Fin ms.length → List K) (hG : ∀ i : Fin ms.length, createHyperGrid ms[i].2 [] = .ok (G i))
    (hρ : ∀ i, (G i).priors = some (ρ i)) (κ : K) (hκ : ∀ i, (G i).hgc.prod = κ) :
    (∃ rows, S'.getTMDs false = .ok (ms.map (·.1), rows) ∧ rows[ys.length - c.seg]? = some (some (List.ofFn (modelProbability c.E π ms G ρ τ L)))) ∧
    ∀ name a, paramIndex c.E.names name = some a →
      (S'.getParameterDistribution c (.at ((ys.length - 1 : ℕ) : K)) name false).2 = .ok (List.ofFn (c.grid a), some (List.ofFn fun v => ∑ x : Idx gs with x a = v, averagePosterior c.E π ms G ρ τ L x)) ∧
      ∃ rows, S'.getMeans c name = .ok rows ∧ rows[ys.length - c.seg]? = some (some (∑ x, averagePosterior c.E π ms G ρ τ L x * c.grid a (x a))) := by
  obtain ⟨T, t0, t1, t2, -, t4⟩ := history_entry h1 (setup_hist h1 hs) hy zs S' hr
  obtain ⟨e1, -, e3⟩ := C121_partial c h1 ms hg hnn hne hE true prior hn π hp p S T hs ys L hls hL0 τ hw t0 hy G ρ hG hρ κ hκ
  have hh := runSteps_hist h1 (setup_hist h1 hs) _ S' hr
  have hst : ¬ S'.store = false := by rw [hh.store_eq]; simp
  have hnm : S'.models.map OModelSt.name = ms.map (·.1) := by
    obtain ⟨i1, -⟩ := setup_inv h1 hs
    have hi := runSteps_inv h1 hg hne (ys ++ zs) [] S S' i1 hr
    rw [List.nil_append] at hi
    obtain ⟨-, a0, -, -, -, a3, -⟩ := hi.after (by rw [List.length_append]; omega)
    apply List.ext_getElem
    · simp [a3.length_eq]
    · intro k q1 q2
      rw [List.getElem_map, List.getElem_map]
      exact (List.Forall₂.get a3 (by simpa using q2) (by simpa using q1)).1.name
  refine ⟨⟨_, by unfold OState.getTMDs; rw [if_neg hst, hnm], ?_⟩, fun name a ha => ?_⟩
  · simp only [Bool.false_eq_true, if_false]
    rw [t4]
    have := congrArg Prod.snd e1
    simpa [OState.getCurrentTMD] using this
  · obtain ⟨e4, -, e5⟩ := e3 name a ha
    constructor
    · have hk : ys.length - c.seg < (ys ++ zs).length + 1 - c.seg := by rw [List.length_append]; omega
      have := hh.distribution h1 ha false hk t1
      rw [show ys.length - c.seg + (c.seg - 1) = ys.length - 1 by omega] at this
      rw [this, ← e4]
      simp only [OState.getCurrentParameterDistribution, ha]
    · have hml : S'.means.length ≠ 0 := by
        have := (List.getElem?_eq_some_iff.1 t2).1
        omega
      refine ⟨_, by unfold OState.getMeans; rw [if_neg hst, ha]; exact if_neg hml, ?_⟩
      rw [List.getElem?_map, t2]
      simp only [OState.getCurrentMean, ha, Except.ok.injEq] at e5
      rw [Option.map_some, Option.map_map, ← e5]
      rfl

theorem zipWith_mean {f : List K → K} {κ Z : K} (F : List K → K) : ∀ (rows : List (List K)) (ps Dk : List K), Dk.map (· * κ) = (rows.zip ps).map (fun q => q.2 * F q.1 / Z) → ps.length = rows.length →
    (List.zipWith (fun r p => f r * p * κ) rows Dk).sum = overAll rows ps (fun r => f r * F r) / Z
  | [], ps, Dk, h, hl => by simp [overAll]
  | r :: rows, [], Dk, h, hl => by simp at hl
  | r :: rows, p :: ps, [], h, hl => by simp at h
  | r :: rows, p :: ps, D0 :: Dk, h, hl => by
      simp only [List.map_cons, List.zip_cons_cons, List.cons.injEq] at h
      have ih := zipWith_mean (f := f) F rows ps Dk h.2 (by simpa using hl)
      unfold overAll at ih ⊢
      rw [List.zipWith_cons_cons, List.sum_cons, ih, List.zip_cons_cons, List.map_cons, List.sum_cons, add_div, mul_assoc, h.1]
      ring

/-- **C122, hyper-parameters (what is proved).** In the setting of C120 with `storeHistory=True`, let `name` be hyper-parameter number `a` of transition model number `i` only, given by an array `l` of distinct values, and let the other hyper-parameters of this
model be given by arrays as well.  After a stream `ys ++ zs`, `getHyperParameterDistribution(t, name)` at the time stamp of the last data point of `ys` returns the values `l` and, up to the volume of a cell of the hyper-grid, their posterior
probabilities given `ys`; `getHyperParameterMeanValue(t, name)` returns the posterior mean given `ys`. -/
theorem C122_hyper_partial (c : OConf K D gs) (h1 : 1 ≤ c.seg) (ms : List (String × TM K)) (hg : GoodModels ms) (hnn : NonnegPriors ms) (hne : ms ≠ []) (hE : Regular c.E)
    (prior : PriorSpec K gs) (hn : prior.isArray = false) (π : Idx gs → K) (hp : PriorMass c.E.cell prior π) (p : Option (List K)) (S S' : OState K D gs) (hs : setup true prior ms p = .ok S) (ys zs : List D)
    {n : ℕ} (L : Fin (n + 1) → Idx gs → K) (hls : segLiks c ys = List.ofFn L) (hL0 : ∀ i x, 0 ≤ L i x) (τ : Fin (n + 1) → K) (hw : Walks c.E π τ L ms)
    (hr : runSteps c S (ys ++ zs) = .ok S') (hy : c.seg ≤ ys.length) (i a : ℕ) (q : String × TM K) (hq : ms[i]? = some q) (name : String) (l : List K) (hl : l.Nodup)
    (he : (entries q.2)[a]? = some (name, .array l)) (ho : ∀ (j : ℕ) (q' : String × TM K), j ≠ i → ms[j]? = some q' → name ∉ (entries q'.2).map (·.1))
    (g : HyperGrid K) (ps : List K) (hgr : createHyperGrid q.2 [] = .ok g) (hps : g.priors = some ps) (hall : ∀ e ∈ entries q.2, ∃ l, e.2 = .array l) :
    (∃ A, S'.getHPD ((ys.length - 1 : ℕ) : K) name = .ok (.array l, some A) ∧ A.flat.map (· * g.hgc.prod) = l.map fun t =>
      overAll (combinations g) ps (fun r => if r[a]? = some t then rowEvidence c.E π q.2 τ L r else 0) / overAll (combinations g) ps (rowEvidence c.E π q.2 τ L)) ∧
    S'.getHyperMean ((ys.length - 1 : ℕ) : K) name = .ok (some
      (overAll (combinations g) ps (fun r => r.getD a 0 * rowEvidence c.E π q.2 τ L r) / overAll (combinations g) ps (rowEvidence c.E π q.2 τ L))) := by
  obtain ⟨T, t0, -, -, t3, -⟩ := history_entry h1 (setup_hist h1 hs) hy zs S' hr
  have hh := runSteps_hist h1 (setup_hist h1 hs) _ S' hr
  have hst : ¬ S'.store = false := by rw [hh.store_eq]; simp
  obtain ⟨-, -, hflat, hld, hcomb, m, Dk, B, hm, hmg, f2, f3, hpl, f4, hMH, hB⟩ := online_stored c h1 ms hg hnn hne hE true prior hn π hp p S T hs ys L hls hL0 τ hw t0 hy i a q hq name l hl he ho g ps hgr hps hall
  obtain ⟨-, hfind, m', hm', hmg'⟩ := online_found h1 hg hne hs hr (by rw [List.length_append]; omega) hq he ho hgr
  have hk : ys.length - c.seg < (ys ++ zs).length + 1 - c.seg := by rw [List.length_append]; omega
  have hix := hh.index h1 hk
  rw [show ys.length - c.seg + (c.seg - 1) = ys.length - 1 by omega] at hix
  have hat : hpdAt S' (ys.length - c.seg) i = .ok (some Dk) := by
    unfold hpdAt
    rw [t3]
    simp only [List.getElem?_map, hm, Option.map_some, f2]
  rw [hcomb]
  constructor
  · refine ⟨B, ?_, ?_⟩
    · unfold OState.getHPD
      rw [if_neg hst, hfind]
      simp only
      rw [hix]
      simp only [hm', Option.bind_some, hmg', hflat, Option.map_some, hat, hld, hMH, Bool.true_eq_false, if_false]
      rfl
    · rw [← hB, scale_flat]
  · unfold OState.getHyperMean
    rw [if_neg hst, hfind]
    simp only
    rw [hix]
    simp only [hm', hmg', hat, Except.map, Option.map_some, hyperMean]
    rw [zipWith_mean (f := fun r => r.getD a 0) (rowEvidence c.E π q.2 τ L) g.rows ps Dk f4 hpl]

end Props

namespace Props
open BL Spec _root_.Ex

/-- Concrete case: two random walks, four data points; the results for the first two are still available. -/
example : ∃ (S S' : OState ℚ (ℚ × ℚ) gs2) (G : Fin 2 → HyperGrid ℚ) (ρ : Fin 2 → List ℚ), setup true (.func (v2 1 2)) walksAB none = .ok S ∧
    runSteps oc S ([(1 / 4, 3 / 4), (1 / 2, 1 / 4)] ++ [(1 / 8, 1 / 2), (1, 1 / 3)]) = .ok S' ∧
    (∀ i : Fin 2, createHyperGrid (walksAB[i]).2 [] = .ok (G i)) ∧
    (∃ rows, S'.getTMDs false = .ok (["a", "b"], rows) ∧ rows[1]? = some (some (List.ofFn (modelProbability oc.E owPrior walksAB G ρ owTimes owLik)))) ∧
    S'.getHyperMean 1 "s2" = .ok (some (overAll (combinations (G 1)) (ρ 1) (fun r => r.getD 0 0 * rowEvidence oc.E owPrior (walksAB[1]).2 owTimes owLik r) /
      overAll (combinations (G 1)) (ρ 1) (rowEvidence oc.E owPrior (walksAB[1]).2 owTimes owLik))) := by
  have h1 : holds (orun true (.func (v2 1 2)) walksAB none ([(1 / 4, 3 / 4), (1 / 2, 1 / 4)] ++ [(1 / 8, 1 / 2), (1, 1 / 3)])) (fun _ => true) = true := by decide +kernel
  obtain ⟨S', a1, -⟩ := holds_iff.1 h1
  obtain ⟨S, b1, b2⟩ := orun_ok a1
  have hgr : ∀ i : Fin 2, ∃ g ps, createHyperGrid (walksAB[i]).2 [] = .ok g ∧ g.priors = some ps ∧ g.hgc.prod = 1 / 2 := by
    intro i
    fin_cases i
    · exact ⟨_, [1, 1], rfl, by decide +kernel, by decide +kernel⟩
    · exact ⟨_, [2 / 3, 2 / 3, 2 / 3], rfl, by decide +kernel, by decide +kernel⟩
  choose G ρ g1 g2 g3 using hgr
  have hpm : PriorMass oc.E.cell (.func (v2 1 2)) owPrior := by
    have := PriorMass.func (cell := oc.E.cell) (v2 1 2 : Idx gs2 → ℚ) (by decide +kernel) (by decide +kernel) (.inl (by decide +kernel))
    convert this using 1
    decide +kernel
  have hls : segLiks oc [(1 / 4, 3 / 4), (1 / 2, 1 / 4)] = List.ofFn owLik := by decide +kernel
  have hL0 : ∀ i x, 0 ≤ owLik i x := by decide +kernel
  obtain ⟨e1, -⟩ := C122_partial oc le_rfl walksAB walksAB_good walksAB_nonneg (by simp [walksAB]) (regular2 (by norm_num)) (.func (v2 1 2)) rfl owPrior hpm none S S' b1 _ _ owLik hls hL0 owTimes
    walksAB_walks b2 (by decide) G ρ g1 g2 (1 / 2) g3
  obtain ⟨-, e3⟩ := C122_hyper_partial oc le_rfl walksAB walksAB_good walksAB_nonneg (by simp [walksAB]) (regular2 (by norm_num)) (.func (v2 1 2)) rfl owPrior hpm none S S' b1 _ _ owLik hls hL0 owTimes
    walksAB_walks b2 (by decide) 1 0 _ rfl "s2" [1, 3 / 2, 2] (by decide +kernel) rfl (by
      intro j q' hj hq'
      match j, hj with
      | 0, _ => cases hq'; decide
      | j + 2, _ => simp [walksAB] at hq') (G 1) (ρ 1) (g1 1) (g2 1) (by
      intro e he
      have : e = ("s2", .array [1, 3 / 2, 2]) := by simpa [entries] using he
      rw [this]
      exact ⟨_, rfl⟩)
  exact ⟨S, S', G, ρ, b1, b2, g1, e1, by
    rw [← (by norm_num : (([(1 / 4, 3 / 4), (1 / 2, 1 / 4)] : List (ℚ × ℚ)).length - 1 : ℕ) = (1 : ℚ))]
    exact e3⟩

end Props
