import Verif.Props.C119
import Verif.Props.C110
import Verif.Props.C71

/-! # C120: online studies of random walks -/

set_option linter.unusedSectionVars false

namespace Spec
open BL
variable {K : Type} [Field K] [LinearOrder K] {d : ℕ} {gs : Fin d → ℕ}

/-- All combinations of hyper-parameter values of a transition model; a model without hyper-parameters has one combination, with no values. -/
def combinations (g : HyperGrid K) : List (List K) := if g.rows.length = 0 then [[]] else g.rows

/-- Probability of the data for a transition model with uncertain hyper-parameters: the average over all combinations of hyper-parameter values with their prior probabilities (density times cell of the hyper-grid) of the probability of the data
for given values. -/
def modelEvidence (E : Env K gs) (π : Idx gs → K) (tm : TM K) (g : HyperGrid K) (ps : List K) {n : ℕ} (τ : Fin (n + 1) → K) (L : Fin (n + 1) → Idx gs → K) : K :=
  (((combinations g).zip ps).map fun q => (q.2 * g.hgc.prod) * rowEvidence E π tm τ L q.1).sum

/-- Probability of the parameter value `x` after the last data point, given all data: the distributions for given hyper-parameter values, averaged with the posterior probabilities of the combinations of hyper-parameter values. -/
def modelPosterior (E : Env K gs) (π : Idx gs → K) (tm : TM K) (g : HyperGrid K) (ps : List K) {n : ℕ} (τ : Fin (n + 1) → K) (L : Fin (n + 1) → Idx gs → K) (x : Idx gs) : K :=
  overAll (combinations g) ps (fun r => rowEvidence E π tm τ L r * rowPosterior E π tm τ L r (Fin.last n) x) / overAll (combinations g) ps (rowEvidence E π tm τ L)

end Spec

namespace Props
open BL Spec

variable {K : Type} [Field K] [LinearOrder K] [IsStrictOrderedRing K] {d : ℕ} {gs : Fin d → ℕ} {D : Type}

theorem modelEvidence_eq (E : Env K gs) (π : Idx gs → K) (tm : TM K) (g : HyperGrid K) (ps : List K) {n : ℕ} (τ : Fin (n + 1) → K) (L : Fin (n + 1) → Idx gs → K) :
    modelEvidence E π tm g ps τ L = overAll (combinations g) ps (rowEvidence E π tm τ L) * g.hgc.prod := by
  rw [modelEvidence, overAll, ← List.sum_map_mul_right]
  congr 1
  refine List.map_congr_left fun q _ => ?_
  ring

theorem overAll_ofFn {N : ℕ} {rows : List (List K)} {ps : List K} (f : List K → K) {r : Fin N → List K} {pr : Fin N → K} (hr : rows = List.ofFn r) (hp : ps = List.ofFn pr) :
    overAll rows ps f = ∑ j, pr j * f (r j) := by
  subst hr hp
  unfold overAll
  rw [List.zip_eq_zipWith, zipWith_ofFn, List.map_ofFn, List.sum_ofFn]
  rfl

theorem modelAt_nil {tm : TM K} (hp : Proper tm) (h0 : entries tm = []) : modelAt tm [] = tm :=
  sameShape_noEntries hp h0 ⟨assigned ((entries tm).map (·.1)) (([] : List K).map .scalar), fun n v h => by simpa [assigned] using h, rfl⟩

/-- what is assumed of the models of an online study: they never draw the parameters afresh, they do not depend on time, their hyper-parameters have different names, and no combination of hyper-parameter values rules out the data -/
def Walks (E : Env K gs) (π : Idx gs → K) {n : ℕ} (τ : Fin (n + 1) → K) (L : Fin (n + 1) → Idx gs → K) (ms : List (String × TM K)) : Prop :=
  ∀ q ∈ ms, WalkModel E q.2 ∧ Timeless q.2 ∧ ((entries q.2).map (·.1)).Nodup ∧ ∀ g, createHyperGrid q.2 [] = .ok g →
    g.hgc.prod ≠ 0 ∧ (∀ ps, g.priors = some ps → ∃ p ∈ ps, p ≠ 0) ∧ ∀ r ∈ combinations g, rowEvidence E π q.2 τ L r ≠ 0

theorem hypotheses_eq {tm : TM K} {g : HyperGrid K} (hp : Proper tm) (h0 : g.rows.length = 0 → entries tm = []) : hypotheses tm g = (combinations g).map (modelAt tm) := by
  unfold hypotheses combinations
  split
  · rename_i h
    rw [List.map_singleton, modelAt_nil hp (h0 h)]
  · rfl

theorem combos_length {tm : TM K} {g : HyperGrid K} (hp : Proper tm) (hg : createHyperGrid tm [] = .ok g) (h0 : g.rows.length = 0 → entries tm = []) :
    ∀ r ∈ combinations g, r.length = (entries tm).length := by
  intro r hr
  unfold combinations at hr
  split at hr
  · rename_i h
    rw [List.mem_singleton] at hr
    rw [hr, h0 h]
    rfl
  · exact rows_length hp hg r hr

/-- one model of an online study -/
theorem online_exact (c : OConf K D gs) (h1 : 1 ≤ c.seg) (ms : List (String × TM K)) (hg : GoodModels ms) (hnn : NonnegPriors ms) (hne : ms ≠ []) (hE : Regular c.E) (store : Bool)
    (prior : PriorSpec K gs) (hn : prior.isArray = false) (π : Idx gs → K) (hp : PriorMass c.E.cell prior π) (p : Option (List K)) (S S' : OState K D gs) (hs : setup store prior ms p = .ok S) (xs : List D)
    {n : ℕ} (L : Fin (n + 1) → Idx gs → K) (hls : segLiks c xs = List.ofFn L) (hL0 : ∀ i x, 0 ≤ L i x) (τ : Fin (n + 1) → K) (hw : Walks c.E π τ L ms)
    (hr : runSteps c S xs = .ok S') (hx : c.seg ≤ xs.length) :
    List.Forall₂ (fun q m => m.name = q.1 ∧ createHyperGrid q.2 [] = .ok m.grid ∧ ∃ ps, m.grid.priors = some ps ∧ ps.length = (combinations m.grid).length ∧ 0 < overAll (combinations m.grid) ps (rowEvidence c.E π q.2 τ L) ∧
      m.hpd = some (((combinations m.grid).zip ps).map fun a => a.2 * rowEvidence c.E π q.2 τ L a.1 / overAll (combinations m.grid) ps (rowEvidence c.E π q.2 τ L) / m.grid.hgc.prod) ∧
      m.hyperEv = some ⟨overAll (combinations m.grid) ps (rowEvidence c.E π q.2 τ L)⟩ ∧ m.post = some (modelPosterior c.E π q.2 m.grid ps τ L)) ms S'.models := by
  have := hE.nonempty
  have hcell : 0 < c.E.cell := Finset.prod_pos fun a _ => hE.lattice_pos a
  have hπ0 : ∀ x, 0 ≤ π x := priorMass_nonneg hcell hp
  obtain ⟨b1, -⟩ := online_facts h1 hcell.le hg hnn hne hs hr hx
  refine (forall₂_and_mem (forall₂_both (C40_partial c h1 ms hg hne store prior hn p S S' hs xs hr hx) b1)).imp ?_
  rintro q m ⟨hq, ⟨e1, e2, e3⟩, -, -, hf⟩
  refine ⟨e1, e2, ?_⟩
  obtain ⟨w1, w2, w3, w4⟩ := hw q hq
  obtain ⟨v1, v2, v3⟩ := w4 _ e2
  have hb := Built.matched (hg q hq).1
  have h0 : m.grid.rows.length = 0 → entries q.2 = [] := by
    intro hz
    by_contra hc
    obtain ⟨ps, p1, p2, -⟩ := hf.priors
    have := weights_len hb hc e2 p1
    have := e3.length_eq
    simp only [hypotheses, hz, if_true, List.length_singleton] at this
    omega
  have hlen := combos_length hb.proper e2 h0
  rw [hypotheses_eq hb.proper h0, List.forall₂_map_left_iff] at e3
  have hl := e3.length_eq
  have key : List.Forall₂ (fun r h => h = (⟨some (rowPosterior c.E π q.2 τ L r (Fin.last n)), some ⟨rowEvidence c.E π q.2 τ L r⟩⟩ : OHyp K gs)) (combinations m.grid) m.hyps := by
    refine (forall₂_and_mem e3).imp ?_
    rintro r h ⟨hr, hh⟩
    obtain ⟨u1, u2⟩ := modelAt_walk w1 w3 (hlen r hr)
    let T : FitState K gs := ⟨prior, [], fun _ => [], 0, []⟩
    obtain ⟨F, f1, f2⟩ := C03_filtering c.E c.grid _ hE u1 T π hp (.inl u2) L hL0 τ (v3 r hr)
    obtain ⟨F', f3, f4⟩ := C01_evidence_is_path_sum c.E c.grid _ hE u1 u2 T π hp L hL0 τ true false (.inr (.inl rfl))
    rw [f1] at f3
    cases f3
    rw [← hls] at f1
    obtain ⟨g1, post, g2, g3⟩ := hh _ T F rfl w2 f1 (fun hz => v3 r hr (by rw [hz] at f4; exact f4.symm))
    rw [f2, List.getLast?_eq_getElem?, List.length_ofFn, List.getElem?_ofFn, dif_pos (by omega)] at g2
    have g2' := Option.some.inj g2
    obtain ⟨hp1, hp2⟩ := h
    simp only at g1 g3
    have e4 : F.logEv = ⟨rowEvidence c.E π q.2 τ L r⟩ := LogV.ext_exp f4
    have e5 : post = rowPosterior c.E π q.2 τ L r (Fin.last n) := by
      injection g2' with g2'
      rw [← g2']
      rfl
    rw [g1, g3, e4, e5]
  have hget : ∀ j : Fin m.hyps.length, m.hyps[j] = (⟨some (rowPosterior c.E π q.2 τ L ((combinations m.grid)[j.val]'(by omega)) (Fin.last n)), some ⟨rowEvidence c.E π q.2 τ L ((combinations m.grid)[j.val]'(by omega))⟩⟩ : OHyp K gs) :=
    fun j => List.Forall₂.get key (by omega) j.2
  obtain ⟨pr, k1, k2, k3, k4⟩ := hf.exact hget v1
  have hcr : combinations m.grid = List.ofFn fun j : Fin m.hyps.length => (combinations m.grid)[j.val]'(by omega) := by
    apply List.ext_getElem
    · simp [hl]
    · intro i h1 h2
      rw [List.getElem_ofFn]
  have hov : ∀ f : List K → K, overAll (combinations m.grid) (List.ofFn pr) f = ∑ j : Fin m.hyps.length, pr j * f ((combinations m.grid)[j.val]'(by omega)) := fun f => overAll_ofFn f hcr rfl
  have hev : ∀ r ∈ combinations m.grid, 0 < rowEvidence c.E π q.2 τ L r := fun r hr =>
    lt_of_le_of_ne (evidence_nonneg hπ0 (fun i => kernel_nonneg (ρ := π) hE.gauss _ (.inr hπ0) _) hL0) (v3 r hr).symm
  have hsum : ∑ j : Fin m.hyps.length, rowEvidence c.E π q.2 τ L ((combinations m.grid)[j.val]'(by omega)) * pr j = overAll (combinations m.grid) (List.ofFn pr) (rowEvidence c.E π q.2 τ L) := by
    rw [hov]
    exact Finset.sum_congr rfl fun j _ => mul_comm _ _
  have hpos : 0 < overAll (combinations m.grid) (List.ofFn pr) (rowEvidence c.E π q.2 τ L) := by
    rw [hov]
    obtain ⟨p, hp1, hp2⟩ := v2 _ k1
    obtain ⟨j, rfl⟩ := List.mem_ofFn.1 hp1
    exact Finset.sum_pos' (fun j _ => mul_nonneg (k2 j) (hev _ (List.getElem_mem _)).le) ⟨j, Finset.mem_univ _, mul_pos (lt_of_le_of_ne (k2 j) (Ne.symm hp2)) (hev _ (List.getElem_mem _))⟩
  change m.hyperEv = some ⟨∑ j : Fin m.hyps.length, rowEvidence c.E π q.2 τ L ((combinations m.grid)[j.val]'(by omega)) * pr j⟩ at k3
  change 0 < ∑ j : Fin m.hyps.length, rowEvidence c.E π q.2 τ L ((combinations m.grid)[j.val]'(by omega)) * pr j →
    m.hpd = some (List.ofFn fun j : Fin m.hyps.length => rowEvidence c.E π q.2 τ L ((combinations m.grid)[j.val]'(by omega)) * pr j /
      (∑ j : Fin m.hyps.length, rowEvidence c.E π q.2 τ L ((combinations m.grid)[j.val]'(by omega)) * pr j) / m.grid.hgc.prod) ∧
    m.post = some fun x => ∑ j : Fin m.hyps.length, rowEvidence c.E π q.2 τ L ((combinations m.grid)[j.val]'(by omega)) * pr j /
      (∑ j : Fin m.hyps.length, rowEvidence c.E π q.2 τ L ((combinations m.grid)[j.val]'(by omega)) * pr j) * rowPosterior c.E π q.2 τ L ((combinations m.grid)[j.val]'(by omega)) (Fin.last n) x at k4
  rw [hsum] at k3 k4
  obtain ⟨k5, k6⟩ := k4 hpos
  refine ⟨_, k1, by simp [hl], hpos, ?_, k3, ?_⟩
  · rw [k5]
    congr 1
    apply List.ext_getElem
    · simp [hl]
    · intro i h1 h2
      simp only [List.getElem_ofFn, List.getElem_map, List.getElem_zip]
      rw [mul_comm]
  · rw [k6]
    congr 1
    funext x
    rw [modelPosterior]
    generalize overAll (combinations m.grid) (List.ofFn pr) (rowEvidence c.E π q.2 τ L) = Z
    rw [hov, Finset.sum_div]
    refine Finset.sum_congr rfl fun j _ => ?_
    ring

/-- **C120 (what is proved).** Consider an online study whose transition models never draw the parameters afresh (`WalkModel`) and do not depend on time (`Timeless`): the Static model and Gaussian random walks, alone or combined, with
any number of uncertain standard deviations.  Let the prior of the parameters be anything but an array, with probabilities `π`, and let no combination of hyper-parameter values rule out the data.  Then, after every number of steps (for any division of the
data series into steps), every transition model reports for every combination of hyper-parameter values the posterior probability of Bayes' theorem for the data so far: prior probability times the probability of the data (a sum over all
parameter paths), divided by the sum of these products; and its parameter distribution is the exact one for the last data point: the distributions for given hyper-parameter values, averaged with the posterior probabilities of these values.
Not covered: models that depend on time (`C40_refuted`), priors given as array (shared between the fits), combinations that rule out the data. -/
theorem C120_partial (c : OConf K D gs) (h1 : 1 ≤ c.seg) (ms : List (String × TM K)) (hg : GoodModels ms) (hnn : NonnegPriors ms) (hne : ms ≠ []) (hE : Regular c.E) (store : Bool)
    (prior : PriorSpec K gs) (hn : prior.isArray = false) (π : Idx gs → K) (hp : PriorMass c.E.cell prior π) (p : Option (List K)) (S S' : OState K D gs) (hs : setup store prior ms p = .ok S) (xs : List D)
    {n : ℕ} (L : Fin (n + 1) → Idx gs → K) (hls : segLiks c xs = List.ofFn L) (hL0 : ∀ i x, 0 ≤ L i x) (τ : Fin (n + 1) → K) (hw : Walks c.E π τ L ms)
    (hr : runSteps c S xs = .ok S') (hx : c.seg ≤ xs.length) :
    List.Forall₂ (fun q m => m.name = q.1 ∧ createHyperGrid q.2 [] = .ok m.grid ∧ ∃ ps D, m.grid.priors = some ps ∧ m.hpd = some D ∧ D.length = (combinations m.grid).length ∧
      D.map (· * m.grid.hgc.prod) = ((combinations m.grid).zip ps).map (fun a => a.2 * rowEvidence c.E π q.2 τ L a.1 / overAll (combinations m.grid) ps (rowEvidence c.E π q.2 τ L)) ∧
      ∃ Q, m.post = some Q ∧ ∀ x, Q x = overAll (combinations m.grid) ps (fun r => rowEvidence c.E π q.2 τ L r * rowPosterior c.E π q.2 τ L r (Fin.last n) x) /
        overAll (combinations m.grid) ps (rowEvidence c.E π q.2 τ L)) ms S'.models := by
  refine (forall₂_and_mem (online_exact c h1 ms hg hnn hne hE store prior hn π hp p S S' hs xs L hls hL0 τ hw hr hx)).imp ?_
  rintro q m ⟨hq, e1, e2, ps, e3, e4, -, e5, -, e7⟩
  refine ⟨e1, e2, ps, _, e3, e5, by simp [e4], ?_, _, e7, fun x => rfl⟩
  rw [List.map_map]
  refine List.map_congr_left fun a _ => ?_
  exact div_mul_cancel₀ _ ((hw q hq).2.2.2 _ e2).1

/-- **C120, several transition models.** In the same setting, let all hyper-grids have cells of the same volume `κ`.  Then the study reports for every transition model the posterior probability of Bayes' theorem, for equal prior probabilities of the
models: the probability of the data for this model (`modelEvidence`, the average over its hyper-parameter values), divided by the sum over all models; the parameter distribution is the exact one, averaged over all transition models with these
probabilities and over all their hyper-parameter values; and the evidence reported, times `κ`, is the average of the probabilities of the data with the prior probabilities of the models.  Other prior probabilities of the models are ignored by the code
(`C41_refuted`), and cells of different volume falsify the result (`C42_refuted`). -/
theorem C120_models_partial (c : OConf K D gs) (h1 : 1 ≤ c.seg) (ms : List (String × TM K)) (hg : GoodModels ms) (hnn : NonnegPriors ms) (hne : ms ≠ []) (hE : Regular c.E) (store : Bool)
    (prior : PriorSpec K gs) (hn : prior.isArray = false) (π : Idx gs → K) (hp : PriorMass c.E.cell prior π) (p : Option (List K)) (S S' : OState K D gs) (hs : setup store prior ms p = .ok S) (xs : List D)
    {n : ℕ} (L : Fin (n + 1) → Idx gs → K) (hls : segLiks c xs = List.ofFn L) (hL0 : ∀ i x, 0 ≤ L i x) (τ : Fin (n + 1) → K) (hw : Walks c.E π τ L ms)
    (hr : runSteps c S xs = .ok S') (hx : c.seg ≤ xs.length) (G : Fin ms.length → HyperGrid K) (ρ : Fin ms.length → List K) (hG : ∀ i : Fin ms.length, createHyperGrid ms[i].2 [] = .ok (G i))
    (hρ : ∀ i, (G i).priors = some (ρ i)) (κ : K) (hκ : ∀ i, (G i).hgc.prod = κ) :
    S'.tmd = some (List.ofFn fun i : Fin ms.length => modelEvidence c.E π ms[i].2 (G i) (ρ i) τ L / ∑ j : Fin ms.length, modelEvidence c.E π ms[j].2 (G j) (ρ j) τ L) ∧
    (∃ Q, S'.marg = some Q ∧ ∀ x, Q x = (∑ i : Fin ms.length, modelEvidence c.E π ms[i].2 (G i) (ρ i) τ L * modelPosterior c.E π ms[i].2 (G i) (ρ i) τ L x) / ∑ j : Fin ms.length, modelEvidence c.E π ms[j].2 (G j) (ρ j) τ L) ∧
    ∃ l, S'.logEv = some l ∧ l.exp * κ = (List.zipWith (· * ·) (List.ofFn fun i : Fin ms.length => modelEvidence c.E π ms[i].2 (G i) (ρ i) τ L) (S.tmPrior.getD (ms.map fun _ => 1 / (ms.length : K)))).sum := by
  have hcell : 0 < c.E.cell := Finset.prod_pos fun a _ => hE.lattice_pos a
  obtain ⟨-, a2, a3, a4, a5⟩ := online_facts h1 hcell.le hg hnn hne hs hr hx
  have hex := online_exact c h1 ms hg hnn hne hE store prior hn π hp p S S' hs xs L hls hL0 τ hw hr hx
  have hlen := hex.length_eq
  have hget : ∀ i : Fin ms.length, 0 < overAll (combinations (G i)) (ρ i) (rowEvidence c.E π ms[i].2 τ L) ∧
      (S'.models[i.val]'(by omega)).hyperEv = some ⟨overAll (combinations (G i)) (ρ i) (rowEvidence c.E π ms[i].2 τ L)⟩ ∧
      (S'.models[i.val]'(by omega)).post = some (modelPosterior c.E π ms[i].2 (G i) (ρ i) τ L) := by
    intro i
    obtain ⟨-, g2, ps, g3, -, g4, -, g5, g6⟩ := List.Forall₂.get hex i.2 (by omega)
    have e := hG i
    simp only [List.get_eq_getElem] at g2 g3 g4 g5 g6
    rw [Fin.getElem_fin, g2] at e
    have e' := Except.ok.inj e
    have e2 := hρ i
    rw [← e', g3] at e2
    cases e2
    rw [← e']
    exact ⟨g4, g5, g6⟩
  have hn0 : 0 < ms.length := List.length_pos_iff.2 hne
  have hκ0 : κ ≠ 0 := by
    rw [← hκ ⟨0, hn0⟩]
    exact ((hw _ (List.getElem_mem _)).2.2.2 _ (hG ⟨0, hn0⟩)).1
  have e1 : S'.models.map OModelSt.hyperEv = List.ofFn fun i : Fin ms.length => some (⟨overAll (combinations (G i)) (ρ i) (rowEvidence c.E π ms[i].2 τ L)⟩ : LogV K) := by
    apply List.ext_getElem
    · simp [hlen]
    · intro i q1 q2
      rw [List.getElem_map, List.getElem_ofFn]
      exact (hget ⟨i, by simpa using q2⟩).2.1
  have e2 : S'.models.map OModelSt.post = List.ofFn fun i : Fin ms.length => some (modelPosterior c.E π ms[i].2 (G i) (ρ i) τ L) := by
    apply List.ext_getElem
    · simp [hlen]
    · intro i q1 q2
      rw [List.getElem_map, List.getElem_ofFn]
      exact (hget ⟨i, by simpa using q2⟩).2.2
  have hZ : ∀ i : Fin ms.length, modelEvidence c.E π ms[i].2 (G i) (ρ i) τ L = overAll (combinations (G i)) (ρ i) (rowEvidence c.E π ms[i].2 τ L) * κ := fun i => by rw [modelEvidence_eq, hκ]
  have hpos := fun i => (hget i).1
  simp only [hZ]
  rw [e1, allSome_ofFn, Option.map_some, List.map_ofFn] at a3 a5
  obtain ⟨w1, w2, -⟩ := normWeights_live hn0 (f := fun i : Fin ms.length => overAll (combinations (G i)) (ρ i) (rowEvidence c.E π ms[i].2 τ L)) fun i => (hget i).1
  have htmd : S'.tmd = some (List.ofFn fun i : Fin ms.length => overAll (combinations (G i)) (ρ i) (rowEvidence c.E π ms[i].2 τ L) /
      ∑ j : Fin ms.length, overAll (combinations (G j)) (ρ j) (rowEvidence c.E π ms[j].2 τ L)) := a3.trans w1
  refine ⟨?_, ?_, ?_⟩
  · rw [htmd]
    simp only [← Finset.sum_mul, mul_div_mul_right _ _ hκ0]
  · rw [a4, htmd, e2]
    simp only [BL.mixture, allSome_ofFn]
    refine ⟨_, rfl, fun x => ?_⟩
    rw [zipWith_ofFn, List.sum_ofFn, ← Finset.sum_mul, Finset.sum_div]
    refine Finset.sum_congr rfl fun i _ => ?_
    rw [mul_right_comm, mul_div_mul_right _ _ hκ0]
    ring
  · refine ⟨_, a5, ?_⟩
    rw [a2]
    change (List.zipWith (· * ·) (List.ofFn fun i : Fin ms.length => overAll (combinations (G i)) (ρ i) (rowEvidence c.E π ms[i].2 τ L)) _).sum * κ = _
    rw [Option.getD_some, ← List.map_id (List.zipWith _ (List.ofFn fun i : Fin ms.length => overAll (combinations (G i)) (ρ i) (rowEvidence c.E π ms[i].2 τ L)) _), ← List.sum_map_mul_right]
    congr 1
    apply List.ext_getElem
    · simp
    · intro i q1 q2
      simp only [List.getElem_map, List.getElem_zipWith, List.getElem_ofFn, id]
      ring

end Props

namespace Ex
open BL Spec

/-- two random walks with grids of the same spacing -/
def walksAB : List (String × TM ℚ) := [("a", ogrw [0, 1 / 2]), ("b", .leaf (.grw "x") ["s2"] [.array [1, 3 / 2, 2]] (some (.item .none)))]
/-- likelihoods of two data points -/
def owLik (i : Fin 2) : Idx gs2 → ℚ := if i = 0 then v2 (1 / 4) (3 / 4) else v2 (1 / 2) (1 / 4)
/-- time stamps, which do not matter -/
def owTimes (i : Fin 2) : ℚ := 7 * i.val
/-- prior probabilities given by the function values 1 and 2 -/
def owPrior : Idx gs2 → ℚ := v2 (1 / 3) (2 / 3)

end Ex

namespace Props
open BL Spec _root_.Ex

theorem walksAB_good : GoodModels walksAB := by
  apply good_of
  simp only [walksAB, List.mem_cons, List.not_mem_nil, or_false, forall_eq_or_imp, forall_eq]
  exact ⟨⟨ogrw_built _, by decide +kernel, by decide +kernel⟩, .grw (name := "s2") (value := .val (.array [1, 3 / 2, 2])) (target := some "x") (prior := .item .none) rfl trivial rfl, by decide +kernel, by decide +kernel⟩

theorem walksAB_nonneg : NonnegPriors walksAB := by
  apply nonneg_of
  simp only [walksAB, List.mem_cons, List.not_mem_nil, or_false, forall_eq_or_imp, forall_eq]
  exact ⟨by decide +kernel, by decide +kernel⟩

theorem walksAB_walks : Walks oc.E owPrior owTimes owLik walksAB := by
  intro q hq
  simp only [walksAB, List.mem_cons, List.not_mem_nil, or_false] at hq
  rcases hq with rfl | rfl
  · refine ⟨⟨⟨0, Ex.axis_x _ _⟩, rfl, rfl⟩, trivial, by decide, fun g hg => ?_⟩
    have hq : g.priors = some [1, 1] := by cases hg; decide +kernel
    refine ⟨by cases hg; decide +kernel, fun ps hps => ⟨1, ?_, by norm_num⟩, by cases hg; decide +kernel⟩
    rw [hq] at hps
    cases hps
    exact List.mem_cons_self
  · refine ⟨⟨⟨0, Ex.axis_x _ _⟩, rfl, rfl⟩, trivial, by decide, fun g hg => ?_⟩
    have hq : g.priors = some [2 / 3, 2 / 3, 2 / 3] := by cases hg; decide +kernel
    refine ⟨by cases hg; decide +kernel, fun ps hps => ⟨2 / 3, ?_, by norm_num⟩, by cases hg; decide +kernel⟩
    rw [hq] at hps
    cases hps
    exact List.mem_cons_self

/-- Concrete case: two random walks with two and three values of the standard deviation, a prior that is not flat; both theorems apply, and the probabilities of the two models are different. -/
example : ∃ (S S' : OState ℚ (ℚ × ℚ) gs2) (G : Fin 2 → HyperGrid ℚ) (ρ : Fin 2 → List ℚ), setup true (.func (v2 1 2)) walksAB none = .ok S ∧ runSteps oc S [(1 / 4, 3 / 4), (1 / 2, 1 / 4)] = .ok S' ∧
    (∀ i : Fin 2, createHyperGrid (walksAB[i]).2 [] = .ok (G i)) ∧ (∀ i, (combinations (G i)).length = if i = 0 then 2 else 3) ∧
    S'.tmd = some (List.ofFn fun i : Fin 2 => modelEvidence oc.E owPrior (walksAB[i]).2 (G i) (ρ i) owTimes owLik / ∑ j : Fin 2, modelEvidence oc.E owPrior (walksAB[j]).2 (G j) (ρ j) owTimes owLik) ∧
    S'.tmd ≠ some [1 / 2, 1 / 2] ∧ S'.models.length = 2 ∧ ∀ m ∈ S'.models, m.hpd.isSome = true := by
  have h1 : holds (orun true (.func (v2 1 2)) walksAB none [(1 / 4, 3 / 4), (1 / 2, 1 / 4)]) (fun S' => decide (S'.tmd ≠ some [1 / 2, 1 / 2])) = true := by decide +kernel
  obtain ⟨S', a1, a2⟩ := holds_iff.1 h1
  obtain ⟨S, b1, b2⟩ := orun_ok a1
  have hgr : ∀ i : Fin 2, ∃ g ps, createHyperGrid (walksAB[i]).2 [] = .ok g ∧ g.priors = some ps ∧ g.hgc.prod = 1 / 2 ∧ (combinations g).length = if i = 0 then 2 else 3 := by
    intro i
    fin_cases i
    · exact ⟨_, [1, 1], rfl, by decide +kernel, by decide +kernel, by decide +kernel⟩
    · exact ⟨_, [2 / 3, 2 / 3, 2 / 3], rfl, by decide +kernel, by decide +kernel, by decide +kernel⟩
  choose G ρ g1 g2 g3 g4 using hgr
  have hpm : PriorMass oc.E.cell (.func (v2 1 2)) owPrior := by
    have := PriorMass.func (cell := oc.E.cell) (v2 1 2 : Idx gs2 → ℚ) (by decide +kernel) (by decide +kernel) (.inl (by decide +kernel))
    convert this using 1
    decide +kernel
  have hls : segLiks oc [(1 / 4, 3 / 4), (1 / 2, 1 / 4)] = List.ofFn owLik := by decide +kernel
  have hL0 : ∀ i x, 0 ≤ owLik i x := by decide +kernel
  obtain ⟨e1, -⟩ := C120_models_partial oc le_rfl walksAB walksAB_good walksAB_nonneg (by simp [walksAB]) (regular2 (by norm_num)) true (.func (v2 1 2)) rfl owPrior hpm none S S' b1 _ owLik hls hL0 owTimes
    walksAB_walks b2 (by decide) G ρ g1 g2 (1 / 2) g3
  have e2 := C120_partial oc le_rfl walksAB walksAB_good walksAB_nonneg (by simp [walksAB]) (regular2 (by norm_num)) true (.func (v2 1 2)) rfl owPrior hpm none S S' b1 _ owLik hls hL0 owTimes
    walksAB_walks b2 (by decide)
  refine ⟨S, S', G, ρ, b1, b2, g1, g4, e1, of_decide_eq_true a2, e2.length_eq.symm, fun m hm => ?_⟩
  obtain ⟨i, hi, rfl⟩ := List.getElem_of_mem hm
  obtain ⟨-, -, ps, D, -, h, -⟩ := List.Forall₂.get e2 (by rw [e2.length_eq]; exact hi) hi
  rw [List.get_eq_getElem] at h
  rw [h]
  rfl

end Props
