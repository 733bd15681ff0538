import Verif.Props.C120
import Verif.Props.C44
import Verif.Props.C115

/-! # C121: queries for the current state of an online study of random walks -/

set_option linter.unusedSectionVars false

namespace Spec
open BL
variable {K : Type} [Field K] [LinearOrder K] {d : ℕ} {gs : Fin d → ℕ}

/-- Posterior probability of the `i`-th of several transition models which are equally probable before seeing the data. -/
def modelProbability (E : Env K gs) (π : Idx gs → K) (ms : List (String × TM K)) (G : Fin ms.length → HyperGrid K) (ρ : Fin ms.length → List K) {n : ℕ} (τ : Fin (n + 1) → K) (L : Fin (n + 1) → Idx gs → K)
    (i : Fin ms.length) : K :=
  modelEvidence E π ms[i].2 (G i) (ρ i) τ L / ∑ j : Fin ms.length, modelEvidence E π ms[j].2 (G j) (ρ j) τ L

/-- Probability of the parameter value `x` after the last data point, given all data, if it is unknown which of the transition models applies. -/
def averagePosterior (E : Env K gs) (π : Idx gs → K) (ms : List (String × TM K)) (G : Fin ms.length → HyperGrid K) (ρ : Fin ms.length → List K) {n : ℕ} (τ : Fin (n + 1) → K) (L : Fin (n + 1) → Idx gs → K)
    (x : Idx gs) : K :=
  ∑ i : Fin ms.length, modelProbability E π ms G ρ τ L i * modelPosterior E π ms[i].2 (G i) (ρ i) τ L x

end Spec

namespace Props
open BL Spec

variable {K : Type} [Field K] [LinearOrder K] [IsStrictOrderedRing K] {d : ℕ} {gs : Fin d → ℕ} {D : Type}

/-- the search for the hyper-parameter `name`, number `a` of transition model number `i` only -/
theorem online_found {c : OConf K D gs} (h1 : 1 ≤ c.seg) {ms : List (String × TM K)} (hg : GoodModels ms) (hne : ms ≠ []) {store : Bool} {prior : PriorSpec K gs} {p : Option (List K)} {S S' : OState K D gs}
    (hs : setup store prior ms p = .ok S) {xs : List D} (hr : runSteps c S xs = .ok S') (hx : c.seg ≤ xs.length) {i a : ℕ} {q : String × TM K} (hq : ms[i]? = some q) {name : String} {v : HVal K}
    (he : (entries q.2)[a]? = some (name, v)) (ho : ∀ (j : ℕ) (q' : String × TM K), j ≠ i → ms[j]? = some q' → name ∉ (entries q'.2).map (·.1))
    {g : HyperGrid K} (hgr : createHyperGrid q.2 [] = .ok g) : S'.firstStep = false ∧ findHyper S'.models name = some (i, a) ∧ ∃ m, S'.models[i]? = some m ∧ m.grid = g := by
  obtain ⟨i1, -⟩ := setup_inv h1 hs
  have hi := runSteps_inv h1 hg hne xs [] S S' i1 hr
  rw [List.nil_append] at hi
  obtain ⟨hfs, a0, -, -, -, a3, -⟩ := hi.after hx
  have hx0 : xs ≠ [] := by rintro rfl; simp at hx; omega
  have hlen3 := a3.length_eq
  have himem : i < ms.length := (List.getElem?_eq_some_iff.1 hq).1
  have hqm : q ∈ ms := List.mem_of_getElem? hq
  have hb := Built.matched (hg q hqm).1
  have hwn := hi.named hx0 q hqm
  have hent : entries q.2 ≠ [] := by intro h; rw [h] at he; simp at he
  have get3 : ∀ (j : ℕ) (q' : String × TM K), ms[j]? = some q' → ∃ m : OModelSt K gs, S'.models[j]? = some m ∧ SameShape q'.2 m.tm ∧ createHyperGrid q'.2 [] = .ok m.grid := by
    intro j q' hj
    obtain ⟨hj1, hj2⟩ := List.getElem?_eq_some_iff.1 hj
    have := (List.forall₂_iff_get.1 a3).2 j hj1 (by omega)
    refine ⟨S'.models[j], List.getElem?_eq_getElem (by omega), ?_⟩
    simp only [List.get_eq_getElem, hj2] at this
    exact ⟨this.1.shape, this.1.grid⟩
  obtain ⟨m, hm, hsh, hmg⟩ := get3 i q hq
  have hmg' : m.grid = g := by
    rw [hgr] at hmg
    exact (Except.ok.inj hmg).symm
  have hfind : findHyper S'.models name = some (i, a) := by
    refine findHyper_some hm ?_ ?_
    · rw [hyperIndex_shape hb.proper hsh]
      exact index_of_entry hb.proper hwn.2.1 he
    · intro j m' hj hm'
      have hjl : j < ms.length := by rw [hlen3]; exact (List.getElem?_eq_some_iff.1 hm').1
      obtain ⟨m2, e1, e2, -⟩ := get3 j ms[j] (List.getElem?_eq_getElem hjl)
      rw [e1] at hm'
      cases hm'
      have hp' := (Built.matched (hg ms[j] (List.getElem_mem hjl)).1).proper
      refine ⟨.postProcessing, ?_⟩
      rw [hyperIndex_shape hp' e2]
      unfold TM.hyperIndex
      rw [if_neg]
      rw [entries_names _ hp']
      exact ho j _ hj (List.getElem?_eq_getElem hjl)
  exact ⟨hfs, hfind, m, hm, hmg'⟩

/-- the distribution stored for the combinations of hyper-parameter values of one transition model, and its sums over all hyper-parameters but one -/
theorem online_stored (c : OConf K D gs) (h1 : 1 ≤ c.seg) (ms : List (String × TM K)) (hg : GoodModels ms) (hnn : NonnegPriors ms) (hne : ms ≠ []) (hE : Regular c.E) (store : Bool)
    (prior : PriorSpec K gs) (hn : prior.isArray = false) (π : Idx gs → K) (hp : PriorMass c.E.cell prior π) (p : Option (List K)) (S S' : OState K D gs) (hs : setup store prior ms p = .ok S) (xs : List D)
    {n : ℕ} (L : Fin (n + 1) → Idx gs → K) (hls : segLiks c xs = List.ofFn L) (hL0 : ∀ i x, 0 ≤ L i x) (τ : Fin (n + 1) → K) (hw : Walks c.E π τ L ms)
    (hr : runSteps c S xs = .ok S') (hx : c.seg ≤ xs.length) (i a : ℕ) (q : String × TM K) (hq : ms[i]? = some q) (name : String) (l : List K) (hl : l.Nodup)
    (he : (entries q.2)[a]? = some (name, .array l)) (ho : ∀ (j : ℕ) (q' : String × TM K), j ≠ i → ms[j]? = some q' → name ∉ (entries q'.2).map (·.1))
    (g : HyperGrid K) (ps : List K) (hgr : createHyperGrid q.2 [] = .ok g) (hps : g.priors = some ps) (hall : ∀ e ∈ entries q.2, ∃ l, e.2 = .array l) :
    S'.firstStep = false ∧ findHyper S'.models name = some (i, a) ∧ g.flat[a]? = some (.array l) ∧ lenDefined g.flat = true ∧ combinations g = g.rows ∧
    ∃ m Dk B, S'.models[i]? = some m ∧ m.grid = g ∧ m.hpd = some Dk ∧ Dk.length = g.rows.length ∧ ps.length = g.rows.length ∧
      Dk.map (· * g.hgc.prod) = (g.rows.zip ps).map (fun a => a.2 * rowEvidence c.E π q.2 τ L a.1 / overAll g.rows ps (rowEvidence c.E π q.2 τ L)) ∧ marginalHyper g Dk a = .ok B ∧
      (B.scale g.hgc.prod).flat = l.map fun t => overAll g.rows ps (fun r => if r[a]? = some t then rowEvidence c.E π q.2 τ L r else 0) / overAll g.rows ps (rowEvidence c.E π q.2 τ L) := by
  have himem : i < ms.length := (List.getElem?_eq_some_iff.1 hq).1
  have hqm : q ∈ ms := List.mem_of_getElem? hq
  have hb := Built.matched (hg q hqm).1
  have hent : entries q.2 ≠ [] := by intro h; rw [h] at he; simp at he
  obtain ⟨hfs, hfind, m, hm, hmg'⟩ := online_found h1 hg hne hs hr hx hq he ho hgr
  have hC := C120_partial c h1 ms hg hnn hne hE store prior hn π hp p S S' hs xs L hls hL0 τ hw hr hx
  -- the stored distribution
  have hex := List.Forall₂.get hC himem (by rw [← hC.length_eq]; exact himem)
  have hmi : S'.models[i]'(by rw [← hC.length_eq]; exact himem) = m := (List.getElem?_eq_some_iff.1 hm).2
  have hqi : ms[i] = q := (List.getElem?_eq_some_iff.1 hq).2
  simp only [List.get_eq_getElem, hmi, hqi, hmg'] at hex
  obtain ⟨-, -, ps', Dk, f1, f2, f3, f4, -⟩ := hex
  rw [hps] at f1
  cases f1
  have hpl : ps.length = g.rows.length := weights_len hb hent hgr hps
  have hrows0 : g.rows.length ≠ 0 := by
    intro hz
    obtain ⟨-, v2, -⟩ := (hw q hqm).2.2.2 g hgr
    obtain ⟨p', hp', -⟩ := v2 ps hps
    have := List.length_pos_of_mem hp'
    omega
  have hcomb : combinations g = g.rows := if_neg hrows0
  rw [hcomb] at f3 f4
  have hflat : g.flat[a]? = some (.array l) := by
    rw [(createHyperGrid_eq hb.proper hgr).1, entries_values q.2 hb.proper, List.getElem?_map, List.getElem?_map, he]; rfl
  have hnames : g.names.length = (entries q.2).length := by rw [(createHyperGrid_eq hb.proper hgr).2.1, List.length_map]
  have halt : a < (entries q.2).length := (List.getElem?_eq_some_iff.1 he).1
  have hld : lenDefined g.flat = true := by
    rw [(createHyperGrid_eq hb.proper hgr).1, entries_values q.2 hb.proper, lenDefined, List.all_eq_true]
    intro v hv
    obtain ⟨v', hv', rfl⟩ := List.mem_map.1 hv
    obtain ⟨e, he', rfl⟩ := List.mem_map.1 hv'
    obtain ⟨l', hl'⟩ := hall e he'
    rw [hl']
    rfl
  have hDp : Dk.length = (g.flat.map gridSteps).prod := by
    rw [steps_eq hb.proper hgr, f3, (createHyperGrid_eq hb.proper hgr).2.2.2, if_neg hent, cart_length]
  have hMH : marginalHyper g Dk a = .ok ((ND.reshape Dk (g.flat.map gridSteps)).sumAxes ((List.range g.names.length).erase a)).squeeze := by
    simp only [marginalHyper, removeE, bind, Except.bind]
    rw [if_pos (by rw [List.mem_range, hnames]; exact halt)]
    simp only
    rw [if_neg (by rw [hDp]; simp)]
  obtain ⟨n1, n2, -⟩ := marginalise_flat hb.proper hgr f3 he (by exact hl)
  refine ⟨hfs, hfind, hflat, hld, hcomb, m, Dk, _, hm, hmg', f2, f3, hpl, f4, hMH, ?_⟩
  change (marginalise g Dk ((List.range g.names.length).erase a)).1.flat = _
  rw [n1]
  refine List.map_congr_left fun t _ => ?_
  have := sum_pick_all (fun r => r[a]? = some t) (rowEvidence c.E π q.2 τ L) (overAll g.rows ps (rowEvidence c.E π q.2 τ L)) (g.rows.zip ps)
  unfold overAll at this ⊢
  rw [← this, ← zip_self_map (fun q' => q'.2 * rowEvidence c.E π q.2 τ L q'.1 / _) g.rows ps hpl, ← overAll, ← f4, probOf, List.zip_map_right, List.filter_map, List.map_map]
  rfl

/-- **C121, hyper-parameters (what is proved).** In the setting of C120, let `name` be hyper-parameter number `a` of transition model number `i` only, given by an array `l` of distinct values, and let the other hyper-parameters of this model be given by
arrays as well.  Then `getCurrentHyperParameterDistribution(name)` returns the values `l` and for every value its posterior probability, given the data so far: the sum over the combinations with this value, divided by the sum over all combinations, of prior
probability times probability of the data.  Not covered: a second call of the same query (`C44_refuted`: with a single hyper-parameter the first call changes the stored distribution), hyper-parameters given as plain numbers (the query fails). -/
theorem C121_hyper_partial (c : OConf K D gs) (h1 : 1 ≤ c.seg) (ms : List (String × TM K)) (hg : GoodModels ms) (hnn : NonnegPriors ms) (hne : ms ≠ []) (hE : Regular c.E) (store : Bool)
    (prior : PriorSpec K gs) (hn : prior.isArray = false) (π : Idx gs → K) (hp : PriorMass c.E.cell prior π) (p : Option (List K)) (S S' : OState K D gs) (hs : setup store prior ms p = .ok S) (xs : List D)
    {n : ℕ} (L : Fin (n + 1) → Idx gs → K) (hls : segLiks c xs = List.ofFn L) (hL0 : ∀ i x, 0 ≤ L i x) (τ : Fin (n + 1) → K) (hw : Walks c.E π τ L ms)
    (hr : runSteps c S xs = .ok S') (hx : c.seg ≤ xs.length) (i a : ℕ) (q : String × TM K) (hq : ms[i]? = some q) (name : String) (l : List K) (hl : l.Nodup)
    (he : (entries q.2)[a]? = some (name, .array l)) (ho : ∀ (j : ℕ) (q' : String × TM K), j ≠ i → ms[j]? = some q' → name ∉ (entries q'.2).map (·.1))
    (g : HyperGrid K) (ps : List K) (hgr : createHyperGrid q.2 [] = .ok g) (hps : g.priors = some ps) (hall : ∀ e ∈ entries q.2, ∃ l, e.2 = .array l) :
    ∃ A, (S'.getCurrentHPD name).2 = .ok (.array l, some A) ∧ A.flat = l.map fun t =>
      overAll (combinations g) ps (fun r => if r[a]? = some t then rowEvidence c.E π q.2 τ L r else 0) / overAll (combinations g) ps (rowEvidence c.E π q.2 τ L) := by
  obtain ⟨hfs, hfind, hflat, hld, hcomb, m, Dk, B, hm, hmg', f2, f3, hpl, f4, hMH, hB⟩ := online_stored c h1 ms hg hnn hne hE store prior hn π hp p S S' hs xs L hls hL0 τ hw hr hx i a q hq name l hl he ho g ps hgr hps hall
  refine ⟨B.scale g.hgc.prod, ?_, by rw [hcomb]; exact hB⟩
  unfold OState.getCurrentHPD
  rw [hfind]
  simp only [hm, Option.bind_some, hmg', hflat, Option.map_some, hfs, hld, f2, hMH, Bool.false_eq_true, if_false, Bool.true_eq_false]

/-- **C121 fails for plain numbers:** if one hyper-parameter of a transition model is given as a plain number (like `GaussianRandomWalk('s', 0.1, target='mean')`), the query for the current distribution of every hyper-parameter of this model raises a `TypeError`,
also for the others which are given by arrays; whatever the data and the other models are. -/
theorem C121_number_refuted (c : OConf K D gs) (h1 : 1 ≤ c.seg) (ms : List (String × TM K)) (hg : GoodModels ms) (hne : ms ≠ []) (store : Bool) (prior : PriorSpec K gs) (p : Option (List K)) (S S' : OState K D gs)
    (hs : setup store prior ms p = .ok S) (xs : List D) (hr : runSteps c S xs = .ok S') (hx : c.seg ≤ xs.length) (i a : ℕ) (q : String × TM K) (hq : ms[i]? = some q) (name : String) (v : HVal K)
    (he : (entries q.2)[a]? = some (name, v)) (ho : ∀ (j : ℕ) (q' : String × TM K), j ≠ i → ms[j]? = some q' → name ∉ (entries q'.2).map (·.1))
    (g : HyperGrid K) (hgr : createHyperGrid q.2 [] = .ok g) (name' : String) (x : K) (hnum : (name', .scalar x) ∈ entries q.2) :
    (S'.getCurrentHPD name).2 = .error .typeError := by
  obtain ⟨hfs, hfind, m, hm, rfl⟩ := online_found h1 hg hne hs hr hx hq he ho hgr
  have hb := Built.matched (hg q (List.mem_of_getElem? hq)).1
  have hfl : m.grid.flat = ((entries q.2).map (·.2)).map (expandAll []) := by
    rw [(createHyperGrid_eq hb.proper hgr).1, entries_values q.2 hb.proper]
  have hflat : m.grid.flat[a]? = some (expandAll [] v) := by
    rw [hfl, List.getElem?_map, List.getElem?_map, he]; rfl
  have hld : lenDefined m.grid.flat = false := by
    rw [Bool.eq_false_iff]
    intro h
    rw [lenDefined, List.all_eq_true] at h
    have := h (.scalar x) (by rw [hfl]; exact List.mem_map.2 ⟨.scalar x, List.mem_map.2 ⟨_, hnum, rfl⟩, rfl⟩)
    cases this
  unfold OState.getCurrentHPD
  rw [hfind]
  simp only [hm, Option.bind_some, hflat, Option.map_some, hfs, hld, Bool.false_eq_true, if_false, if_true]

/-- **C121, transition models and parameters (what is proved).** In the setting of C120 with hyper-grids of the same cell volume: `getCurrentTransitionModelDistribution()` returns the names and the posterior probabilities of all transition models (equally
probable before seeing the data), `getCurrentTransitionModelProbability(name)` the probability of the model with this name; `getCurrentParameterDistribution(name, density=False)` returns the grid values of a parameter and their posterior probabilities
given the data so far, all transition models and hyper-parameter values considered, and with `density=True` these divided by the distance of the grid values; `getCurrentParameterMeanValue(name)` returns the posterior mean. -/
theorem C121_partial (c : OConf K D gs) (h1 : 1 ≤ c.seg) (ms : List (String × TM K)) (hg : GoodModels ms) (hnn : NonnegPriors ms) (hne : ms ≠ []) (hE : Regular c.E) (store : Bool)
    (prior : PriorSpec K gs) (hn : prior.isArray = false) (π : Idx gs → K) (hp : PriorMass c.E.cell prior π) (p : Option (List K)) (S S' : OState K D gs) (hs : setup store prior ms p = .ok S) (xs : List D)
    {n : ℕ} (L : Fin (n + 1) → Idx gs → K) (hls : segLiks c xs = List.ofFn L) (hL0 : ∀ i x, 0 ≤ L i x) (τ : Fin (n + 1) → K) (hw : Walks c.E π τ L ms)
    (hr : runSteps c S xs = .ok S') (hx : c.seg ≤ xs.length) (G : Fin ms.length → HyperGrid K) (ρ : Fin ms.length → List K) (hG : ∀ i : Fin ms.length, createHyperGrid ms[i].2 [] = .ok (G i))
    (hρ : ∀ i, (G i).priors = some (ρ i)) (κ : K) (hκ : ∀ i, (G i).hgc.prod = κ) :
    S'.getCurrentTMD false = (ms.map (·.1), some (List.ofFn (modelProbability c.E π ms G ρ τ L))) ∧
    ((ms.map (·.1)).Nodup → ∀ i : Fin ms.length, S'.getCurrentTMP ms[i].1 false = .ok (some (modelProbability c.E π ms G ρ τ L i))) ∧
    ∀ name a, paramIndex c.E.names name = some a →
      S'.getCurrentParameterDistribution c name false = .ok (List.ofFn (c.grid a), some (List.ofFn fun v => ∑ x : Idx gs with x a = v, averagePosterior c.E π ms G ρ τ L x)) ∧
      S'.getCurrentParameterDistribution c name true = .ok (List.ofFn (c.grid a), some (List.ofFn fun v => (∑ x : Idx gs with x a = v, averagePosterior c.E π ms G ρ τ L x) / c.E.lattice a)) ∧
      S'.getCurrentMean c name = .ok (some (∑ x, averagePosterior c.E π ms G ρ τ L x * c.grid a (x a))) := by
  obtain ⟨e1, ⟨Q, e2, e3⟩, -⟩ := C120_models_partial c h1 ms hg hnn hne hE store prior hn π hp p S S' hs xs L hls hL0 τ hw hr hx G ρ hG hρ κ hκ
  have hnm : S'.models.map OModelSt.name = ms.map (·.1) := by
    have h := C120_partial c h1 ms hg hnn hne hE store prior hn π hp p S S' hs xs L hls hL0 τ hw hr hx
    apply List.ext_getElem
    · simp [h.length_eq]
    · intro k q1 q2
      rw [List.getElem_map, List.getElem_map]
      exact (List.Forall₂.get h (by simpa using q2) (by simpa using q1)).1
  obtain ⟨i1, -⟩ := setup_inv h1 hs
  have hi := runSteps_inv h1 hg hne xs [] S S' i1 hr
  rw [List.nil_append] at hi
  obtain ⟨hfs, -⟩ := hi.after hx
  have hQ : Q = averagePosterior c.E π ms G ρ τ L := by
    funext x
    rw [e3, averagePosterior, Finset.sum_div]
    refine Finset.sum_congr rfl fun i _ => ?_
    rw [modelProbability]
    ring
  have htmd : S'.tmd = some (List.ofFn (modelProbability c.E π ms G ρ τ L)) := e1
  refine ⟨?_, ?_, ?_⟩
  · simp only [OState.getCurrentTMD, hnm, htmd]
    rfl
  · intro hnd i
    have hix : (ms.map (·.1)).idxOf ms[i].1 = i.val := by
      have := List.Nodup.idxOf_getElem hnd i.val (by simp)
      simpa using this
    have hmem : ms[i].1 ∈ ms.map (·.1) := List.mem_map_of_mem (List.getElem_mem _)
    simp only [OState.getCurrentTMP, nameIndex, hnm, if_pos hmem, hix, bind, Except.bind, hfs, htmd]
    simp
  · intro name a ha
    have hm : marginal a Q = List.ofFn fun v => ∑ x : Idx gs with x a = v, averagePosterior c.E π ms G ρ τ L x := by
      rw [BL.marginal, ← List.ofFn_eq_map, hQ]
      congr 1
      funext v
      rw [Finset.sum_filter]
    refine ⟨?_, ?_, ?_⟩
    · simp only [OState.getCurrentParameterDistribution, ha, e2, Option.bind_some, hm, toDensity]
      rfl
    · simp only [OState.getCurrentParameterDistribution, ha, e2, Option.bind_some, hm, toDensity, if_neg (hE.lattice_pos a).ne', if_true, List.map_ofFn]
      rfl
    · simp only [OState.getCurrentMean, ha, e2, Option.map_some, hQ]
      rfl

end Props

namespace Props
open BL Spec _root_.Ex

/-- Concrete case: two random walks with two and three values of the standard deviation and a prior that is not flat; the queries for the second model, for the standard deviation of the second walk and for the parameter are answered. -/
example : ∃ (S S' : OState ℚ (ℚ × ℚ) gs2) (G : Fin 2 → HyperGrid ℚ) (ρ : Fin 2 → List ℚ), setup true (.func (v2 1 2)) walksAB none = .ok S ∧ runSteps oc S [(1 / 4, 3 / 4), (1 / 2, 1 / 4)] = .ok S' ∧
    (∀ i : Fin 2, createHyperGrid (walksAB[i]).2 [] = .ok (G i)) ∧ S'.getCurrentTMP "b" false = .ok (some (modelProbability oc.E owPrior walksAB G ρ owTimes owLik (1 : Fin 2))) ∧
    (∃ A, (S'.getCurrentHPD "s2").2 = .ok (.array [1, 3 / 2, 2], some A) ∧ A.flat.length = 3) ∧
    S'.getCurrentMean oc "x" = .ok (some (∑ x, averagePosterior oc.E owPrior walksAB G ρ owTimes owLik x * oc.grid 0 (x 0))) := by
  have h1 : holds (orun true (.func (v2 1 2)) walksAB none [(1 / 4, 3 / 4), (1 / 2, 1 / 4)]) (fun _ => true) = true := by decide +kernel
  obtain ⟨S', a1, -⟩ := holds_iff.1 h1
  obtain ⟨S, b1, b2⟩ := orun_ok a1
  have hgr : ∀ i : Fin 2, ∃ g ps, createHyperGrid (walksAB[i]).2 [] = .ok g ∧ g.priors = some ps ∧ g.hgc.prod = 1 / 2 := by
    intro i
    fin_cases i
    · exact ⟨_, [1, 1], rfl, by decide +kernel, by decide +kernel⟩
    · exact ⟨_, [2 / 3, 2 / 3, 2 / 3], rfl, by decide +kernel, by decide +kernel⟩
  choose G ρ g1 g2 g3 using hgr
  have hpm : PriorMass oc.E.cell (.func (v2 1 2)) owPrior := by
    have := PriorMass.func (cell := oc.E.cell) (v2 1 2 : Idx gs2 → ℚ) (by decide +kernel) (by decide +kernel) (.inl (by decide +kernel))
    convert this using 1
    decide +kernel
  have hls : segLiks oc [(1 / 4, 3 / 4), (1 / 2, 1 / 4)] = List.ofFn owLik := by decide +kernel
  have hL0 : ∀ i x, 0 ≤ owLik i x := by decide +kernel
  obtain ⟨-, e1, e2⟩ := C121_partial oc le_rfl walksAB walksAB_good walksAB_nonneg (by simp [walksAB]) (regular2 (by norm_num)) true (.func (v2 1 2)) rfl owPrior hpm none S S' b1 _ owLik hls hL0 owTimes
    walksAB_walks b2 (by decide) G ρ g1 g2 (1 / 2) g3
  obtain ⟨A, e3, e4⟩ := C121_hyper_partial oc le_rfl walksAB walksAB_good walksAB_nonneg (by simp [walksAB]) (regular2 (by norm_num)) true (.func (v2 1 2)) rfl owPrior hpm none S S' b1 _ owLik hls hL0 owTimes
    walksAB_walks b2 (by decide) 1 0 _ rfl "s2" [1, 3 / 2, 2] (by decide +kernel) rfl (by
      intro j q' hj hq'
      match j, hj with
      | 0, _ => cases hq'; decide
      | j + 2, _ => simp [walksAB] at hq') (G 1) (ρ 1) (g1 1) (g2 1) (by
      intro e he
      have : e = ("s2", .array [1, 3 / 2, 2]) := by simpa [entries] using he
      rw [this]
      exact ⟨_, rfl⟩)
  exact ⟨S, S', G, ρ, b1, b2, g1, e1 (by decide) (1 : Fin 2), ⟨A, e3, by rw [e4]; rfl⟩, (e2 "x" 0 (by decide +kernel)).2.2⟩

/-- one random walk with a plain number for the standard deviation -/
def walkNum : List (String × TM ℚ) := [("a", .leaf (.grw "x") ["s"] [.scalar (1 / 2)] (some (.item .none)))]

example : ∃ S S' : OState ℚ (ℚ × ℚ) gs2, setup true .none walkNum none = .ok S ∧ runSteps oc S [(1 / 4, 3 / 4), (1 / 2, 1 / 4)] = .ok S' ∧ (S'.getCurrentHPD "s").2 = .error .typeError := by
  have h1 : holds (orun true .none walkNum none [(1 / 4, 3 / 4), (1 / 2, 1 / 4)]) (fun _ => true) = true := by decide +kernel
  obtain ⟨S', a1, -⟩ := holds_iff.1 h1
  obtain ⟨S, b1, b2⟩ := orun_ok a1
  have hg : GoodModels walkNum := by
    apply good_of
    simp only [walkNum, List.mem_cons, List.not_mem_nil, or_false, forall_eq]
    exact ⟨.grw (name := "s") (value := .val (.scalar (1 / 2))) (target := some "x") (prior := .item .none) rfl trivial rfl, by decide +kernel, by decide +kernel⟩
  exact ⟨S, S', b1, b2, C121_number_refuted oc le_rfl walkNum hg (by simp [walkNum]) true .none none S S' b1 _ b2 (by decide) 0 0 _ rfl "s" _ rfl (by
    intro j q' hj hq'
    match j, hj with
    | j + 1, _ => simp [walkNum] at hq') _ rfl "s" (1 / 2) (by simp [entries])⟩

end Props
