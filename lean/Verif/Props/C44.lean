import Verif.Lemmas.OnlineQuery

/-! # C44: queries of online studies for one time step and for the whole history -/

set_option linter.unusedSectionVars false

namespace BL
open Spec
variable {K D : Type} [Field K] [LinearOrder K] [IsStrictOrderedRing K] {d : ℕ} {gs : Fin d → ℕ}

theorem HInv.entries_eq {c : OConf K D gs} {store : Bool} {xs : List D} {S : OState K D gs} (hi : HInv c store xs S) (hx : xs ≠ []) :
    (S.fts.map PySeq.entries).getD [] = (stamps xs.length).drop (c.seg - 1) := by
  obtain ⟨-, f, f1, f2⟩ := hi.times hx
  rw [f1, Option.map_some, Option.getD_some, f2]

/-- time stamp of the `k`-th analysed data segment -/
theorem HInv.index {c : OConf K D gs} {store : Bool} {xs : List D} {S : OState K D gs} (hi : HInv c store xs S) (h1 : 1 ≤ c.seg) {k : ℕ}
    (hk : k < xs.length + 1 - c.seg) : indexOf? ((S.fts.map PySeq.entries).getD []) ((k + (c.seg - 1) : ℕ) : K) = some k := by
  rw [hi.entries_eq (by rintro rfl; simp at hk; omega)]
  exact stamp_index _ _ _ (by omega)

theorem HInv.distribution {c : OConf K D gs} {xs : List D} {S : OState K D gs} (hi : HInv c true xs S) (h1 : 1 ≤ c.seg) {name : String} {a : Fin d}
    (ha : paramIndex c.E.names name = some a) (density : Bool) {k : ℕ} (hk : k < xs.length + 1 - c.seg) {p : Arr K gs} (hp : S.posts.entries[k]? = some p) :
    (S.getParameterDistribution c (.at ((k + (c.seg - 1) : ℕ) : K)) name density).2 =
      .ok (List.ofFn (c.grid a), p.bind fun p => toDensity density (c.E.lattice a) (marginal a p)) := by
  have : (S.fitted c).distribution (.at ((k + (c.seg - 1) : ℕ) : K)) name density =
      .ok (List.ofFn (c.grid a), p.bind fun p => toDensity density (c.E.lattice a) (marginal a p)) := by
    unfold Fitted.distribution Fitted.pick
    simp only [OState.fitted, Bool.true_eq_false, ↓reduceIte]
    rw [hi.index h1 hk]
    simp only [hp, ha]
  unfold OState.getParameterDistribution
  rw [if_neg (by rw [hi.store_eq]; simp), this]

end BL

namespace Props
open BL Spec
variable {K D : Type} [Field K] [LinearOrder K] [IsStrictOrderedRing K] {d : ℕ} {gs : Fin d → ℕ}

/-- **C44 (parameters).** After every history of calls in which the steps succeeded, for every name of a parameter, density flag and every analysed data segment
`k` (whose time stamp is the index of its last data point): the distribution for this time exists, and if there are at least two time
stamps it is entry `k` of the distributions for all times. -/
theorem C44_parameters_partial (c : OConf K D gs) (h1 : 1 ≤ c.seg) (prior : PriorSpec K gs) (qs : List (OCall K D)) (S : OState K D gs) (out : List (Option PyErr))
    (hr : execAll c (OState.new true prior) qs = (S, out)) (hs : StepsSucceed qs out) (name : String) (hn : ∃ a, c.E.names a = name) (density : Bool)
    (k : ℕ) (hk : k < (movingWindow (fedData qs) c.seg).length) :
    ∃ x p, (S.getParameterDistribution c (.at ((k + (c.seg - 1) : ℕ) : K)) name density).2 = .ok (x, p) ∧
      (2 ≤ (movingWindow (fedData qs) c.seg).length → ∃ ps, (S.getParameterDistributions c name density).2 = .ok (x, ps) ∧
        ps.length = (movingWindow (fedData qs) c.seg).length ∧ ps[k]? = some p) := by
  have hi := execAll_hist h1 qs _ [] (new_hist h1 true prior) (by rw [hr]; exact hs)
  rw [List.nil_append, hr] at hi
  simp only at hi
  rw [movingWindow_len] at hk ⊢
  obtain ⟨a, ha, -⟩ := paramIndex_some hn
  have hpl : S.posts.entries.length = (fedData qs).length + 1 - c.seg := by simpa using hi.posts
  obtain ⟨p, hp⟩ : ∃ p, S.posts.entries[k]? = some p := ⟨_, List.getElem?_eq_getElem (by omega)⟩
  refine ⟨_, _, hi.distribution h1 ha density hk hp, ?_⟩
  intro h2
  have : (S.fitted c).distributions name density = .ok (List.ofFn (c.grid a), S.posts.entries.map fun p => p.bind fun p =>
      toDensity density (c.E.lattice a) (marginal a p)) := by
    unfold Fitted.distributions
    have hts : ¬ (S.fitted c).ts.length < 2 := by
      change ¬ ((S.fts.map PySeq.entries).getD []).length < 2
      rw [hi.entries_eq (by intro h; rw [h] at hk; simp at hk; omega), List.length_drop, stamps_length]
      omega
    rw [if_neg (by simp [OState.fitted]), if_neg hts]
    simp only [OState.fitted, ha]
  unfold OState.getParameterDistributions
  rw [if_neg (by rw [hi.store_eq]; simp), this]
  exact ⟨_, rfl, by rw [List.length_map, hpl], by rw [List.getElem?_map, hp]; rfl⟩

/-- **C44 (alias).** `getPD` returns the result of `getParameterDistribution` if `density` has its default value. -/
theorem C44_alias_partial (c : OConf K D gs) (S : OState K D gs) (t : TimeArg K) (name : String) :
    S.getPD c t name true = S.getParameterDistribution c t name true := rfl

/-- **C44 (current distributions).** After every such history and a further step which completes a data segment, the queries for the current state
return the last entries of the histories. -/
theorem C44_current_partial (c : OConf K D gs) (h1 : 1 ≤ c.seg) (prior : PriorSpec K gs) (qs : List (OCall K D)) (S S' : OState K D gs) (out : List (Option PyErr))
    (hr : execAll c (OState.new true prior) qs = (S, out)) (hs : StepsSucceed qs out) (x : D) (hx : S.step (some c) x = (S', none))
    (hseg : c.seg ≤ (fedData qs).length + 1) (name : String) (hn : ∃ a, c.E.names a = name) :
    (∀ density, S'.getCurrentParameterDistribution c name density =
      (S'.getParameterDistribution c (.at ((fedData qs).length : K)) name density).2) ∧
    (∀ loc, ∃ ds, S'.getTMDs loc = .ok ((S'.getCurrentTMD loc).1, ds) ∧ ds.getLast? = some (S'.getCurrentTMD loc).2) ∧
    (∃ m ms, S'.getCurrentMean c name = .ok m ∧ S'.getMeans c name = .ok ms ∧ ms.getLast? = some m) := by
  have hi0 := execAll_hist h1 qs _ [] (new_hist h1 true prior) (by rw [hr]; exact hs)
  rw [List.nil_append, hr] at hi0
  have hi := (step_hist h1 hi0 hx).2
  obtain ⟨e1, e2, -, e4, e5⟩ := C43_append c h1 true prior qs S S' out hr hs x hx
  rw [if_pos (by simpa using hseg)] at e1 e2 e4 e5
  have hst : ¬ S'.store = false := by rw [hi.store_eq]; simp
  obtain ⟨a, ha, -⟩ := paramIndex_some hn
  refine ⟨?_, ?_, ?_⟩
  · intro density
    have hpl := hi.posts
    rw [e1, List.length_append] at hpl
    simp only [List.length_singleton, ↓reduceIte, List.length_append] at hpl
    have hk : S.posts.entries.length < (fedData qs ++ [x]).length + 1 - c.seg := by rw [List.length_append, List.length_singleton]; omega
    have := hi.distribution h1 ha density hk (p := S'.marg) (by rw [e1]; simp)
    rw [show S.posts.entries.length + (c.seg - 1) = (fedData qs).length by omega] at this
    rw [this]
    unfold OState.getCurrentParameterDistribution
    rw [ha]
  · intro loc
    unfold OState.getTMDs OState.getCurrentTMD
    rw [if_neg hst]
    refine ⟨_, rfl, ?_⟩
    cases loc
    · simp [e4]
    · simp [e5]
  · unfold OState.getCurrentMean OState.getMeans
    rw [if_neg hst, ha]
    refine ⟨_, _, rfl, if_neg (by rw [e2]; simp), ?_⟩
    rw [e2]
    cases S'.marg <;> simp

/-- **C44 (models).** The probabilities of one transition model are the entries of the distributions of the transition models at the position of its name. -/
theorem C44_models_partial (S : OState K D gs) (name : String) (loc : Bool) (names : List String) (ds : List (Option (List K))) (ps : List (Option K))
    (h1 : S.getTMDs loc = .ok (names, ds)) (h2 : S.getTMPs name loc = .ok ps) :
    ∃ i : ℕ, names[i]? = some name ∧ List.Forall₂ (fun d p => match d with
      | none => p = none
      | some l => ∃ y, p = some y ∧ l[i]? = some y) ds ps := by
  unfold OState.getTMDs at h1
  unfold OState.getTMPs at h2
  by_cases hs : S.store = false
  · rw [if_pos hs] at h1; cases h1
  · rw [if_neg hs] at h1 h2
    cases h1
    unfold nameIndex at h2
    by_cases hn : name ∈ S.models.map OModelSt.name
    · rw [if_pos hn] at h2
      simp only [bind, Except.bind] at h2
      generalize (if loc = true then S.ltmds else S.tmds) = L at h2 ⊢
      split at h2
      · cases h2
      · refine ⟨_, List.getElem?_idxOf hn, ?_⟩
        refine (mapE_ok.1 h2).imp ?_
        intro r p hp
        cases r with
        | none => simp only at hp ⊢; cases hp; rfl
        | some l =>
            simp only at hp ⊢
            split at hp
            · cases hp
            · rename_i y hy
              cases hp
              exact ⟨y, rfl, hy⟩
    · rw [if_neg hn] at h2
      cases h2

/-- **C44 (current probability of a model).** In every state the current probability of a model, global or local, is the entry of the current distribution of the models at the first
position of its name; and the probability can be queried after the first analysed segment for every name of a model. -/
theorem C44_current_model_partial (S : OState K D gs) (name : String) (loc : Bool) (hf : S.firstStep = false) :
    (∀ r, S.getCurrentTMP name loc = .ok r → ∃ i : ℕ, (S.getCurrentTMD loc).1[i]? = some name ∧ (∀ j < i, (S.getCurrentTMD loc).1[j]? ≠ some name) ∧
      match (S.getCurrentTMD loc).2 with
      | none => r = none
      | some l => ∃ y, r = some y ∧ l[i]? = some y) ∧
    (name ∈ (S.getCurrentTMD loc).1 → (∀ l, (S.getCurrentTMD loc).2 = some l → l.length = (S.getCurrentTMD loc).1.length) → ∃ r, S.getCurrentTMP name loc = .ok r) := by
  simp only [OState.getCurrentTMD, OState.getCurrentTMP, nameIndex]
  by_cases hn : name ∈ S.models.map OModelSt.name
  · have hlt := List.idxOf_lt_length_of_mem hn
    simp only [hn, ↓reduceIte, bind, Except.bind, hf, Bool.false_eq_true]
    refine ⟨?_, ?_⟩
    · intro r h
      refine ⟨_, by rw [List.getElem?_eq_getElem hlt, List.getElem_idxOf hlt], ?_, ?_⟩
      · intro j hj h'
        have h2 := (List.getElem?_eq_some_iff.1 h').2
        have := List.not_of_lt_findIdx (p := fun x => x == name) (xs := S.models.map OModelSt.name) hj
        simp [h2] at this
      · generalize (if loc = true then S.ltmd else S.tmd) = L at h ⊢
        cases L with
        | none => cases h; rfl
        | some l =>
            simp only at h ⊢
            split at h
            · cases h
            · rename_i y hy
              cases h
              exact ⟨y, rfl, hy⟩
    · intro _ hl
      generalize (if loc = true then S.ltmd else S.tmd) = L at hl ⊢
      cases L with
      | none => exact ⟨none, rfl⟩
      | some l =>
          simp only
          rw [List.getElem?_eq_getElem (by rw [hl l rfl]; exact hlt)]
          exact ⟨_, rfl⟩
  · simp only [hn, ↓reduceIte, bind, Except.bind]
    exact ⟨fun r h => (by cases h), fun h => (by cases h)⟩

/-- **C44 (mean values of hyper-parameters).** After every history of calls with successful steps: if the mean values for all times can be computed, the
mean value for every analysed data segment is the entry of this list. -/
theorem C44_hyper_means_partial (c : OConf K D gs) (h1 : 1 ≤ c.seg) (prior : PriorSpec K gs) (qs : List (OCall K D)) (S : OState K D gs) (out : List (Option PyErr))
    (hr : execAll c (OState.new true prior) qs = (S, out)) (hs : StepsSucceed qs out) (name : String) (l : List (Option K)) (hl : S.getHyperMeans name = .ok l) :
    l.length = (movingWindow (fedData qs) c.seg).length ∧
      ∀ k < l.length, ∃ y, S.getHyperMean ((k + (c.seg - 1) : ℕ) : K) name = .ok y ∧ l[k]? = some y := by
  have hi := execAll_hist h1 qs _ [] (new_hist h1 true prior) (by rw [hr]; exact hs)
  rw [List.nil_append, hr] at hi
  simp only at hi
  have hhl : S.hpds.length = (fedData qs).length + 1 - c.seg := by simpa using hi.hpds
  have hst : ¬ S.store = false := by rw [hi.store_eq]; simp
  unfold OState.getHyperMeans at hl
  rw [if_neg hst] at hl
  cases hf : findHyper S.models name with
  | none => simp [hf] at hl
  | some q =>
      obtain ⟨i, a⟩ := q
      simp only [hf] at hl
      cases hm : S.models[i]? with
      | none => simp [hm] at hl
      | some m =>
          simp only [hm] at hl
          by_cases h0 : S.hpds.length = 0
          · rw [if_pos h0] at hl; cases hl
          · rw [if_neg h0] at hl
            have hF := mapE_ok.1 hl
            have hlen : l.length = S.hpds.length := by rw [← hF.length_eq, List.length_range]
            refine ⟨by rw [hlen, hhl, movingWindow_len], ?_⟩
            intro k hk
            have hk' : k < (List.range S.hpds.length).length := by rw [List.length_range]; omega
            have := (List.forall₂_iff_get.1 hF).2 k hk' hk
            refine ⟨l[k], ?_, List.getElem?_eq_getElem hk⟩
            unfold OState.getHyperMean
            rw [if_neg hst, hf]
            simp only
            rw [hi.index h1 (by omega)]
            simp only [hm]
            simpa using this

/-- **C44 (hyper-parameters).** Every set of transition models, number of data points, hyper-parameter `name` (number `a` of model `i`, occurring
in no other model, given by an array `l` of distinct values), and analysed data segment `k`: if the distribution for this time is finite then, multiplied with the
volume of a grid cell, it gives for each value the total probability of the combinations with this value, sums to one, and
is (with sorted values) entry `k` of the distributions for all times. -/
theorem C44_hyper_partial (c : OConf K D gs) (h1 : 1 ≤ c.seg) (hcell : 0 ≤ c.E.cell) (ms : List (String × TM K)) (hg : GoodModels ms) (hnn : NonnegPriors ms)
    (hne : ms ≠ []) (prior : PriorSpec K gs) (p : Option (List K)) (S S' : OState K D gs) (hs : setup true prior ms p = .ok S) (xs : List D)
    (hr : runSteps c S xs = .ok S') (i a : ℕ) (q : String × TM K) (hq : ms[i]? = some q) (name : String) (l : List K) (hl : l.Nodup)
    (he : (entries q.2)[a]? = some (name, .array l)) (ho : ∀ (j : ℕ) (q' : String × TM K), j ≠ i → ms[j]? = some q' → name ∉ (entries q'.2).map (·.1))
    (g : HyperGrid K) (hgr : createHyperGrid q.2 [] = .ok g)
    (k : ℕ) (hk : k < (movingWindow xs c.seg).length) (x : HVal K) (A : ND K)
    (hA : S'.getHPD ((k + (c.seg - 1) : ℕ) : K) name = .ok (x, some A)) :
    x = .array l ∧ ∃ Dk : List K, Dk.length = g.rows.length ∧ A.flat.map (· * g.hgc.prod) = l.map (probOf g.rows Dk g.hgc.prod a) ∧
      (∀ y ∈ A.flat.map (· * g.hgc.prod), 0 ≤ y) ∧ (A.flat.map (· * g.hgc.prod)).sum = 1 ∧
      ∃ vals rows, S'.getHPDs name = .ok (vals, rows) ∧ vals.Pairwise (· < ·) ∧ (∀ y, y ∈ vals ↔ y ∈ l) ∧ rows.length = (movingWindow xs c.seg).length ∧
        rows[k]? = some (some (vals.map (probOf g.rows Dk g.hgc.prod a))) ∧ (vals.map (probOf g.rows Dk g.hgc.prod a)).sum = 1 := by
  have hh := runSteps_hist h1 (setup_hist h1 hs) xs S' hr
  rw [movingWindow_len] at hk
  have hseg : c.seg ≤ xs.length := by omega
  have hx0 : xs ≠ [] := by rintro rfl; simp at hseg; omega
  obtain ⟨i1, -⟩ := setup_inv h1 hs
  have hi := runSteps_inv h1 hg hne xs [] S S' i1 hr
  rw [List.nil_append] at hi
  obtain ⟨-, a0, -, -, -, a3, -⟩ := hi.after hseg
  have hst : ¬ S'.store = false := by rw [hh.store_eq]; simp
  have hhl : S'.hpds.length = xs.length + 1 - c.seg := by simpa using hh.hpds
  have hlen3 := a3.length_eq
  have himem : i < ms.length := (List.getElem?_eq_some_iff.1 hq).1
  have hqm : q ∈ ms := List.mem_of_getElem? hq
  have hb := Built.matched (hg q hqm).1
  have hw := hi.named hx0 q hqm
  have hent : entries q.2 ≠ [] := by intro h; rw [h] at he; simp at he
  -- the model
  have get3 : ∀ (j : ℕ) (q' : String × TM K), ms[j]? = some q' → ∃ m : OModelSt K gs, S'.models[j]? = some m ∧ SameShape q'.2 m.tm ∧ createHyperGrid q'.2 [] = .ok m.grid := by
    intro j q' hj
    obtain ⟨hj1, hj2⟩ := List.getElem?_eq_some_iff.1 hj
    have := (List.forall₂_iff_get.1 a3).2 j hj1 (by omega)
    refine ⟨S'.models[j], List.getElem?_eq_getElem (by omega), ?_⟩
    simp only [List.get_eq_getElem, hj2] at this
    exact ⟨this.1.shape, this.1.grid⟩
  obtain ⟨m, hm, hsh, hmg⟩ := get3 i q hq
  have hmg' : m.grid = g := by
    rw [hgr] at hmg
    exact (Except.ok.inj hmg).symm
  have hfind : findHyper S'.models name = some (i, a) := by
    refine findHyper_some hm ?_ ?_
    · rw [hyperIndex_shape hb.proper hsh]
      exact index_of_entry hb.proper hw.2.1 he
    · intro j m' hj hm'
      have hjl : j < ms.length := by rw [hlen3]; exact (List.getElem?_eq_some_iff.1 hm').1
      obtain ⟨m2, e1, e2, -⟩ := get3 j ms[j] (List.getElem?_eq_getElem hjl)
      rw [e1] at hm'
      cases hm'
      have hp' := (Built.matched (hg ms[j] (List.getElem_mem hjl)).1).proper
      refine ⟨.postProcessing, ?_⟩
      rw [hyperIndex_shape hp' e2]
      unfold TM.hyperIndex
      rw [if_neg]
      rw [entries_names _ hp']
      exact ho j _ hj (List.getElem?_eq_getElem hjl)
  -- the history
  have hent3 : ∀ k' < S'.hpds.length, ∃ r, hpdAt S' k' i = .ok r ∧ ∀ Dk, r = some Dk → Dk.length = g.rows.length ∧ (Dk.map (· * g.hgc.prod)).sum = 1 ∧
      ∀ y ∈ Dk.map (· * g.hgc.prod), 0 ≤ y := by
    intro k' hk'
    obtain ⟨Ms, m1, m2⟩ := hpds_inv h1 hcell hg hnn hne hs xs S' hr S'.hpds[k'] (List.getElem_mem hk')
    have hil : i < Ms.length := by rw [← m2.length_eq]; exact himem
    refine ⟨(Ms[i]).hpd, ?_, ?_⟩
    · unfold hpdAt
      rw [List.getElem?_eq_getElem hk']
      simp only [m1, List.getElem?_map, List.getElem?_eq_getElem hil, Option.map_some]
    · intro Dk hDk
      have hf := (List.forall₂_iff_get.1 m2).2 i himem hil
      have e : ms[i] = q := (List.getElem?_eq_some_iff.1 hq).2
      simp only [List.get_eq_getElem, e] at hf
      have hgg : (Ms[i]).grid = g := by
        have := hf.1
        rw [hgr] at this
        exact (Except.ok.inj this).symm
      obtain ⟨f1, -, f3, f4⟩ := BL.Finished.hpd_facts hf.2 hDk
      have fl := BL.Finished.len hb hf.1 hf.2 hent
      rw [hgg] at f3 f4 fl
      exact ⟨by rw [f1, fl], f3, f4⟩
  obtain ⟨r, hr1, hr2⟩ := hent3 k (by omega)
  have hflat : g.flat[a]? = some (.array l) := by
    rw [(createHyperGrid_eq hb.proper hgr).1, entries_values q.2 hb.proper, List.getElem?_map, List.getElem?_map, he]; rfl
  have hA' := hA
  unfold OState.getHPD at hA'
  rw [if_neg hst, hfind] at hA'
  simp only at hA'
  rw [hh.index h1 (by omega)] at hA'
  simp only [hm, Option.bind_some, hmg', hflat, Option.map_some, hr1] at hA'
  split at hA'
  · cases hA'
  cases r with
  | none => cases hA'
  | some Dk =>
      obtain ⟨d1, d2, d3⟩ := hr2 Dk rfl
      have hnames : g.names.length = (entries q.2).length := by rw [(createHyperGrid_eq hb.proper hgr).2.1, List.length_map]
      have halt : a < (entries q.2).length := (List.getElem?_eq_some_iff.1 he).1
      simp only [marginalHyper, removeE, bind, Except.bind] at hA'
      rw [if_pos (by rw [List.mem_range, hnames]; exact halt)] at hA'
      simp only at hA'
      split at hA'
      · cases hA'
      simp only [Except.map, Except.ok.injEq, Prod.mk.injEq, Option.some.injEq] at hA'
      obtain ⟨hx', hA2⟩ := hA'
      obtain ⟨n1, n2, -⟩ := marginalise_flat hb.proper hgr d1 he (by exact hl)
      have hAf : A.flat.map (· * g.hgc.prod) = (marginalise g Dk ((List.range g.names.length).erase a)).1.flat := by
        rw [← hA2]
        unfold marginalise
        rw [scale_flat]
      have hrows : g.rows = cart (axes q.2 []) := by
        rw [(createHyperGrid_eq hb.proper hgr).2.2.2, if_neg hent]
      have hax := axes_get (ts := []) he
      have hrl : ∀ r ∈ g.rows, a < r.length := by
        intro r hr
        rw [hrows] at hr
        have := ((cart_mem _ _).1 hr).length_eq
        rw [this, axes, List.length_map]
        exact halt
      obtain ⟨o1, o2⟩ := marginalRow_eq (a := a) d1 hrl d2
      refine ⟨hx'.symm, Dk, d1, by rw [hAf, n1]; rfl, ?_, by rw [hAf, n2, d2], ?_⟩
      · rw [hAf, n1]
        intro y hy
        obtain ⟨v, -, rfl⟩ := List.mem_map.1 hy
        unfold probOf
        apply List.sum_nonneg
        intro z hz
        obtain ⟨u, hu, rfl⟩ := List.mem_map.1 hz
        exact d3 _ (List.mem_map_of_mem (f := (· * g.hgc.prod)) (List.of_mem_zip (List.mem_filter.1 hu).1).2)
      · obtain ⟨L, hL⟩ : ∃ L, mapE (fun k => hpdAt S' k i) (List.range S'.hpds.length) = .ok L := by
          have : ∀ n ≤ S'.hpds.length, ∃ L, mapE (fun k => hpdAt S' k i) (List.range n) = .ok L := by
            intro n
            induction n with
            | zero => intro _; exact ⟨[], rfl⟩
            | succ n ih =>
                intro hn
                obtain ⟨L, hL⟩ := ih (by omega)
                obtain ⟨r, hr, -⟩ := hent3 n (by omega)
                refine ⟨L ++ [r], mapE_ok.2 ?_⟩
                rw [List.range_succ]
                exact List.rel_append (mapE_ok.1 hL) (.cons hr .nil)
          exact this _ le_rfl
        have hLF := mapE_ok.1 hL
        have hLl : L.length = S'.hpds.length := by rw [← hLF.length_eq, List.length_range]
        have hLk : L[k]? = some (some Dk) := by
          have := (List.forall₂_iff_get.1 hLF).2 k (by rw [List.length_range]; omega) (by omega)
          simp only [List.get_eq_getElem, List.getElem_range, hr1, Except.ok.injEq] at this
          rw [List.getElem?_eq_getElem (by omega), ← this]
        refine ⟨sortedValues (g.rows.map fun r => r.getD a 0), L.map fun D => D.bind (marginalRow g.rows a (sortedValues (g.rows.map fun r => r.getD a 0))),
          ?_, sortedValues_sorted _, ?_, ?_, ?_, o2⟩
        · unfold OState.getHPDs
          rw [if_neg hst, hfind]
          simp only [hm, hmg']
          rw [if_neg (by omega)]
          simp only [bind, Except.bind, hL]
        · intro y
          rw [sortedValues_mem, List.mem_map]
          have hval : valuesOf [] (HVal.array l) = l := rfl
          rw [hval] at hax
          constructor
          · rintro ⟨r, hr, rfl⟩
            have hF := (cart_mem _ _).1 (hrows ▸ hr)
            have ha1 : a < r.length := hrl r hr
            have ha2 : a < (axes q.2 []).length := (List.getElem?_eq_some_iff.1 hax).1
            have := (List.forall₂_iff_get.1 hF).2 a ha1 ha2
            simp only [List.get_eq_getElem, (List.getElem?_eq_some_iff.1 hax).2] at this
            rw [List.getD_eq_getElem?_getD, List.getElem?_eq_getElem ha1]
            exact this
          · intro hy
            have hne0 : g.rows ≠ [] := by
              intro h0
              rw [h0, List.length_nil, List.length_eq_zero_iff] at d1
              rw [d1] at d2
              simp at d2
            obtain ⟨r0, hr0⟩ := List.exists_mem_of_ne_nil _ hne0
            have hF := (cart_mem _ _).1 (hrows ▸ hr0)
            have ha1 : a < r0.length := hrl r0 hr0
            refine ⟨r0.set a y, ?_, ?_⟩
            · rw [hrows, cart_mem, List.forall₂_iff_get]
              refine ⟨by rw [List.length_set]; exact hF.length_eq, ?_⟩
              intro b hb1 hb2
              simp only [List.get_eq_getElem, List.getElem_set]
              by_cases hba : a = b
              · subst hba
                rw [if_pos rfl, (List.getElem?_eq_some_iff.1 hax).2]
                exact hy
              · rw [if_neg hba]
                have := (List.forall₂_iff_get.1 hF).2 b (by simpa using hb1) hb2
                simpa using this
            · rw [List.getD_eq_getElem?_getD, List.getElem?_set_self ha1]; rfl
        · rw [List.length_map, hLl, hhl, movingWindow_len]
        · rw [List.getElem?_map, hLk, Option.map_some, Option.bind_some, o1]

end Props

namespace Ex
open BL Spec

/-- as `oc`, with grid spacing 1/2 -/
def och : OConf ℚ (ℚ × ℚ) gs2 := { oc with E := env gs2 (1 / 2) }
/-- a history: two models, two data points -/
def hist2 : List (OCall ℚ (ℚ × ℚ)) := [.add "s" mkStatic, .add "g" (ogrw [0, 1 / 2]), .step (1 / 4, 3 / 4), .step (1 / 2, 1 / 4)]
/-- the study after this history -/
def after2 : OState ℚ (ℚ × ℚ) gs2 := (execAll och (OState.new true .none) hist2).1

end Ex

namespace Props
open BL Spec Ex

/-- The assumptions can be met: all queries of C44 succeed after a history with two models. -/
example : ∃ S out, execAll och (OState.new true .none) hist2 = (S, out) ∧ StepsSucceed hist2 out ∧ (movingWindow (fedData hist2) och.seg).length = 2 ∧
    och.E.names 0 = "x" ∧ (S.getHyperMeans "sigma").toOption.map List.length = some 2 ∧ (S.getTMPs "g" true).toOption.map List.length = some 2 := by
  have h : (execAll och (OState.new true .none) hist2).2 = [none, none, none, none] := by decide +kernel
  refine ⟨(execAll och (OState.new true .none) hist2).1, (execAll och (OState.new true .none) hist2).2, rfl, ?_, by decide +kernel, rfl, by decide +kernel, by decide +kernel⟩
  rw [h]
  intro i x hx
  have hi : i < 4 := by
    have := (List.getElem?_eq_some_iff.1 hx).1
    simpa [hist2] using this
  interval_cases i <;> simp [hist2] at hx ⊢

/-- the assumptions of `C44_current_model_partial` can be met -/
example : after2.firstStep = false ∧ "g" ∈ (after2.getCurrentTMD true).1 ∧ (after2.getCurrentTMD true).2 = some [20 / 41, 21 / 41] ∧
    (after2.getCurrentTMP "g" true).toOption = some (some (21 / 41)) := by
  refine ⟨by decide +kernel, by decide +kernel, by decide +kernel, by decide +kernel⟩

/-- the assumptions of `C44_hyper_partial` can be met -/
example : ∃ (S S' : OState ℚ (ℚ × ℚ) gs2) (A : ND ℚ), GoodModels two ∧ NonnegPriors two ∧ setup true .none two none = .ok S ∧
    runSteps oc S [(1 / 4, 3 / 4), (1 / 2, 1 / 4)] = .ok S' ∧ two[1]? = some ("g", ogrw [0, 1 / 2]) ∧ (entries (ogrw [0, 1 / 2]))[0]? = some ("sigma", .array [0, 1 / 2]) ∧
    S'.getHPD ((1 + (oc.seg - 1) : ℕ) : ℚ) "sigma" = .ok (.array [0, 1 / 2], some A) := by
  have h1 : holds (orun true .none two none [(1 / 4, 3 / 4), (1 / 2, 1 / 4)])
      (fun S' => holds (S'.getHPD ((1 + (oc.seg - 1) : ℕ) : ℚ) "sigma") fun r => decide (r.1 = .array [0, 1 / 2]) && r.2.isSome) = true := by decide +kernel
  obtain ⟨S', a1, a2⟩ := holds_iff.1 h1
  obtain ⟨S, b1, b2⟩ := orun_ok a1
  obtain ⟨⟨x, A⟩, c1, c2⟩ := holds_iff.1 a2
  simp only [Bool.and_eq_true, decide_eq_true_eq, Option.isSome_iff_exists] at c2
  obtain ⟨rfl, A, rfl⟩ := c2
  exact ⟨S, S', A, good_two, nonneg_two, b1, b2, rfl, rfl, c1⟩

/-- Queries which are not consistent (two models and two data points; grid spacing 1/2): (1) `getPD` ignores `density=False`; (2) the mean value for
a single time step is not the entry of the mean values for all times; (3) the values returned for a single time by `getHyperParameterDistribution` sum to 2, not to 1; (4)
`getCurrentHyperParameterDistribution` called twice returns different values, the second time with sum 1/2; (5) with a single time stamp the distributions for all times
cannot be queried. -/
theorem C44_refuted :
    (after2.getPD och (.at 0) "x" false).2 ≠ (after2.getParameterDistribution och (.at 0) "x" false).2 ∧
    (∃ y ms, after2.getMean och 0 "x" = .ok y ∧ after2.getMeans och "x" = .ok ms ∧ ms[0]? ≠ some y) ∧
    (∃ x A, after2.getHPD 1 "sigma" = .ok (x, some A) ∧ A.flat.sum = 2) ∧
    (∃ x A x' A', (after2.getCurrentHPD "sigma").2 = .ok (x, some A) ∧ A.flat.sum = 1 ∧
      ((after2.getCurrentHPD "sigma").1.getCurrentHPD "sigma").2 = .ok (x', some A') ∧ A'.flat.sum = 1 / 2) ∧
    (((execAll och (OState.new true .none) [.add "s" mkStatic, .step (1 / 4, 3 / 4)]).1.getParameterDistributions och "x" true).2 = .error .indexError) := by
  refine ⟨?_, ?_, ?_, ?_, ?_⟩
  · have h : (holds (after2.getPD och (.at 0) "x" false).2 fun r => decide (r.2 = some [1 / 2, 3 / 2])) = true ∧
        (holds (after2.getParameterDistribution och (.at 0) "x" false).2 fun r => decide (r.2 = some [1 / 4, 3 / 4])) = true := by
      constructor <;> decide +kernel
    intro he
    obtain ⟨r, r1, r2⟩ := holds_iff.1 h.1
    obtain ⟨r', r1', r2'⟩ := holds_iff.1 h.2
    rw [r1, r1'] at he
    cases he
    have := (of_decide_eq_true r2).symm.trans (of_decide_eq_true r2')
    revert this
    decide +kernel
  · have h : (holds (after2.getMean och 0 "x") fun y => holds (after2.getMeans och "x") fun ms => decide (ms[0]? ≠ some y)) = true := by decide +kernel
    obtain ⟨y, h1, h2⟩ := holds_iff.1 h
    obtain ⟨ms, h3, h4⟩ := holds_iff.1 h2
    exact ⟨y, ms, h1, h3, of_decide_eq_true h4⟩
  · have h : (holds (after2.getHPD 1 "sigma") fun r => decide (r.2.map (fun A => A.flat.sum) = some 2)) = true := by decide +kernel
    obtain ⟨⟨x, A⟩, h1, h2⟩ := holds_iff.1 h
    obtain ⟨A, rfl, h3⟩ := Option.map_eq_some_iff.1 (of_decide_eq_true h2)
    exact ⟨x, A, h1, h3⟩
  · have h : (holds (after2.getCurrentHPD "sigma").2 fun r => holds ((after2.getCurrentHPD "sigma").1.getCurrentHPD "sigma").2 fun r' =>
        decide (r.2.map (fun A => A.flat.sum) = some 1) && decide (r'.2.map (fun A => A.flat.sum) = some (1 / 2))) = true := by decide +kernel
    obtain ⟨⟨x, A⟩, h1, h2⟩ := holds_iff.1 h
    obtain ⟨⟨x', A'⟩, h3, h4⟩ := holds_iff.1 h2
    simp only [Bool.and_eq_true, decide_eq_true_eq] at h4
    obtain ⟨A, rfl, h5⟩ := Option.map_eq_some_iff.1 h4.1
    obtain ⟨A', rfl, h6⟩ := Option.map_eq_some_iff.1 h4.2
    exact ⟨x, A, x', A', h1, h5, h3, h6⟩
  · rfl

end Props
