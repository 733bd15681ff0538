import Verif.Props.C44

/-! # C45: failing queries of online studies -/

set_option linter.unusedSectionVars false

namespace Spec
open BL
variable {K D : Type} [Field K] [LinearOrder K] {d : ℕ} {gs : Fin d → ℕ}

/-- `getParameterDistribution`, `getPD` and `getParameterDistributions` -/
def DistributionQuery : OQuery K → Prop
  | .parameterDistribution _ _ _ => True
  | .pd _ _ _ => True
  | .parameterDistributions _ _ => True
  | _ => False

/-- The study without the attribute `hyperParameterDistribution` (the current one; the history is kept).  A step does not depend on this attribute. -/
def forget (S : OState K D gs) : OState K D gs := { S with models := S.models.map fun m => { m with hpd := none } }

end Spec

namespace BL
open Spec Props
variable {K D : Type} [Field K] [LinearOrder K] [IsStrictOrderedRing K] {d : ℕ} {gs : Fin d → ℕ}

theorem update_forget (E : Env K gs) (first : Option (Arr K gs)) (lik : Idx gs → K) (m : OModelSt K gs) :
    ({ m with hpd := none } : OModelSt K gs).update E first lik = m.update E first lik := rfl

theorem initialise_forget (c : OConf K D gs) (S : OState K D gs) :
    (forget S).initialise c = (S.initialise c).map fun r => (forget r.1, r.2) := by
  unfold OState.initialise
  change (if S.firstStep = true then _ else _) = _
  by_cases h : S.firstStep = true
  · rw [if_pos h, if_pos h]
    simp only [bind, Except.bind]
    have e : (forget S).prior = S.prior := rfl
    rw [e]
    cases computePrior { c.E with prior := S.prior } with
    | error e => rfl
    | ok v =>
        simp only [Except.map, forget, List.map_map, List.length_map]
        rfl
  · rw [if_neg h, if_neg h]
    rfl

theorem combine_forget (S : OState K D gs) (ps : List K) (ms : List (OModelSt K gs)) : (forget S).combine ps ms = S.combine ps ms := by
  unfold OState.combine
  have : ∀ (l ms : List (OModelSt K gs)) (ps : List K), List.zipWith (fun (q : OModelSt K gs × OModelSt K gs) p => localWeight q.1 q.2 p) ((l.map fun m => { m with hpd := none }).zip ms) ps =
      List.zipWith (fun (q : OModelSt K gs × OModelSt K gs) p => localWeight q.1 q.2 p) (l.zip ms) ps := by
    intro l
    induction l with
    | nil => intro ms ps; rfl
    | cons m l ih =>
        intro ms ps
        cases ms with
        | nil => rfl
        | cons m' ms =>
            cases ps with
            | nil => rfl
            | cons p ps =>
                simp only [List.map_cons, List.zip_cons_cons, List.zipWith_cons_cons]
                rw [ih]
                rfl
  simp only [forget, this]

theorem analyse_forget (c : OConf K D gs) (S : OState K D gs) (lik : Idx gs → K) : (forget S).analyse c lik = S.analyse c lik := by
  unfold OState.analyse
  rw [initialise_forget]
  cases S.initialise c with
  | error e => rfl
  | ok r =>
      obtain ⟨S1, first⟩ := r
      simp only [Except.map, bind, Except.bind]
      have e1 : (forget S1).tmPrior = S1.tmPrior := rfl
      have e2 : (forget S1).prior = S1.prior := rfl
      have e3 : (forget S1).models.length = S1.models.length := by simp [forget]
      have e4 : mapE (OModelSt.update { c.E with prior := S1.prior } first lik) (forget S1).models =
          mapE (OModelSt.update { c.E with prior := S1.prior } first lik) S1.models := by
        simp only [forget]
        generalize S1.models = l
        induction l with
        | nil => rfl
        | cons m l ih => rw [List.map_cons, mapE, mapE, ih]; rfl
      rw [e1, e2, e3, e4]
      simp only [combine_forget]

theorem proceed_forget (c : OConf K D gs) (S : OState K D gs) :
    ((forget S).proceed c).2 = (S.proceed c).2 ∧ forget ((forget S).proceed c).1 = forget (S.proceed c).1 := by
  have hff : ∀ T : OState K D gs, forget (forget T) = forget T := fun T => by simp [forget]
  unfold OState.proceed
  change (if S.rawData.length < c.seg then _ else _ : OState K D gs × Option PyErr).2 = _ ∧ forget (if S.rawData.length < c.seg then _ else _ : OState K D gs × Option PyErr).1 = _
  by_cases h : S.rawData.length < c.seg
  · rw [if_pos h, if_pos h]; exact ⟨rfl, hff S⟩
  · rw [if_neg h, if_neg h]
    have e1 : (forget S).fts = S.fts := rfl
    have e2 : (forget S).rawTs = S.rawTs := rfl
    have e3 : (forget S).rawData = S.rawData := rfl
    rw [e1, e2]
    cases S.fts with
    | none => exact ⟨rfl, hff S⟩
    | some f =>
        cases S.rawTs.bind List.getLast? with
        | none => exact ⟨rfl, hff S⟩
        | some t =>
            simp only
            cases f.append t with
            | error e => exact ⟨rfl, hff S⟩
            | ok f' =>
                simp only [e3]
                have e5 := analyse_forget c { S with fts := some f' } (c.pdf (S.rawData.drop (S.rawData.length - c.seg)))
                simp only [forget] at e5 hff ⊢
                rw [e5]
                cases ({ S with fts := some f' } : OState K D gs).analyse c (c.pdf (S.rawData.drop (S.rawData.length - c.seg))) with
                | error e => exact ⟨rfl, hff { S with fts := some f' }⟩
                | ok S2 => exact ⟨rfl, rfl⟩

theorem stepAdded_forget (conf : Option (OConf K D gs)) (S : OState K D gs) (x : D) :
    ((forget S).stepAdded conf x).2 = (S.stepAdded conf x).2 ∧ forget ((forget S).stepAdded conf x).1 = forget (S.stepAdded conf x).1 := by
  have hff : ∀ T : OState K D gs, forget (forget T) = forget T := fun T => by simp [forget]
  have e1 : (forget S).rawData = S.rawData := rfl
  have e2 : (forget S).rawTs = S.rawTs := rfl
  have e3 : ((forget S).models.flatMap fun m => m.grid.names) = S.models.flatMap fun m => m.grid.names := by
    simp [forget, List.flatMap_map]
  have e4 : ∀ rd, ({ forget S with rawData := rd } : OState K D gs) = forget { S with rawData := rd } := fun _ => rfl
  have e5 : ∀ rd ts, ({ forget S with rawData := rd, rawTs := ts } : OState K D gs) = forget { S with rawData := rd, rawTs := ts } := fun _ _ => rfl
  have e6 : ∀ rd ts f, ({ forget S with rawData := rd, rawTs := ts, fts := f } : OState K D gs) = forget { S with rawData := rd, rawTs := ts, fts := f } := fun _ _ _ => rfl
  unfold OState.stepAdded
  simp only [e1, e2, e3]
  by_cases h0 : S.rawData.length = 0
  · simp only [h0, ↓reduceIte]
    by_cases hn : ¬ (S.models.flatMap fun m => m.grid.names).Nodup
    · rw [if_pos hn, if_pos hn]; exact ⟨rfl, hff S⟩
    · rw [if_neg hn, if_neg hn]
      cases conf with
      | none => exact ⟨rfl, hff { S with rawData := [x] }⟩
      | some c =>
          simp only [e6]
          exact proceed_forget c _
  · simp only [h0, ↓reduceIte]
    cases hb : S.rawTs.bind fun l => l.getLast?.map fun t => l ++ [t + 1] with
    | none => exact ⟨rfl, hff { S with rawData := S.rawData ++ [x] }⟩
    | some ts =>
        cases conf with
        | none => exact ⟨rfl, hff { S with rawData := S.rawData ++ [x], rawTs := some ts }⟩
        | some c =>
            simp only [e5]
            exact proceed_forget c _

theorem add_forget (S : OState K D gs) (n : String) (tm : TM K) : ((forget S).add n tm).2 = (S.add n tm).2 ∧ ((forget S).add n tm).1 = forget (S.add n tm).1 := by
  have e : (forget S).setTM tm = (forget (S.setTM tm).1, (S.setTM tm).2) := by
    unfold OState.setTM
    split <;> rfl
  unfold OState.add
  rw [e]
  cases h : S.setTM tm with
  | mk T err =>
      cases err with
      | some er => exact ⟨rfl, rfl⟩
      | none =>
          simp only
          have e1 : (forget T).rawTs = T.rawTs := rfl
          have e2 : (forget T).fts = T.fts := rfl
          rw [e1, e2]
          split
          · exact ⟨rfl, rfl⟩
          · split
            · exact ⟨rfl, rfl⟩
            · refine ⟨rfl, ?_⟩
              simp [forget]

/-- a step does not depend on the attribute `hyperParameterDistribution` -/
theorem step_forget (conf : Option (OConf K D gs)) (S : OState K D gs) (x : D) :
    ((forget S).step conf x).2 = (S.step conf x).2 ∧ forget ((forget S).step conf x).1 = forget (S.step conf x).1 := by
  have hff : ∀ T : OState K D gs, forget (forget T) = forget T := fun T => by simp [forget]
  have ec : (forget S).current = S.current := rfl
  cases hm : S.models with
  | nil =>
      have e0 : (forget S).models = [] := by simp [forget, hm]
      unfold OState.step
      rw [e0, ec, hm]
      cases S.current with
      | none => exact ⟨rfl, hff S⟩
      | some tm =>
          simp only
          obtain ⟨a1, a2⟩ := add_forget S "transition model" tm
          cases h1 : (forget S).add "transition model" tm with
          | mk T er =>
              cases h2 : S.add "transition model" tm with
              | mk T' er' =>
                  rw [h1, h2] at a1 a2
                  simp only at a1 a2
                  subst a1 a2
                  cases er with
                  | some e => exact ⟨rfl, hff T'⟩
                  | none => exact stepAdded_forget conf T' x
  | cons m ms =>
      rw [step_eq (S := forget S) (by simp [forget, hm]), step_eq (S := S) (by rw [hm]; simp)]
      exact stepAdded_forget conf S x

theorem step_congr {conf : Option (OConf K D gs)} {S T : OState K D gs} (h : forget S = forget T) (x : D) :
    (S.step conf x).2 = (T.step conf x).2 ∧ forget (S.step conf x).1 = forget (T.step conf x).1 := by
  obtain ⟨a1, a2⟩ := step_forget conf S x
  obtain ⟨b1, b2⟩ := step_forget conf T x
  rw [h] at a1 a2
  exact ⟨a1.symm.trans b1, a2.symm.trans b2⟩

/-- the containers which `step` appends to are Python lists -/
def Live (S : OState K D gs) : Prop := (∃ l, S.fts = some (.list l)) ∧ ∃ l, S.posts = .list l

theorem Live.back {S : OState K D gs} (h : Live S) : S.toArrays.toLists = S := by
  obtain ⟨⟨l, h1⟩, l', h2⟩ := h
  cases S
  simp only at h1 h2
  subst h1 h2
  rfl

/-- equal up to `hyperParameterDistribution` and the type of the containers -/
def Quasi (S T : OState K D gs) : Prop := forget T.toArrays = forget S.toArrays

theorem query_quasi (c : OConf K D gs) (S : OState K D gs) (q : OQuery K) : Quasi S (q.exec c S).1 := by
  have hta : S.toArrays.toArrays = S.toArrays := by
    simp [OState.toArrays, PySeq.entries, PySeq.toArray]
  have htl : S.toArrays.toLists.toArrays = S.toArrays := by
    simp [OState.toArrays, OState.toLists, PySeq.entries, PySeq.toArray, PySeq.toList]
  have hpd : ∀ t n b, Quasi S (S.getParameterDistribution c t n b).1 := by
    intro t n b
    unfold OState.getParameterDistribution
    split
    · exact rfl
    · split
      · exact congrArg forget hta
      · exact congrArg forget htl
  cases q with
  | parameterDistribution t n b => exact hpd t n b
  | pd t n b => exact hpd t n true
  | parameterDistributions n b =>
      change Quasi S (S.getParameterDistributions c n b).1
      unfold OState.getParameterDistributions
      split
      · exact rfl
      · split
        · exact congrArg forget hta
        · exact congrArg forget htl
  | currentHPD n =>
      change Quasi S (S.getCurrentHPD n).1
      unfold OState.getCurrentHPD
      split
      · exact rfl
      · rename_i i a _
        split
        · exact rfl
        · rename_i m x hm
          split
          · exact rfl
          · split
            · exact rfl
            · split
              · exact rfl
              · split
                · exact rfl
                · simp only
                  split
                  · have hmi : S.models[i]? = some m := by
                      obtain ⟨m', h1, h2⟩ := Option.bind_eq_some_iff.1 hm
                      obtain ⟨x', -, h3⟩ := Option.map_eq_some_iff.1 h2
                      cases h3
                      exact h1
                    unfold Quasi forget OState.toArrays
                    simp only [List.map_set]
                    have : (S.models.map fun m => ({ m with hpd := none } : OModelSt K gs)).set i { m with hpd := none } =
                        S.models.map fun m => { m with hpd := none } := by
                      apply List.ext_getElem?
                      intro j
                      rw [List.getElem?_set]
                      by_cases hj : i = j
                      · subst hj
                        rw [if_pos rfl, if_pos (by rw [List.length_map]; exact (List.getElem?_eq_some_iff.1 hmi).1), List.getElem?_map, hmi]; rfl
                      · rw [if_neg hj]
                    rw [this]
                  · exact rfl
  | _ => exact rfl

theorem queries_quasi (c : OConf K D gs) : ∀ (qs : List (OQuery K)) (S : OState K D gs), Quasi S (execAll c S (qs.map .query)).1
  | [], S => rfl
  | q :: qs, S => (queries_quasi c qs _).trans (query_quasi c S q)

end BL

namespace Props
open BL Spec
variable {K D : Type} [Field K] [LinearOrder K] [IsStrictOrderedRing K] {d : ℕ} {gs : Fin d → ℕ}

/-- **C45 (most queries).** Every state and every query which raises an exception, other than the three queries for parameter distributions in a study with
`storeHistory=True`: the study is left exactly as it was. -/
theorem C45_partial (c : OConf K D gs) (S : OState K D gs) (q : OQuery K) (e : PyErr) (he : (q.exec c S).2 = some e)
    (hq : S.store = false ∨ ¬ DistributionQuery q) : (q.exec c S).1 = S := by
  have hpd : ∀ t n b, S.store = false → (S.getParameterDistribution c t n b).1 = S := by
    intro t n b h
    unfold OState.getParameterDistribution
    rw [if_pos h]
  cases q with
  | parameterDistribution t n b =>
      rcases hq with h | h
      · exact hpd t n b h
      · exact absurd trivial h
  | pd t n b =>
      rcases hq with h | h
      · exact hpd t n true h
      · exact absurd trivial h
  | parameterDistributions n b =>
      rcases hq with h | h
      · change (S.getParameterDistributions c n b).1 = S
        unfold OState.getParameterDistributions
        rw [if_pos h]
      · exact absurd trivial h
  | currentHPD n =>
      change errOf (S.getCurrentHPD n).2 = some e at he
      change (S.getCurrentHPD n).1 = S
      generalize hr : S.getCurrentHPD n = r at he
      unfold OState.getCurrentHPD at hr
      split at hr
      · subst hr; rfl
      · split at hr
        · subst hr; rfl
        · split at hr
          · subst hr; rfl
          · split at hr
            · subst hr; rfl
            · split at hr
              · subst hr; rfl
              · split at hr
                · subst hr; rfl
                · subst hr; cases he
  | _ => rfl

/-- **C45 (histories of failing queries).** Any number of such failing queries leaves the study exactly as it was, so further data are processed as if
the queries had not been made. -/
theorem C45_history_partial (c : OConf K D gs) : ∀ (qs : List (OQuery K)) (S : OState K D gs), (∀ q ∈ qs, S.store = false ∨ ¬ DistributionQuery q) →
    (∀ o ∈ (execAll c S (qs.map .query)).2, o ≠ none) → (execAll c S (qs.map .query)).1 = S
  | [], _, _, _ => rfl
  | q :: qs, S, hq, ho => by
      cases he : (q.exec c S).2 with
      | none => exact absurd he (ho _ (by simp [execAll, OCall.exec]))
      | some e =>
          have h1 := C45_partial c S q e he (hq q (by simp))
          have h2 : execAll c S ((q :: qs).map .query) = ((execAll c S (qs.map .query)).1, some e :: (execAll c S (qs.map .query)).2) := by
            simp only [List.map_cons, execAll, OCall.exec, he]
            rw [h1]
          rw [h2] at ho ⊢
          exact C45_history_partial c qs S (fun q' h => hq q' (by simp [h])) fun o h => ho o (by simp [h])

/-- **C45 (recovery).** Every history of calls, then a step which completed a data segment (state `S`), then any queries, failing or not, and finally a successful
query for parameter distributions: further data are processed as if no query had been made (same outcome of the step; the state is the same except possibly
for the attribute which holds the current distribution of hyper-parameter values). -/
theorem C45_recover_partial (c : OConf K D gs) (S0 S : OState K D gs) (y : D) (hy : S0.step (some c) y = (S, none)) (hst : S.store = true) (hseg : c.seg ≤ S.rawData.length)
    (qs : List (OQuery K)) (q : OQuery K) (hq : DistributionQuery q) (T : OState K D gs) (out : List (Option PyErr))
    (hT : execAll c S ((qs ++ [q]).map .query) = (T, out)) (hlast : out.getLast? = some none) (x : D) :
    (T.step (some c) x).2 = (S.step (some c) x).2 ∧ forget (T.step (some c) x).1 = forget (S.step (some c) x).1 := by
  have hexec : ∀ (qs : List (OQuery K)) (S : OState K D gs), execAll c S ((qs ++ [q]).map .query) =
      ((q.exec c (execAll c S (qs.map .query)).1).1, (execAll c S (qs.map .query)).2 ++ [(q.exec c (execAll c S (qs.map .query)).1).2]) := by
    intro qs
    induction qs with
    | nil => intro S; rfl
    | cons q' qs ih =>
        intro S
        simp only [List.cons_append, List.map_cons, execAll, ih]
  rw [hexec] at hT
  cases hT
  rw [List.getLast?_append, List.getLast?_singleton, Option.some_or] at hlast
  have hok : (q.exec c (execAll c S (qs.map .query)).1).2 = none := Option.some.inj hlast
  have hL : Live S := by
    have core : ∀ U : OState K D gs, U.proceed c = (S, none) → Live S := by
      intro U hU
      rcases proceed_ok hU with ⟨h, rfl⟩ | ⟨-, f, t, f', S2, b1, b2, b3, b4, b5⟩
      · omega
      · obtain ⟨a1, a2, a3, a4, a5, a6, a7, a8, a9⟩ := analyse_hist b4
        have r := record_hist b5
        have hs2 : S2.store = true := by rw [← r.1]; exact hst
        refine ⟨?_, ?_⟩
        · rw [r.2.2.2.1, a4]
          cases f with
          | list l => simp only [PySeq.append, Except.ok.injEq] at b3; exact ⟨_, by rw [← b3]⟩
          | ndarray l => simp [PySeq.append] at b3
        · unfold OState.record at b5
          rw [if_pos hs2] at b5
          simp only at b5
          split at b5
          · cases b5
          · rename_i ps hps
            cases b5
            cases hp : S2.posts with
            | list l => rw [hp] at hps; simp only [PySeq.append, Except.ok.injEq] at hps; exact ⟨_, hps.symm⟩
            | ndarray l => rw [hp] at hps; simp [PySeq.append] at hps
    have added : ∀ U : OState K D gs, U.stepAdded (some c) y = (S, none) → Live S := by
      intro U hU
      unfold OState.stepAdded at hU
      split at hU
      · split at hU
        · cases hU
        · exact core _ hU
      · simp only at hU
        split at hU
        · cases hU
        · exact core _ hU
    unfold OState.step at hy
    split at hy
    · cases hy
    · split at hy
      · cases hy
      · exact added _ hy
    · exact added _ hy
  set U := (execAll c S (qs.map .query)).1 with hU
  have hUq : Quasi S U := queries_quasi c qs S
  have hUst : U.store = true := by
    have := congrArg OState.store hUq
    exact this.trans hst
  have hTU : (q.exec c U).1 = U.toArrays.toLists := by
    have hpd : ∀ t n b, errOf (U.getParameterDistribution c t n b).2 = none → (U.getParameterDistribution c t n b).1 = U.toArrays.toLists := by
      intro t n b h
      unfold OState.getParameterDistribution at h ⊢
      rw [if_neg (by rw [hUst]; simp)] at h ⊢
      split
      · rename_i e he; rw [he] at h; cases h
      · rfl
    cases q with
    | parameterDistribution t n b => exact hpd t n b hok
    | pd t n b => exact hpd t n true hok
    | parameterDistributions n b =>
        change (U.getParameterDistributions c n b).1 = _
        change errOf (U.getParameterDistributions c n b).2 = none at hok
        unfold OState.getParameterDistributions at hok ⊢
        rw [if_neg (by rw [hUst]; simp)] at hok ⊢
        split
        · rename_i e he; rw [he] at hok; cases hok
        · rfl
    | _ => exact absurd hq id
  apply step_congr
  rw [hTU]
  have : ∀ W : OState K D gs, forget W.toLists = (forget W).toLists := fun _ => rfl
  rw [this, hUq, ← this, hL.back]

end Props

namespace Ex
open BL Spec
/-- name of no parameter -/
def failing : List (OCall ℚ (ℚ × ℚ)) := hist2 ++ [.query (.parameterDistribution (.at 0) "no parameter" true), .step (1 / 2, 1 / 2)]
end Ex

namespace Props
open BL Spec Ex

/-- With `storeHistory=True` a query with an unknown parameter name, or for a time step which does not exist, raises `PostProcessingError`, and the next step
`AttributeError`, although the step succeeds without the query. -/
theorem C45_refuted :
    (execAll och (OState.new true .none) failing).2 = [none, none, none, none, some .postProcessing, some .attributeError] ∧
    (execAll och (OState.new true .none) (hist2 ++ [.query (.parameterDistribution (.at 7) "x" true), .step (1 / 2, 1 / 2)])).2 =
      [none, none, none, none, some .postProcessing, some .attributeError] ∧
    (execAll och (OState.new true .none) (hist2 ++ [.step (1 / 2, 1 / 2)])).2 = [none, none, none, none, none] := by
  refine ⟨?_, ?_, ?_⟩ <;> decide +kernel

/-- the assumptions of C45 can be met: failing queries of both kinds -/
example : (OQuery.exec och after2 (.means "no parameter")).2 = some .postProcessing ∧ ¬ DistributionQuery (OQuery.means (K := ℚ) "no parameter") ∧
    (OQuery.exec och (OState.new false .none) (.parameterDistribution (.at 0) "x" true)).2 = some .postProcessing :=
  ⟨by decide +kernel, id, by decide +kernel⟩

/-- … and the assumptions of the theorem on recovery: a failing query, a query which changes the current distribution, and a successful one -/
example : ∃ S0 S : OState ℚ (ℚ × ℚ) gs2, S0.step (some och) (1 / 2, 1 / 4) = (S, none) ∧ S.store = true ∧ och.seg ≤ S.rawData.length ∧
    (execAll och S (([.parameterDistribution (.at 0) "no parameter" true, .currentHPD "sigma"] ++ [.parameterDistribution (.at 0) "x" true] : List (OQuery ℚ)).map OCall.query)).2 =
      [some .postProcessing, none, none] := by
  have h : ((execAll och (OState.new true .none) [.add "s" mkStatic, .add "g" (ogrw [0, 1 / 2]), .step (1 / 4, 3 / 4)]).1.step (some och) (1 / 2, 1 / 4)).2 = none := by
    decide +kernel
  refine ⟨(execAll och (OState.new true .none) [.add "s" mkStatic, .add "g" (ogrw [0, 1 / 2]), .step (1 / 4, 3 / 4)]).1, _, Prod.ext rfl h, ?_, ?_, ?_⟩
  · decide +kernel
  · decide +kernel
  · decide +kernel

end Props
