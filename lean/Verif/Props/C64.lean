import Verif.Props.C44
import Verif.Props.C55

/-! # C64: mean values reported by an online study -/

set_option linter.unusedSectionVars false

namespace BL
open Spec
variable {K D : Type} [Field K] [LinearOrder K] [IsStrictOrderedRing K] {d : ℕ} {gs : Fin d → ℕ}

/-- stored means belong to the stored posteriors, after all histories -/
theorem execAll_means {c : OConf K D gs} {store : Bool} (h1 : 1 ≤ c.seg) : ∀ (qs : List (OCall K D)) (S : OState K D gs) (xs : List D), HInv c store xs S →
    StepsSucceed qs (execAll c S qs).2 → S.means = S.posts.entries.map (fun p => p.map fun p a => mean c.grid a p) →
    (execAll c S qs).1.means = (execAll c S qs).1.posts.entries.map (fun p => p.map fun p a => mean c.grid a p)
  | [], S, xs, _, _, hm => by simpa [execAll] using hm
  | q :: qs, S, xs, hi, hs, hm => by
      rw [execAll] at hs ⊢
      simp only at hs ⊢
      cases hq : q.exec c S with
      | mk S1 e =>
      rw [hq] at hs
      have hs' : StepsSucceed qs (execAll c S1 qs).2 := by
        intro i x hx
        have := hs (i + 1) x (by simpa using hx)
        simpa using this
      by_cases hstep : ∃ x, q = .step x
      · obtain ⟨x, rfl⟩ := hstep
        have he : e = none := by simpa using hs 0 x (by simp)
        subst he
        obtain ⟨a, b⟩ := step_hist h1 hi hq
        refine execAll_means h1 qs S1 _ b hs' ?_
        rw [a.means, a.posts, hm, List.map_append]
        congr 1
        split <;> rfl
      · push Not at hstep
        have hh := call_hist c S q hstep
        rw [hq] at hh
        refine execAll_means h1 qs S1 xs (hi.of_same hh) hs' ?_
        rw [hh.means, hh.posts, hm]

theorem findHyper_found {Ms : List (OModelSt K gs)} {name : String} {i a : ℕ} (h : findHyper Ms name = some (i, a)) :
    ∃ m, Ms[i]? = some m ∧ m.tm.hyperIndex name = .ok a := by
  have key : ∀ (l : List (OModelSt K gs)) (s : ℕ) (acc : Option (ℕ × ℕ)),
      (l.zipIdx s).foldl (fun acc q => match q.1.tm.hyperIndex name with
        | .ok a => some (q.2, a)
        | .error _ => acc) acc = some (i, a) → acc = some (i, a) ∨ ∃ m, s ≤ i ∧ l[i - s]? = some m ∧ m.tm.hyperIndex name = .ok a := by
    intro l
    induction l with
    | nil => intro s acc h; exact Or.inl h
    | cons b l ih =>
        intro s acc h
        rw [List.zipIdx_cons, List.foldl_cons] at h
        rcases ih (s + 1) _ h with h' | ⟨m, m1, m2, m3⟩
        · simp only at h'
          split at h'
          · rename_i a' ha
            cases h'
            exact Or.inr ⟨b, le_rfl, by simp, ha⟩
          · exact Or.inl h'
        · refine Or.inr ⟨m, by omega, ?_, m3⟩
          obtain ⟨j, rfl⟩ : ∃ j, i = s + 1 + j := ⟨i - (s + 1), by omega⟩
          rw [show s + 1 + j - (s + 1) = j by omega] at m2
          rw [show s + 1 + j - s = j + 1 by omega]
          simpa using m2
  rcases key Ms 0 none h with h | ⟨m, -, m2, m3⟩
  · cases h
  · exact ⟨m, by simpa using m2, m3⟩

/-- mean over the values = mean over the rows -/
theorem hyperMean_eq {g : HyperGrid K} {D : List K} {a : ℕ} (hr : ∀ r ∈ g.rows, a < r.length) :
    expectation (sortedValues (g.rows.map fun r => r.getD a 0)) ((sortedValues (g.rows.map fun r => r.getD a 0)).map (probOf g.rows D g.hgc.prod a)) =
      hyperMean g D a := by
  set vals := sortedValues (g.rows.map fun r => r.getD a 0) with hv
  have hnd : vals.Nodup := (sortedValues_sorted _).imp fun h => ne_of_lt h
  have hp : ∀ v, v * probOf g.rows D g.hgc.prod a v =
      ((g.rows.zip D).map fun q => if q.1.getD a 0 = v then q.1.getD a 0 * q.2 * g.hgc.prod else 0).sum := by
    intro v
    unfold probOf
    rw [Props.filter_map_sum, ← List.sum_map_mul_left]
    congr 1
    apply List.map_congr_left
    intro q hq
    have ha := hr q.1 (List.of_mem_zip hq).1
    rw [List.getElem?_eq_getElem ha, List.getD_eq_getElem?_getD, List.getElem?_eq_getElem ha]
    by_cases h : q.1[a] = v
    · simp [h, mul_assoc]
    · simp [h]
  have e1 : expectation vals (vals.map (probOf g.rows D g.hgc.prod a)) = (vals.map fun v => v * probOf g.rows D g.hgc.prod a v).sum := by
    rw [expectation, List.zipWith_map_right, List.zipWith_self]
  rw [e1, List.map_congr_left (fun v _ => hp v)]
  rw [sum_by_value (fun q : List K × K => q.1.getD a 0) (fun q => q.1.getD a 0 * q.2 * g.hgc.prod) vals hnd (g.rows.zip D) (by
      intro q hq
      rw [hv, sortedValues_mem, List.mem_map]
      exact ⟨q.1, (List.of_mem_zip hq).1, rfl⟩)]
  rw [hyperMean, List.zip, List.map_zipWith]

end BL

namespace Props
open BL Spec
variable {K D : Type} [Field K] [LinearOrder K] [IsStrictOrderedRing K] {d : ℕ} {gs : Fin d → ℕ}

/-- **C64 (parameters, all times).** After every history of calls in which the steps succeeded, with at least one complete data segment: the list of mean values of every parameter
has one entry for every segment, and entry `k` is the expectation of the distribution reported for the time of this segment (nan if the distribution is not defined). -/
theorem C64_parameters_partial (c : OConf K D gs) (h1 : 1 ≤ c.seg) (prior : PriorSpec K gs) (qs : List (OCall K D)) (S : OState K D gs) (out : List (Option PyErr))
    (hr : execAll c (OState.new true prior) qs = (S, out)) (hs : StepsSucceed qs out) (hn0 : c.seg ≤ (fedData qs).length)
    (name : String) (hn : ∃ a, c.E.names a = name) :
    ∃ ms, S.getMeans c name = .ok ms ∧ ms.length = (movingWindow (fedData qs) c.seg).length ∧
      ∀ k < ms.length, ∃ x p, (S.getParameterDistribution c (.at ((k + (c.seg - 1) : ℕ) : K)) name false).2 = .ok (x, p) ∧
        ms[k]? = some (p.map (expectation x)) := by
  have hi := execAll_hist h1 qs _ [] (new_hist h1 true prior) (by rw [hr]; exact hs)
  have hm := execAll_means h1 qs _ [] (new_hist h1 true prior) (by rw [hr]; exact hs) rfl
  rw [List.nil_append, hr] at hi
  rw [hr] at hm
  simp only at hi hm
  obtain ⟨a, ha, -⟩ := paramIndex_some hn
  have hpl : S.posts.entries.length = (fedData qs).length + 1 - c.seg := by simpa using hi.posts
  have hml : S.means.length = (fedData qs).length + 1 - c.seg := by simpa using hi.means
  refine ⟨S.means.map fun m => m.map (· a), ?_, ?_, ?_⟩
  · unfold OState.getMeans
    rw [if_neg (by rw [hi.store_eq]; simp), ha]
    simp only
    rw [if_neg (by omega)]
  · rw [List.length_map, hml, movingWindow_len]
  · intro k hk
    rw [List.length_map] at hk
    obtain ⟨p, hp⟩ : ∃ p, S.posts.entries[k]? = some p := ⟨_, List.getElem?_eq_getElem (by omega)⟩
    refine ⟨_, _, hi.distribution h1 ha false (by omega) hp, ?_⟩
    rw [List.getElem?_map, hm, List.getElem?_map, hp]
    cases p with
    | none => rfl
    | some p =>
        simp only [Option.map_some, Option.bind_some, toDensity, Bool.false_eq_true, ↓reduceIte]
        rw [marginal_ofFn, marginal_mean]

/-- **C64 (parameters, current).** In every state the current mean value of a parameter is the expectation of the current distribution. -/
theorem C64_current_partial (c : OConf K D gs) (S : OState K D gs) (name : String) (x : List K) (p : Option (List K))
    (h : S.getCurrentParameterDistribution c name false = .ok (x, p)) : S.getCurrentMean c name = .ok (p.map (expectation x)) := by
  unfold OState.getCurrentParameterDistribution at h
  unfold OState.getCurrentMean
  cases ha : paramIndex c.E.names name with
  | none => simp [ha] at h
  | some a =>
      simp only [ha, Except.ok.injEq, Prod.mk.injEq] at h ⊢
      obtain ⟨rfl, rfl⟩ := h
      cases S.marg with
      | none => rfl
      | some p =>
          simp only [Option.map_some, Option.bind_some, toDensity, Bool.false_eq_true, ↓reduceIte]
          rw [marginal_ofFn, marginal_mean]

/-- **C64 (hyper-parameters).** All sets of models, hyper-grids, priors and data: the mean value of a hyper-parameter at a time is the expectation of the distribution reported for
this time, and it is the entry of the list of mean values. -/
theorem C64_hyper_partial (c : OConf K D gs) (h1 : 1 ≤ c.seg) (hcell : 0 ≤ c.E.cell) (ms : List (String × TM K)) (hg : GoodModels ms) (hnn : NonnegPriors ms)
    (hne : ms ≠ []) (prior : PriorSpec K gs) (p : Option (List K)) (S S' : OState K D gs) (hs : setup true prior ms p = .ok S) (xs : List D)
    (hr : runSteps c S xs = .ok S') (name : String) (vals : List K) (rows : List (Option (List K))) (hH : S'.getHPDs name = .ok (vals, rows))
    (k : ℕ) (row : List K) (hk : rows[k]? = some (some row)) :
    S'.getHyperMean ((k + (c.seg - 1) : ℕ) : K) name = .ok (some (expectation vals row)) ∧
      ∃ l, S'.getHyperMeans name = .ok l ∧ l[k]? = some (some (expectation vals row)) := by
  have hh := runSteps_hist h1 (setup_hist h1 hs) xs S' hr
  have hst : ¬ S'.store = false := by rw [hh.store_eq]; simp
  have hhl : S'.hpds.length = xs.length + 1 - c.seg := by simpa using hh.hpds
  unfold OState.getHPDs at hH
  rw [if_neg hst] at hH
  cases hfind : findHyper S'.models name with
  | none => simp [hfind] at hH
  | some ia =>
  obtain ⟨i, a⟩ := ia
  obtain ⟨m, hm, hix⟩ := findHyper_found hfind
  simp only [hfind, hm] at hH
  by_cases h0 : S'.hpds.length = 0
  · simp [h0] at hH
  simp only [h0, ↓reduceIte, bind, Except.bind] at hH
  cases hL : mapE (fun k => hpdAt S' k i) (List.range S'.hpds.length) with
  | error e => simp [hL] at hH
  | ok L =>
  simp only [hL, Except.ok.injEq, Prod.mk.injEq] at hH
  obtain ⟨rfl, rfl⟩ := hH
  have hLF := mapE_ok.1 hL
  have hLl : L.length = S'.hpds.length := by rw [← hLF.length_eq, List.length_range]
  have hk1 : k < L.length := by simpa using (List.getElem?_eq_some_iff.1 hk).1
  rw [List.getElem?_map, List.getElem?_eq_getElem hk1, Option.map_some, Option.some.injEq] at hk
  cases hD : L[k] with
  | none => simp [hD] at hk
  | some Dk =>
  rw [hD, Option.bind_some] at hk
  have hat : hpdAt S' k i = .ok (some Dk) := by
    have := (List.forall₂_iff_get.1 hLF).2 k (by rw [List.length_range]; omega) hk1
    simpa [hD] using this
  -- the model
  have hseg : c.seg ≤ xs.length := by omega
  have hx0 : xs ≠ [] := by rintro rfl; simp at hseg; omega
  obtain ⟨i1, -⟩ := setup_inv h1 hs
  have hi := runSteps_inv h1 hg hne xs [] S S' i1 hr
  rw [List.nil_append] at hi
  obtain ⟨-, a0, -, -, -, a3, -⟩ := hi.after hseg
  have himem : i < ms.length := by rw [a3.length_eq]; exact (List.getElem?_eq_some_iff.1 hm).1
  have hb := Built.matched (hg ms[i] (List.getElem_mem himem)).1
  have h3 := (List.forall₂_iff_get.1 a3).2 i himem (List.getElem?_eq_some_iff.1 hm).1
  simp only [List.get_eq_getElem, (List.getElem?_eq_some_iff.1 hm).2] at h3
  have hgr := h3.1.grid
  rw [hyperIndex_shape hb.proper h3.1.shape] at hix
  have halt : a < (entries ms[i].2).length := by
    unfold TM.hyperIndex at hix
    rw [entries_names _ hb.proper] at hix
    split at hix
    · rename_i hmem
      cases hix
      have := List.idxOf_lt_length_of_mem hmem
      simpa using this
    · cases hix
  have hent : entries ms[i].2 ≠ [] := by intro h; rw [h] at halt; simp at halt
  have hrl : ∀ r ∈ m.grid.rows, a < r.length := by
    intro r hr
    rw [(createHyperGrid_eq hb.proper hgr).2.2.2, if_neg hent] at hr
    have := ((cart_mem _ _).1 hr).length_eq
    rw [this, axes, List.length_map]
    exact halt
  have hfacts : Dk.length = m.grid.rows.length ∧ (Dk.map (· * m.grid.hgc.prod)).sum = 1 := by
    obtain ⟨Ms, m1, m2⟩ := hpds_inv h1 hcell hg hnn hne hs xs S' hr S'.hpds[k] (List.getElem_mem (by omega))
    have hil : i < Ms.length := by rw [← m2.length_eq]; exact himem
    have hDk : Ms[i].hpd = some Dk := by
      unfold hpdAt at hat
      rw [List.getElem?_eq_getElem (by omega)] at hat
      simp only [m1, List.getElem?_map, List.getElem?_eq_getElem hil, Option.map_some, Except.ok.injEq] at hat
      exact hat
    have hf := (List.forall₂_iff_get.1 m2).2 i himem hil
    simp only [List.get_eq_getElem] at hf
    have hgg : (Ms[i]).grid = m.grid := by
      have := hf.1
      rw [hgr] at this
      exact (Except.ok.inj this).symm
    obtain ⟨f1, -, f3, -⟩ := BL.Finished.hpd_facts hf.2 hDk
    have fl := BL.Finished.len hb hf.1 hf.2 hent
    rw [hgg] at f3 fl
    exact ⟨by rw [f1, fl], f3⟩
  rw [(marginalRow_eq hfacts.1 hrl hfacts.2).1, Option.some.injEq] at hk
  have hmean : expectation (sortedValues (m.grid.rows.map fun r => r.getD a 0)) row = hyperMean m.grid Dk a := by
    rw [← hk]; exact hyperMean_eq hrl
  constructor
  · unfold OState.getHyperMean
    rw [if_neg hst, hfind]
    simp only
    rw [hh.index h1 (by omega)]
    simp only [hm, hat, Except.map, Option.map_some, hmean]
  · have hG : ∃ l, S'.getHyperMeans name = .ok l ∧ l = L.map fun p => p.map fun p => hyperMean m.grid p a := by
      refine ⟨_, ?_, rfl⟩
      unfold OState.getHyperMeans
      rw [if_neg hst, hfind]
      simp only [hm]
      rw [if_neg h0]
      refine mapE_ok.2 ?_
      rw [List.forall₂_map_right_iff]
      exact hLF.imp fun j r hj => by rw [hj]; rfl
    obtain ⟨l, l1, rfl⟩ := hG
    exact ⟨_, l1, by rw [List.getElem?_map, List.getElem?_eq_getElem hk1, hD, hmean]; rfl⟩

end Props

namespace Props
open BL Spec Ex

/-- The claim fails for the query with one time: `getMean 0` does not return the expectation of the distribution at time 0. -/
theorem C64_refuted : ∃ (x p : List ℚ) (y : Option ℚ), (after2.getParameterDistribution och (.at 0) "x" false).2 = .ok (x, some p) ∧
    after2.getMean och 0 "x" = .ok y ∧ y ≠ some (expectation x p) := by
  have h : (holds (after2.getParameterDistribution och (.at 0) "x" false).2 fun r => match r.2 with
      | some p => holds (after2.getMean och 0 "x") fun y => decide (y ≠ some (expectation r.1 p))
      | none => false) = true := by decide +kernel
  obtain ⟨⟨x, p⟩, r1, r2⟩ := holds_iff.1 h
  cases p with
  | none => cases r2
  | some p =>
      obtain ⟨y, y1, y2⟩ := holds_iff.1 r2
      exact ⟨x, p, y, r1, y1, of_decide_eq_true y2⟩

/-- the assumptions of `C64_parameters_partial` can be met: history with two models and two data points -/
example : ∃ S out, execAll och (OState.new true .none) hist2 = (S, out) ∧ StepsSucceed hist2 out ∧ och.seg ≤ (fedData hist2).length ∧
    och.E.names 0 = "x" ∧ (S.getMeans och "x").toOption = some [some (3 / 4), some (17 / 31)] := by
  have h : (execAll och (OState.new true .none) hist2).2 = [none, none, none, none] := by decide +kernel
  refine ⟨(execAll och (OState.new true .none) hist2).1, (execAll och (OState.new true .none) hist2).2, rfl, ?_, by decide +kernel, rfl, by decide +kernel⟩
  rw [h]
  intro i x hx
  have hi : i < 4 := by
    have := (List.getElem?_eq_some_iff.1 hx).1
    simpa [hist2] using this
  interval_cases i <;> simp [hist2] at hx ⊢

/-- the assumption of `C64_current_partial` can be met -/
example : ∃ x p, after2.getCurrentParameterDistribution och "x" false = .ok (x, some p) ∧ expectation x p = 17 / 31 := by
  have h : (holds (after2.getCurrentParameterDistribution och "x" false) fun r => match r.2 with
      | some p => decide (expectation r.1 p = 17 / 31)
      | none => false) = true := by decide +kernel
  obtain ⟨⟨x, p⟩, r1, r2⟩ := holds_iff.1 h
  cases p with
  | none => cases r2
  | some p => exact ⟨x, p, r1, of_decide_eq_true r2⟩

/-- the assumptions of `C64_hyper_partial` can be met; the mean at the second time is `11/42` -/
example : ∃ (S S' : OState ℚ (ℚ × ℚ) gs2) (rows : List (Option (List ℚ))), GoodModels two ∧ NonnegPriors two ∧ setup true .none two none = .ok S ∧
    runSteps oc S [(1 / 4, 3 / 4), (1 / 2, 1 / 4)] = .ok S' ∧ S'.getHPDs "sigma" = .ok ([0, 1 / 2], rows) ∧ rows[1]? = some (some [10 / 21, 11 / 21]) ∧
    expectation [0, 1 / 2] [10 / 21, 11 / 21] = (11 / 42 : ℚ) := by
  have h1 : holds (orun true .none two none [(1 / 4, 3 / 4), (1 / 2, 1 / 4)])
      (fun S' => holds (S'.getHPDs "sigma") fun r => decide (r.1 = [0, 1 / 2] ∧ r.2[1]? = some (some [10 / 21, 11 / 21]))) = true := by decide +kernel
  obtain ⟨S', a1, a2⟩ := holds_iff.1 h1
  obtain ⟨S, b1, b2⟩ := orun_ok a1
  obtain ⟨⟨x, A⟩, c1, c2⟩ := holds_iff.1 a2
  obtain ⟨rfl, h⟩ := of_decide_eq_true c2
  exact ⟨S, S', A, good_two, nonneg_two, b1, b2, c1, h, by decide +kernel⟩

end Props
