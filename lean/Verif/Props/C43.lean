import Verif.Props.C41
import Mathlib.Tactic.IntervalCases

/-! # C43: histories of online studies -/

set_option linter.unusedSectionVars false

namespace Spec
open BL
variable {K D : Type} [Field K] [LinearOrder K] {d : ℕ} {gs : Fin d → ℕ}

/-- The data of all `step` calls of a history, in order. -/
def fedData : List (OCall K D) → List D
  | [] => []
  | .step x :: qs => x :: fedData qs
  | _ :: qs => fedData qs

/-- Did every `step` call succeed?  (Other calls may have raised exceptions.) -/
def StepsSucceed (qs : List (OCall K D)) (outcomes : List (Option PyErr)) : Prop :=
  ∀ (i : ℕ) (x : D), qs[i]? = some (OCall.step x) → outcomes[i]? = some none

end Spec

namespace BL
open Spec
variable {K D : Type} [Field K] [LinearOrder K] [IsStrictOrderedRing K] {d : ℕ} {gs : Fin d → ℕ}

/-- `S'` has the data and histories of `S` -/
structure SameHist (S S' : OState K D gs) : Prop where
  store : S'.store = S.store
  raw : S'.rawData = S.rawData
  rawTs : S'.rawTs = S.rawTs
  fts : ∀ f, S.fts = some f → ∃ f', S'.fts = some f' ∧ f'.entries = f.entries
  means : S'.means = S.means
  posts : S'.posts.entries = S.posts.entries
  hpds : S'.hpds = S.hpds
  tmds : S'.tmds = S.tmds
  ltmds : S'.ltmds = S.ltmds

theorem SameHist.refl (S : OState K D gs) : SameHist S S := ⟨rfl, rfl, rfl, fun f h => ⟨f, h, rfl⟩, rfl, rfl, rfl, rfl, rfl⟩

theorem SameHist.of_models {S S' : OState K D gs} (h : ∃ m cur p, S' = { S with models := m, current := cur, tmPrior := p }) : SameHist S S' := by
  obtain ⟨m, cur, p, rfl⟩ := h
  exact ⟨rfl, rfl, rfl, fun f h => ⟨f, h, rfl⟩, rfl, rfl, rfl, rfl, rfl⟩

theorem setTM_hist (S : OState K D gs) (tm : TM K) : ∃ m cur p, (S.setTM tm).1 = { S with models := m, current := cur, tmPrior := p } := by
  unfold OState.setTM
  split
  · exact ⟨S.models, S.current, S.tmPrior, rfl⟩
  · exact ⟨S.models, some tm, S.tmPrior, rfl⟩

theorem add_hist (S : OState K D gs) (n : String) (tm : TM K) : ∃ m cur p, (S.add n tm).1 = { S with models := m, current := cur, tmPrior := p } := by
  obtain ⟨m, cur, p, h⟩ := setTM_hist S tm
  unfold OState.add
  split
  · rename_i hs; rw [hs] at h; exact ⟨m, cur, p, h⟩
  · rename_i hs
    rw [hs] at h
    simp only at h
    subst h
    split
    · exact ⟨m, cur, p, rfl⟩
    · split
      · exact ⟨m, cur, p, rfl⟩
      · exact ⟨_, cur, p, rfl⟩

theorem toArrays_hist (S : OState K D gs) : SameHist S S.toArrays := by
  refine ⟨rfl, rfl, rfl, fun f h => ?_, rfl, ?_, rfl, rfl, rfl⟩
  · exact ⟨_, rfl, by simp [h, PySeq.entries]⟩
  · simp [OState.toArrays, PySeq.toArray, PySeq.entries]

theorem toLists_hist (S : OState K D gs) : SameHist S S.toArrays.toLists := by
  refine ⟨rfl, rfl, rfl, fun f h => ?_, rfl, ?_, rfl, rfl, rfl⟩
  · exact ⟨_, rfl, by simp [h, PySeq.entries, PySeq.toList]⟩
  · simp [OState.toArrays, OState.toLists, PySeq.toArray, PySeq.toList, PySeq.entries]

theorem query_hist (c : OConf K D gs) (S : OState K D gs) (q : OQuery K) : SameHist S (q.exec c S).1 := by
  have hpd : ∀ t n b, SameHist S (S.getParameterDistribution c t n b).1 := by
    intro t n b
    unfold OState.getParameterDistribution
    split
    · exact .refl S
    · split
      · exact toArrays_hist S
      · exact toLists_hist S
  cases q with
  | parameterDistribution t n b => exact hpd t n b
  | pd t n b => exact hpd t n true
  | parameterDistributions n b =>
      change SameHist S (S.getParameterDistributions c n b).1
      unfold OState.getParameterDistributions
      split
      · exact .refl S
      · split
        · exact toArrays_hist S
        · exact toLists_hist S
  | currentHPD n =>
      change SameHist S (S.getCurrentHPD n).1
      unfold OState.getCurrentHPD
      split
      · exact .refl S
      · split
        · exact .refl S
        · split
          · exact .refl S
          · split
            · exact .refl S
            · split
              · exact .refl S
              · split
                · exact .refl S
                · simp only
                  split
                  · exact .of_models ⟨_, S.current, S.tmPrior, rfl⟩
                  · exact .refl S
  | _ => exact .refl S

theorem call_hist (c : OConf K D gs) (S : OState K D gs) (q : OCall K D) (h : ∀ x, q ≠ .step x) : SameHist S (q.exec c S).1 := by
  cases q with
  | add n tm => exact .of_models (add_hist S n tm)
  | setTM tm => exact .of_models (setTM_hist S tm)
  | setPrior p =>
      apply SameHist.of_models
      change ∃ m cur p', (S.setTMPrior p).1 = _
      unfold OState.setTMPrior
      split
      · exact ⟨S.models, S.current, S.tmPrior, rfl⟩
      · split
        · exact ⟨S.models, S.current, some p, rfl⟩
        · split
          · exact ⟨S.models, S.current, none, rfl⟩
          · exact ⟨S.models, S.current, _, rfl⟩
  | step x => exact absurd rfl (h x)
  | query q => exact query_hist c S q

/-- the study after the data `xs`, as far as histories are concerned -/
structure HInv (c : OConf K D gs) (store : Bool) (xs : List D) (S : OState K D gs) : Prop where
  store_eq : S.store = store
  raw : S.rawData = xs
  times : xs ≠ [] → S.rawTs = some (stamps xs.length) ∧ ∃ f, S.fts = some f ∧ f.entries = (stamps xs.length).drop (c.seg - 1)
  means : S.means.length = if store then xs.length + 1 - c.seg else 0
  posts : S.posts.entries.length = if store then xs.length + 1 - c.seg else 0
  hpds : S.hpds.length = if store then xs.length + 1 - c.seg else 0
  tmds : S.tmds.length = if store then xs.length + 1 - c.seg else 0
  ltmds : S.ltmds.length = if store then xs.length + 1 - c.seg else 0

theorem HInv.of_same {c : OConf K D gs} {store : Bool} {xs : List D} {S S' : OState K D gs} (hi : HInv c store xs S) (h : SameHist S S') : HInv c store xs S' where
  store_eq := h.store.trans hi.store_eq
  raw := h.raw.trans hi.raw
  times := fun hx => by
    obtain ⟨a, f, b, e⟩ := hi.times hx
    obtain ⟨f', b', e'⟩ := h.fts f b
    exact ⟨h.rawTs.trans a, f', b', e'.trans e⟩
  means := by rw [h.means]; exact hi.means
  posts := by rw [h.posts]; exact hi.posts
  hpds := by rw [h.hpds]; exact hi.hpds
  tmds := by rw [h.tmds]; exact hi.tmds
  ltmds := by rw [h.ltmds]; exact hi.ltmds

theorem PySeq.append_entries {α : Type} {s s' : PySeq α} {a : α} (h : s.append a = .ok s') : s'.entries = s.entries ++ [a] := by
  cases s with
  | list l => simp only [PySeq.append, Except.ok.injEq] at h; subst h; rfl
  | ndarray l => simp [PySeq.append] at h

/-- the effect of a recorded analysis on the history -/
theorem record_hist {c : OConf K D gs} {S S' : OState K D gs} (h : S.record c = (S', none)) :
    S'.store = S.store ∧ S'.rawData = S.rawData ∧ S'.rawTs = S.rawTs ∧ S'.fts = S.fts ∧ S'.marg = S.marg ∧ S'.tmd = S.tmd ∧ S'.ltmd = S.ltmd ∧ S'.models = S.models ∧
    S'.means = S.means ++ (if S.store then [S.marg.map fun p a => mean c.grid a p] else []) ∧
    S'.posts.entries = S.posts.entries ++ (if S.store then [S.marg] else []) ∧
    S'.hpds = S.hpds ++ (if S.store then [S.models.map OModelSt.hpd] else []) ∧
    S'.tmds = S.tmds ++ (if S.store then [S.tmd] else []) ∧
    S'.ltmds = S.ltmds ++ (if S.store then [S.ltmd] else []) := by
  unfold OState.record at h
  by_cases hs : S.store = true
  · simp only [hs, ↓reduceIte] at h
    split at h
    · cases h
    · rename_i ps hps
      cases h
      have := PySeq.append_entries hps
      simp [hs, this]
  · simp only [hs, Bool.false_eq_true, ↓reduceIte] at h
    cases h
    simp [hs]

theorem analyse_hist {c : OConf K D gs} {S S' : OState K D gs} {L : Idx gs → K} (h : S.analyse c L = .ok S') :
    S'.store = S.store ∧ S'.rawData = S.rawData ∧ S'.rawTs = S.rawTs ∧ S'.fts = S.fts ∧ S'.means = S.means ∧ S'.posts = S.posts ∧
    S'.hpds = S.hpds ∧ S'.tmds = S.tmds ∧ S'.ltmds = S.ltmds := by
  obtain ⟨S1, first, ms, h1, -, -, rfl⟩ := analyse_ok h
  unfold OState.initialise at h1
  split at h1
  · simp only [bind, Except.bind] at h1
    split at h1
    · cases h1
    · cases h1
      exact ⟨rfl, rfl, rfl, rfl, rfl, rfl, rfl, rfl, rfl⟩
  · cases h1
    exact ⟨rfl, rfl, rfl, rfl, rfl, rfl, rfl, rfl, rfl⟩

/-- what a successful step appends to the histories -/
structure Appended (c : OConf K D gs) (S S' : OState K D gs) (xs : List D) : Prop where
  store : S'.store = S.store
  raw : S'.rawData = xs
  means : S'.means = S.means ++ (if S.store && decide (c.seg ≤ xs.length) then [S'.marg.map fun p a => mean c.grid a p] else [])
  posts : S'.posts.entries = S.posts.entries ++ (if S.store && decide (c.seg ≤ xs.length) then [S'.marg] else [])
  hpds : S'.hpds = S.hpds ++ (if S.store && decide (c.seg ≤ xs.length) then [S'.models.map OModelSt.hpd] else [])
  tmds : S'.tmds = S.tmds ++ (if S.store && decide (c.seg ≤ xs.length) then [S'.tmd] else [])
  ltmds : S'.ltmds = S.ltmds ++ (if S.store && decide (c.seg ≤ xs.length) then [S'.ltmd] else [])

theorem proceed_hist {c : OConf K D gs} {S S' : OState K D gs} (h1 : 1 ≤ c.seg) (hl : 1 ≤ S.rawData.length)
    (hts : S.rawTs = some (stamps S.rawData.length)) (hf : ∃ f, S.fts = some f ∧ f.entries = (stamps (S.rawData.length - 1)).drop (c.seg - 1))
    (h : S.proceed c = (S', none)) : Appended c S S' S.rawData ∧ S'.rawTs = S.rawTs ∧
      ∃ f, S'.fts = some f ∧ f.entries = (stamps S.rawData.length).drop (c.seg - 1) := by
  obtain ⟨n, hn⟩ : ∃ n, S.rawData.length = n + 1 := ⟨S.rawData.length - 1, by omega⟩
  obtain ⟨f, hf1, hf2⟩ := hf
  rw [hn, Nat.add_sub_cancel] at hf2
  rcases proceed_ok h with ⟨hlt, rfl⟩ | ⟨hle, f0, t, f', S2, b1, b2, b3, b4, b5⟩
  · have hd : decide (c.seg ≤ S'.rawData.length) = false := by simp; omega
    refine ⟨⟨rfl, rfl, ?_, ?_, ?_, ?_, ?_⟩, rfl, f, hf1, ?_⟩
    iterate 5 (rw [hd]; simp)
    rw [hf2, hn, List.drop_eq_nil_of_le (by rw [stamps_length]; omega), List.drop_eq_nil_of_le (by rw [stamps_length]; omega)]
  · obtain ⟨a1, a2, a3, a4, a5, a6, a7, a8, a9⟩ := analyse_hist b4
    obtain ⟨r1, r2, r3, r4, r5, r6, r7, r8, r9, r10, r11, r12, r13⟩ := record_hist b5
    have hd : decide (c.seg ≤ S.rawData.length) = true := by simpa using hle
    refine ⟨⟨r1.trans a1, r2.trans a2, ?_, ?_, ?_, ?_, ?_⟩, r3.trans a3, f', ?_, ?_⟩
    · rw [r9, a5, a1, hd, r5]; simp
    · rw [r10, a6, a1, hd, r5]; simp
    · rw [r11, a7, a1, hd, r8]; simp
    · rw [r12, a8, a1, hd, r6]; simp
    · rw [r13, a9, a1, hd, r7]; simp
    · rw [r4, a4]
    · rw [hf1] at b1
      cases b1
      rw [PySeq.append_entries b3, hf2, hn, stamps_succ, List.drop_append_of_le_length (by rw [stamps_length]; omega)]
      rw [hts, hn, stamps_succ] at b2
      simp only [Option.bind_some, List.getLast?_append, List.getLast?_singleton, Option.some_or, Option.some.injEq] at b2
      rw [b2]

theorem len_appended {α : Type} (store : Bool) (xs : List D) (v : α) {x : D} {n : ℕ} :
    (if store then xs.length + 1 - n else 0) + (if store && decide (n ≤ (xs ++ [x]).length) then [v] else []).length =
      if store then (xs ++ [x]).length + 1 - n else 0 := by
  cases store
  · simp
  · rw [List.length_append, List.length_singleton]
    by_cases hs : n ≤ xs.length + 1
    · simp only [hs, decide_true, Bool.and_true, ↓reduceIte, List.length_singleton]; omega
    · simp only [hs, decide_false, Bool.and_false, ↓reduceIte, List.length_nil, Bool.false_eq_true]; omega

theorem step_hist {c : OConf K D gs} {store : Bool} {S S' : OState K D gs} {xs : List D} {x : D} (h1 : 1 ≤ c.seg)
    (hi : HInv c store xs S) (h : S.step (some c) x = (S', none)) : Appended c S S' (xs ++ [x]) ∧ HInv c store (xs ++ [x]) S' := by
  have core : ∀ T : OState K D gs, SameHist S T → T.stepAdded (some c) x = (S', none) → Appended c S S' (xs ++ [x]) ∧ HInv c store (xs ++ [x]) S' := by
    intro T hT h
    have hiT := hi.of_same hT
    have hA : ∃ U : OState K D gs, U.rawData = xs ++ [x] ∧ U.rawTs = some (stamps (xs.length + 1)) ∧
        (∃ f, U.fts = some f ∧ f.entries = (stamps xs.length).drop (c.seg - 1)) ∧ U.proceed c = (S', none) ∧
        U.store = T.store ∧ U.means = T.means ∧ U.posts = T.posts ∧ U.hpds = T.hpds ∧ U.tmds = T.tmds ∧ U.ltmds = T.ltmds := by
      unfold OState.stepAdded at h
      by_cases h0 : T.rawData.length = 0
      · have hx : xs = [] := by rw [← hiT.raw]; exact List.length_eq_zero_iff.1 h0
        subst hx
        simp only [h0, ↓reduceIte] at h
        split at h
        · cases h
        · exact ⟨_, rfl, by simp [stamps], ⟨_, rfl, by simp [stamps, PySeq.entries]⟩, h, rfl, rfl, rfl, rfl, rfl, rfl⟩
      · simp only [h0, ↓reduceIte] at h
        have hx : xs ≠ [] := by rintro rfl; rw [hiT.raw] at h0; exact h0 rfl
        obtain ⟨e1, f, e2, e3⟩ := hiT.times hx
        obtain ⟨n, hn⟩ : ∃ n, xs.length = n + 1 := ⟨xs.length - 1, by have := List.length_pos_iff.2 hx; omega⟩
        have e4 : (stamps xs.length : List K).getLast?.map (fun t => stamps xs.length ++ [t + 1]) = some (stamps (xs.length + 1)) := by
          rw [hn, stamps_succ (n + 1), stamps_succ n]
          simp
        simp only [e1, Option.bind_some] at h
        rw [e4] at h
        exact ⟨{ T with rawData := T.rawData ++ [x], rawTs := some (stamps (xs.length + 1)) }, by simp [hiT.raw], rfl, ⟨f, e2, e3⟩, h, rfl, rfl, rfl, rfl, rfl, rfl⟩
    obtain ⟨U, u1, u2, ⟨f, u3, u4⟩, u5, u6, u7, u8, u9, u10, u11⟩ := hA
    have hl : U.rawData.length = xs.length + 1 := by rw [u1]; simp
    obtain ⟨p1, p2, g, p3, p4⟩ := proceed_hist h1 (by omega) (by rw [u2, hl]) ⟨f, u3, by rw [hl]; exact u4⟩ u5
    have hap : Appended c S S' (xs ++ [x]) := by
      refine ⟨?_, by rw [p1.raw, u1], ?_, ?_, ?_, ?_, ?_⟩
      · rw [p1.store, u6, hT.store]
      · rw [p1.means, u7, hT.means, u6, hT.store, u1]
      · rw [p1.posts, u8, hT.posts, u6, hT.store, u1]
      · rw [p1.hpds, u9, hT.hpds, u6, hT.store, u1]
      · rw [p1.tmds, u10, hT.tmds, u6, hT.store, u1]
      · rw [p1.ltmds, u11, hT.ltmds, u6, hT.store, u1]
    refine ⟨hap, ⟨by rw [hap.store, hi.store_eq], hap.raw, fun _ => ⟨by rw [p2, u2]; simp, g, p3, by rw [p4, hl]; simp⟩, ?_, ?_, ?_, ?_, ?_⟩⟩
    · rw [hap.means, List.length_append, hi.means, hi.store_eq]; exact len_appended _ _ _
    · rw [hap.posts, List.length_append, hi.posts, hi.store_eq]; exact len_appended _ _ _
    · rw [hap.hpds, List.length_append, hi.hpds, hi.store_eq]; exact len_appended _ _ _
    · rw [hap.tmds, List.length_append, hi.tmds, hi.store_eq]; exact len_appended _ _ _
    · rw [hap.ltmds, List.length_append, hi.ltmds, hi.store_eq]; exact len_appended _ _ _
  unfold OState.step at h
  split at h
  · cases h
  · rename_i tm _ _
    split at h
    · cases h
    · rename_i T hT
      have := SameHist.of_models (add_hist S "transition model" tm)
      rw [hT] at this
      exact core T this h
  · exact core S (.refl S) h

end BL

namespace Props
open BL Spec
variable {K D : Type} [Field K] [LinearOrder K] [IsStrictOrderedRing K] {d : ℕ} {gs : Fin d → ℕ}

theorem execAll_hist {c : OConf K D gs} {store : Bool} (h1 : 1 ≤ c.seg) : ∀ (qs : List (OCall K D)) (S : OState K D gs) (xs : List D), HInv c store xs S →
    StepsSucceed qs (execAll c S qs).2 → HInv c store (xs ++ fedData qs) (execAll c S qs).1
  | [], S, xs, hi, _ => by simpa [execAll, fedData] using hi
  | q :: qs, S, xs, hi, hs => by
      have hs' : StepsSucceed qs (execAll c (q.exec c S).1 qs).2 := fun i x hx => by
        have := hs (i + 1) x (by simpa using hx)
        simpa [execAll] using this
      by_cases hq : ∃ x, q = .step x
      · obtain ⟨x, rfl⟩ := hq
        have h0 := hs 0 x (by simp)
        simp only [execAll, List.getElem?_cons_zero, Option.some.injEq] at h0
        have hr : S.step (some c) x = ((OCall.exec c S (.step x)).1, none) := by
          rw [← h0]; rfl
        have := execAll_hist h1 qs _ _ (step_hist h1 hi hr).2 hs'
        rw [List.append_assoc] at this
        exact this
      · have := execAll_hist h1 qs _ xs (hi.of_same (call_hist c S q fun x hx => hq ⟨x, hx⟩)) hs'
        have e : fedData (q :: qs) = fedData qs := by
          cases q with
          | step x => exact absurd ⟨x, rfl⟩ hq
          | _ => rfl
        rw [e]
        exact this

theorem new_hist {c : OConf K D gs} (h1 : 1 ≤ c.seg) (store : Bool) (prior : PriorSpec K gs) : HInv c store [] (OState.new store prior) := by
  refine ⟨rfl, rfl, fun h => absurd rfl h, ?_, ?_, ?_, ?_, ?_⟩ <;> (cases store <;> simp [OState.new, PySeq.entries]; try omega)

/-- **C43.** Every history of calls on a new study (models may be added, priors set and queries made at any time; calls other than `step` may
raise exceptions which the caller catches), every segment length: if all steps succeeded, all data are kept in order and, with `storeHistory`, every history
contains one entry per complete data segment; time stamps count from 0 and those of incomplete segments are left out; without `storeHistory` the histories stay empty. -/
theorem C43 (c : OConf K D gs) (h1 : 1 ≤ c.seg) (store : Bool) (prior : PriorSpec K gs) (qs : List (OCall K D)) (S : OState K D gs) (out : List (Option PyErr))
    (hr : execAll c (OState.new store prior) qs = (S, out)) (hs : StepsSucceed qs out) :
    S.rawData = fedData qs ∧
    (fedData qs ≠ [] → ∃ f, S.fts = some f ∧ f.entries = ((List.range (fedData qs).length).map fun i : ℕ => (i : K)).drop (c.seg - 1)) ∧
    (∀ l ∈ [S.posts.entries.length, S.means.length, S.hpds.length, S.tmds.length, S.ltmds.length],
      l = if store then (movingWindow (fedData qs) c.seg).length else 0) ∧
    (movingWindow (fedData qs) c.seg).length = (fedData qs).length + 1 - c.seg := by
  have hi := execAll_hist h1 qs _ [] (new_hist h1 store prior) (by rw [hr]; exact hs)
  rw [List.nil_append, hr] at hi
  refine ⟨hi.raw, fun hx => (hi.times hx).2, ?_, movingWindow_len _ _⟩
  intro l hl
  rw [movingWindow_len]
  simp only [List.mem_cons, List.not_mem_nil, or_false] at hl
  rcases hl with rfl | rfl | rfl | rfl | rfl
  · exact hi.posts
  · exact hi.means
  · exact hi.hpds
  · exact hi.tmds
  · exact hi.ltmds

/-- **C43 (content).** After any such history, a further successful step leaves the entries in the histories as they are and, if a data segment is complete, appends
exactly the distributions which are current after the step. -/
theorem C43_append (c : OConf K D gs) (h1 : 1 ≤ c.seg) (store : Bool) (prior : PriorSpec K gs) (qs : List (OCall K D)) (S S' : OState K D gs) (out : List (Option PyErr))
    (hr : execAll c (OState.new store prior) qs = (S, out)) (hs : StepsSucceed qs out) (x : D) (hx : S.step (some c) x = (S', none)) :
    let new := store && decide (c.seg ≤ (fedData qs).length + 1)
    S'.posts.entries = S.posts.entries ++ (if new then [S'.marg] else []) ∧
    S'.means = S.means ++ (if new then [S'.marg.map fun p a => mean c.grid a p] else []) ∧
    S'.hpds = S.hpds ++ (if new then [S'.models.map OModelSt.hpd] else []) ∧
    S'.tmds = S.tmds ++ (if new then [S'.tmd] else []) ∧
    S'.ltmds = S.ltmds ++ (if new then [S'.ltmd] else []) := by
  have hi := execAll_hist h1 qs _ [] (new_hist h1 store prior) (by rw [hr]; exact hs)
  rw [List.nil_append, hr] at hi
  have ha := (step_hist h1 hi hx).1
  have e : S.store = store := hi.store_eq
  have l : (fedData qs ++ [x]).length = (fedData qs).length + 1 := by simp
  exact ⟨by rw [ha.posts, e, l], by rw [ha.means, e, l], by rw [ha.hpds, e, l], by rw [ha.tmds, e, l], by rw [ha.ltmds, e, l]⟩

end Props

namespace Ex
open BL Spec
/-- observation model with segments of two data points -/
def oc2 : OConf ℚ (ℚ × ℚ) gs2 := { oc with seg := 2 }
/-- a history with failing and successful queries between the steps -/
def hist : List (OCall ℚ (ℚ × ℚ)) := [.add "s" mkStatic, .setPrior [1, 2], .step (1 / 4, 3 / 4), .query (.currentMean "y"),
  .step (1 / 2, 1 / 4), .query (.parameterDistribution (.at 1) "x" true), .add "g" (ogrw [0, 1 / 2]), .query (.tmds true)]
end Ex

namespace Props
open BL Spec Ex

/-- the assumptions can be met, with failing calls (second and fourth) in between -/
example : ∃ S out, execAll oc2 (OState.new true .none) hist = (S, out) ∧ StepsSucceed hist out ∧ S.posts.entries.length = 1 ∧
    out = [none, some .configuration, none, some .postProcessing, none, none, none, none] := by
  have h : (execAll oc2 (OState.new true .none) hist).2 = [none, some .configuration, none, some .postProcessing, none, none, none, none] := by decide +kernel
  refine ⟨(execAll oc2 (OState.new true .none) hist).1, (execAll oc2 (OState.new true .none) hist).2, rfl, ?_, by decide +kernel, h⟩
  rw [h]
  intro i x hx
  have hi : i < 8 := by
    have := (List.getElem?_eq_some_iff.1 hx).1
    simpa [hist] using this
  interval_cases i <;> simp [hist] at hx ⊢

end Props
