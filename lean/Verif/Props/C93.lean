import Verif.Props.C92
import Verif.Props.C45

/-! # C93 and C94: plotting and the state of a study -/

set_option linter.unusedSectionVars false

namespace BL
open Spec Props
variable {K D : Type} [Field K] [LinearOrder K] [IsStrictOrderedRing K] {d : ℕ} {gs : Fin d → ℕ}

theorem cleanValue_zero (c : Option K) : cleanValue c 0 = 0 := by
  cases c with
  | none => rfl
  | some m => simp [cleanValue]

theorem cleanValue_cases (m p : K) : cleanValue (some m) p = 0 ∨ (cleanValue (some m) p = p ∧ m * (1 / 10 ^ 20) ≤ p) := by
  by_cases h : p < m * (1 / 10 ^ 20)
  · exact .inl (if_pos h)
  · exact .inr ⟨if_neg h, not_lt.1 h⟩

/-- cleaning up a second time changes nothing, since the maximum remains the maximum -/
theorem cleanValue_twice {l : List K} {m m' : K} (h : IsGreatest {p | p ∈ l} m) (h' : IsGreatest {p | p ∈ l.map (cleanValue (some m))} m') {p : K} (hp : p ∈ l) :
    cleanValue (some m') (cleanValue (some m) p) = cleanValue (some m) p := by
  have e0 : (0 : K) < 1 / 10 ^ 20 := by positivity
  have e1 : (1 / 10 ^ 20 : K) < 1 := by
    rw [div_lt_one (by positivity)]
    norm_num
  rcases cleanValue_cases m p with h1 | ⟨h1, h2⟩
  · rw [h1, cleanValue_zero]
  · rw [h1]
    refine if_neg ?_
    rw [not_lt]
    have hpm : p ≤ m := h.2 hp
    obtain ⟨q, hq, hqm⟩ := List.mem_map.1 h'.1
    rcases cleanValue_cases m q with h3 | ⟨h3, -⟩
    · rw [h3] at hqm
      rw [← hqm, zero_mul]
      by_contra hneg
      push Not at hneg
      have hm : m < 0 := by
        by_contra hm
        push Not at hm
        have := mul_nonneg hm e0.le
        linarith
      nlinarith
    · rw [h3] at hqm
      have : m' ≤ m := by rw [← hqm]; exact h.2 hq
      have := mul_le_mul_of_nonneg_right this e0.le
      linarith

theorem allSome_eq {α : Type} : ∀ {l : List (Option α)} {r : List α}, allSome l = some r → l = r.map some
  | [], r, h => by simp [allSome] at h; simp [h]
  | none :: l, r, h => by simp [allSome] at h
  | some a :: l, r, h => by
      simp only [allSome, Option.map_eq_some_iff] at h
      obtain ⟨r', h1, rfl⟩ := h
      rw [allSome_eq h1]
      rfl

theorem cleanUp_none {m : List (Option (List K))} (h : imageMax m = none) : cleanUp m = m := by
  unfold cleanUp
  rw [h]
  conv_rhs => rw [← List.map_id m]
  apply List.map_congr_left
  intro r _
  cases r with
  | none => rfl
  | some r =>
      have : (cleanValue none : K → K) = id := rfl
      simp [this]

theorem cleanUp_twice (m : List (Option (List K))) : cleanUp (cleanUp m) = cleanUp m := by
  cases h : imageMax m with
  | none => rw [cleanUp_none h, cleanUp_none h]
  | some M =>
      have hm := h
      unfold imageMax at hm
      rw [Option.bind_eq_some_iff] at hm
      obtain ⟨rows, h1, h2⟩ := hm
      obtain rfl := allSome_eq h1
      have e := cleanUp_some rows
      rw [h] at e
      rw [e, cleanUp_some]
      cases h' : imageMax ((rows.map fun r => r.map (cleanValue (some M))).map some) with
      | none =>
          have : (cleanValue none : K → K) = id := rfl
          simp [this]
      | some M' =>
          unfold imageMax at h'
          rw [show (List.map some (List.map (fun r => List.map (cleanValue (some M)) r) rows)) = (rows.map fun r => some (r.map (cleanValue (some M)))) by simp] at h'
          rw [allSome_map] at h'
          simp only [Option.bind_some] at h'
          have g1 := max?_greatest h2
          have g2 := max?_greatest h'
          rw [List.map_map, List.map_map, List.map_map]
          apply List.map_congr_left
          intro r hr
          simp only [Function.comp_apply, List.map_map]
          congr 1
          apply List.map_congr_left
          intro p hp
          simp only [Function.comp_apply]
          refine cleanValue_twice g1 (l := rows.flatten) ?_ (List.mem_flatten.2 ⟨r, hr, hp⟩)
          rwa [List.map_flatten]

theorem one_index {gs : Fin 1 → ℕ} (a : Fin 1) (i : Fin (gs a)) : ∃ x0 : Idx gs, ∀ x : Idx gs, x a = i ↔ x = x0 := by
  have ha : a = 0 := Subsingleton.elim _ _
  subst ha
  refine ⟨fun b => (Subsingleton.elim 0 b : (0 : Fin 1) = b) ▸ i, fun x => ⟨fun h => ?_, fun h => ?_⟩⟩
  · funext b
    have hb : b = 0 := Subsingleton.elim _ _
    subst hb
    exact h
  · rw [h]

theorem marginal_clean {gs : Fin 1 → ℕ} (a : Fin 1) (p : Idx gs → K) (c : Option K) : marginal a (fun x => cleanValue c (p x)) = (marginal a p).map (cleanValue c) := by
  unfold marginal
  rw [List.map_map]
  apply List.map_congr_left
  intro i _
  obtain ⟨x0, h⟩ := one_index a i
  simp only [h, Function.comp_apply]
  rw [Finset.sum_ite_eq' Finset.univ x0, Finset.sum_ite_eq' Finset.univ x0]
  simp

theorem marginal_inj {gs : Fin 1 → ℕ} (a : Fin 1) {p q : Idx gs → K} (h : marginal a p = marginal a q) : p = q := by
  funext x
  unfold marginal at h
  have h' := (List.map_inj_left.1 h) (x a) (List.mem_finRange _)
  obtain ⟨x0, h0⟩ := one_index a (x a)
  have hx : x = x0 := (h0 x).1 rfl
  simp only [h0] at h'
  rw [Finset.sum_ite_eq' Finset.univ x0, Finset.sum_ite_eq' Finset.univ x0] at h'
  simpa [hx] using h'

/-- the distributions after the clean-up have the cleaned distributions as marginals -/
theorem posts_clean {gs : Fin 1 → ℕ} (a : Fin 1) (ps : List (Arr K gs)) (c : Option K) :
    ((ps.map fun p => p.map fun p x => cleanValue c (p x)).map fun p => p.map (marginal a)) = ((ps.map fun p => p.map (marginal a)).map fun r => r.map fun r => r.map (cleanValue c)) := by
  rw [List.map_map, List.map_map]
  apply List.map_congr_left
  intro p _
  cases p with
  | none => rfl
  | some p => simp only [Function.comp_apply, Option.map_some, marginal_clean]

theorem posts_inj {gs : Fin 1 → ℕ} (a : Fin 1) {ps qs : List (Arr K gs)} (h : (ps.map fun p => p.map (marginal a)) = (qs.map fun p => p.map (marginal a))) : ps = qs := by
  refine List.map_injective_iff.2 ?_ h
  intro p q hpq
  cases p <;> cases q <;> simp only [Option.map_none, Option.map_some, Option.some.injEq, reduceCtorEq] at hpq
  · rfl
  · rw [marginal_inj a hpq]

end BL

namespace Spec
open BL
variable {K : Type} [Field K] [LinearOrder K] [IsStrictOrderedRing K] {d : ℕ} {gs : Fin d → ℕ}

/-- The stored distributions agree, except for entries that are smaller by more than 20 orders of magnitude than the largest entry `pmax` of all of them: such an entry may have been
replaced by zero. -/
def SameUpToTiny (ps qs : List (Arr K gs)) : Prop :=
  ps.length = qs.length ∧ ∀ (k : ℕ) (p : Arr K gs), ps[k]? = some p → ∃ q, qs[k]? = some q ∧
    ((p = none ∧ q = none) ∨ ∃ f g, p = some f ∧ q = some g ∧ ∀ x, g x = f x ∨ (g x = 0 ∧ ∃ p' ∈ ps, ∃ f', p' = some f' ∧ ∃ y, f x * 10 ^ 20 < f' y))

theorem SameUpToTiny.refl (ps : List (Arr K gs)) : SameUpToTiny ps ps := by
  refine ⟨rfl, fun k p hp => ⟨p, hp, ?_⟩⟩
  cases p with
  | none => exact .inl ⟨rfl, rfl⟩
  | some f => exact .inr ⟨f, f, rfl, rfl, fun x => .inl rfl⟩

end Spec

namespace BL
open Spec Props
variable {K D : Type} [Field K] [LinearOrder K] [IsStrictOrderedRing K] {d : ℕ} {gs : Fin d → ℕ}

theorem marginal_mem {gs : Fin 1 → ℕ} {a : Fin 1} {p : Idx gs → K} {m : K} (h : m ∈ marginal a p) : ∃ y, m = p y := by
  unfold marginal at h
  rw [List.mem_map] at h
  obtain ⟨i, -, rfl⟩ := h
  obtain ⟨x0, h0⟩ := one_index a i
  refine ⟨x0, ?_⟩
  simp only [h0]
  rw [Finset.sum_ite_eq' Finset.univ x0]
  simp

theorem clean_same {gs : Fin 1 → ℕ} (a : Fin 1) (ps : List (Arr K gs)) :
    SameUpToTiny ps (ps.map fun p => p.map fun p x => cleanValue (imageMax (ps.map fun p => p.map (marginal a))) (p x)) := by
  refine ⟨by simp, fun k p hp => ⟨_, by rw [List.getElem?_map, hp]; rfl, ?_⟩⟩
  cases p with
  | none => exact .inl ⟨rfl, rfl⟩
  | some f =>
      refine .inr ⟨f, _, rfl, rfl, fun x => ?_⟩
      cases h : imageMax (ps.map fun p => p.map (marginal a)) with
      | none => exact .inl rfl
      | some M =>
          change cleanValue (some M) (f x) = f x ∨ (cleanValue (some M) (f x) = 0 ∧ _)
          rw [faded_clean]
          unfold faded
          split
          · rename_i hlt
            refine .inr ⟨rfl, ?_⟩
            unfold imageMax at h
            rw [Option.bind_eq_some_iff] at h
            obtain ⟨rows, h1, h2⟩ := h
            have hm := (max?_greatest h2).1
            obtain ⟨r, hr, hMr⟩ := List.mem_flatten.1 hm
            have : some r ∈ ps.map fun p => p.map (marginal a) := by
              rw [allSome_eq h1]
              exact List.mem_map_of_mem hr
            obtain ⟨p', hp', he⟩ := List.mem_map.1 this
            cases p' with
            | none => simp at he
            | some f' =>
                simp only [Option.map_some, Option.some.injEq] at he
                rw [← he] at hMr
                obtain ⟨y, rfl⟩ := marginal_mem hMr
                exact ⟨_, hp', f', rfl, y, hlt⟩
          · exact .inl rfl

theorem evolution_fields (F : Fitted K gs) (gamma : K → K) (name : String) (means : Fin d → Except PyErr (List (Option K))) :
    ∃ ps, (F.evolution gamma name means).1 = { F with posts := ps } ∧ SameUpToTiny F.posts ps ∧ (d ≠ 1 → ps = F.posts) := by
  unfold Fitted.evolution
  split
  · exact ⟨F.posts, rfl, .refl _, fun _ => rfl⟩
  · split
    · exact ⟨F.posts, rfl, .refl _, fun _ => rfl⟩
    · split
      · exact ⟨F.posts, rfl, .refl _, fun _ => rfl⟩
      · by_cases hd : d = 1
        · subst hd
          simp only [if_true]
          exact ⟨_, rfl, clean_same _ _, fun h => absurd rfl h⟩
        · simp only [if_neg hd]
          exact ⟨F.posts, rfl, .refl _, fun _ => rfl⟩

theorem evolution_twice (F : Fitted K gs) (gamma : K → K) (name : String) (means : Fin d → Except PyErr (List (Option K))) :
    (F.evolution gamma name means).1.evolution gamma name means = F.evolution gamma name means := by
  by_cases hp : F.posts.length = 0
  · simp [Fitted.evolution, hp]
  by_cases ht : F.ts.length < 2
  · simp [Fitted.evolution, hp, ht]
  cases ha : paramIndex F.names name with
  | none => simp [Fitted.evolution, hp, ht, ha]
  | some a =>
      by_cases hd : d = 1
      · subst hd
        have e1 : F.evolution gamma name means = ({ F with posts := F.posts.map fun p => p.map fun p x => cleanValue (imageMax (F.posts.map fun p => p.map (marginal a))) (p x) },
            (means a).bind fun mv => evolutionDraws gamma (F.posts.map fun p => p.map (marginal a)) F.ts mv (List.ofFn (F.grid a)) name) := by
          unfold Fitted.evolution
          rw [if_neg hp, if_neg ht, ha]
          simp only [if_true]
        rw [e1]
        have hc := posts_clean a F.posts (imageMax (F.posts.map fun p => p.map (marginal a)))
        have hc' : ((F.posts.map fun p => p.map fun p x => cleanValue (imageMax (F.posts.map fun p => p.map (marginal a))) (p x)).map fun p => p.map (marginal a)) =
            cleanUp (F.posts.map fun p => p.map (marginal a)) := hc
        unfold Fitted.evolution
        rw [if_neg (by simpa using hp), if_neg (by simpa using ht)]
        simp only [ha, if_true]
        rw [hc']
        refine Prod.ext ?_ ?_
        · simp only [Fitted.mk.injEq, true_and, and_true]
          apply posts_inj a
          rw [posts_clean, hc']
          exact cleanUp_twice _
        · simp only [evolutionDraws, cleanUp_twice]
      · unfold Fitted.evolution
        rw [if_neg hp, if_neg ht, ha]
        simp only [if_neg hd, if_neg hp, if_neg ht, ha]

end BL

namespace Props
open BL Spec
variable {K D : Type} [Field K] [LinearOrder K] [IsStrictOrderedRing K] {d : ℕ} {gs : Fin d → ℕ}

/-- **C93 (plots of one time step).** `plot(name, t=…)` changes nothing, whether it succeeds or not. -/
theorem C93_time (H : HFitted K gs) (gamma : K → K) (name : String) (t : TimeArg K) (density : Bool) :
    (H.F.plot gamma name (some t) density).1 = H.F ∧ (H.plot gamma name (some t) density).1 = H := ⟨rfl, rfl⟩

/-- **C93 (models with several parameters).** `plot` changes nothing, whether it succeeds or not. -/
theorem C93_several (hd : d ≠ 1) (F : Fitted K gs) (gamma : K → K) (name : String) (t : Option (TimeArg K)) (density : Bool) :
    (F.plot gamma name t density).1 = F := by
  cases t with
  | some t => rfl
  | none =>
      obtain ⟨ps, h1, -, h2⟩ := evolution_fields F gamma name fun a => .ok ((F.means a).map some)
      change (F.evolution gamma name fun a => .ok ((F.means a).map some)).1 = F
      rw [h1, h2 hd]

/-- **C93 (all models).** `plot` changes at most the stored distributions, and there only entries that are smaller by more than 20 orders of magnitude than the largest one. -/
theorem C93_partial (F : Fitted K gs) (gamma : K → K) (name : String) (t : Option (TimeArg K)) (density : Bool) :
    ∃ ps, (F.plot gamma name t density).1 = { F with posts := ps } ∧ SameUpToTiny F.posts ps := by
  cases t with
  | some t => exact ⟨F.posts, rfl, .refl _⟩
  | none =>
      obtain ⟨ps, h1, h2, -⟩ := evolution_fields F gamma name fun a => .ok ((F.means a).map some)
      exact ⟨ps, h1, h2⟩

/-- **C93 (plotting again).** The same plot, made twice, shows the same, and the second time leaves the study as it is. -/
theorem C93_again (F : Fitted K gs) (gamma : K → K) (name : String) (t : Option (TimeArg K)) (density : Bool) :
    (F.plot gamma name t density).1.plot gamma name t density = F.plot gamma name t density := by
  cases t with
  | some t => rfl
  | none =>
      obtain ⟨ps, h1, -, -⟩ := evolution_fields F gamma name fun a => .ok ((F.means a).map some)
      have e := evolution_twice F gamma name fun a => .ok ((F.means a).map some)
      change (F.plotEvolution gamma name).1.plotEvolution gamma name = F.plotEvolution gamma name
      unfold Fitted.plotEvolution
      have hm : (F.evolution gamma name fun a => .ok ((F.means a).map some)).1.means = F.means := by rw [h1]
      rw [hm]
      exact e

end Props

namespace BL
open Spec Props
variable {K D : Type} [Field K] [LinearOrder K] [IsStrictOrderedRing K] {d : ℕ} {gs : Fin d → ℕ}

theorem transposed_back {l : List (Option (Fin d → K))} (hl : l ≠ []) (hd : 0 < d) : transposed (transposed (l.map meanRow)) = l.map meanRow := by
  rw [transposed_means hl]
  obtain ⟨d, rfl⟩ : ∃ e, d = e + 1 := ⟨d - 1, by omega⟩
  rw [List.ofFn_succ, transposed, List.length_map, ← List.ofFn_succ (f := fun a : Fin (d + 1) => l.map fun m => m.map (· a))]
  apply List.ext_getElem?
  intro j
  by_cases hj : j < l.length
  · rw [List.getElem?_map, List.getElem?_range hj, List.getElem?_map, List.getElem?_eq_getElem hj, Option.map_some, Option.map_some, meanRow]
    congr 1
    rw [List.ofFn_eq_map, List.ofFn_eq_map, List.filterMap_map]
    have : ((fun q : List (Option K) => q[j]?) ∘ fun a : Fin (d + 1) => l.map fun m => m.map (· a)) = fun a => some (l[j].map (· a)) := by
      funext a
      simp [List.getElem?_eq_getElem hj]
    rw [this, List.filterMap_eq_map']
  · rw [List.getElem?_eq_none (by simpa using hj), List.getElem?_eq_none (by simpa using hj)]

theorem evolution_ok {F : Fitted K gs} {gamma : K → K} {name : String} {means : Fin d → Except PyErr (List (Option K))} {ds : List (Draw K)}
    (h : (F.evolution gamma name means).2 = .ok ds) : ∃ a mv, means a = .ok mv := by
  unfold Fitted.evolution at h
  split at h
  · cases h
  · split at h
    · cases h
    · split at h
      · cases h
      · rename_i a _
        cases hm : means a with
        | error e => simp only [hm, Except.bind] at h; cases h
        | ok mv => exact ⟨a, mv, hm⟩

end BL

namespace Props
open BL Spec
variable {K D : Type} [Field K] [LinearOrder K] [IsStrictOrderedRing K] {d : ℕ} {gs : Fin d → ℕ}

/-- **C93 (hyper-studies).** `plot(name)` changes the stored hyper-parameter distribution in the same way as the query `getHyperParameterDistribution(name)` (see C35), if `name` is the
name of a hyper-parameter, and nothing else; otherwise it acts as `plot` of a study. -/
theorem C93_hyper_partial (H : HFitted K gs) (gamma : K → K) (name : String) (density : Bool) :
    (name ∈ H.tm.flatNames → (H.plot gamma name none density).1 = { H with hpd := (getHPD H.tm H.g H.hpd name).1 }) ∧
    (name ∉ H.tm.flatNames → (H.plot gamma name none density).1 = { H with F := (H.F.plot gamma name none density).1 }) := by
  constructor
  · intro h
    unfold HFitted.plot TM.hyperIndex
    simp only [if_pos h]
    rfl
  · intro h
    unfold HFitted.plot TM.hyperIndex Fitted.plot
    simp only [if_neg h]

/-- **C93 (online studies).** Every successful `plot` of an online study with stored history: the time stamps are kept, also the mean values, the distributions of hyper-parameters and
transition models and everything the next step depends on; parameter distributions are kept up to entries smaller by more than 20 orders of magnitude than the largest one, and exactly
for models with several parameters. -/
theorem C93_online_partial (c : OConf K D gs) (S : OState K D gs) (hst : S.store = true) (gamma : K → K) (name : String) (t : Option (TimeArg K)) (density loc : Bool)
    (ds : List (Draw K)) (h : (S.forPlot.plot c gamma name t density loc).2 = .ok ds) :
    ∃ f ps, (S.forPlot.plot c gamma name t density loc).1 = ({ S with fts := f, posts := ps } : OState K D gs).forPlot ∧
      (f.map PySeq.entries).getD [] = (S.fts.map PySeq.entries).getD [] ∧ (S.fts.isSome → f.isSome) ∧ SameUpToTiny S.posts.entries ps.entries ∧ (d ≠ 1 → ps.entries = S.posts.entries) ∧
      (S.toLists = S → ({ S with fts := f, posts := ps } : OState K D gs).toLists = { S with fts := f, posts := ps }) := by
  have same : ∃ f ps, S.forPlot = ({ S with fts := f, posts := ps } : OState K D gs).forPlot ∧
      (f.map PySeq.entries).getD [] = (S.fts.map PySeq.entries).getD [] ∧ (S.fts.isSome → f.isSome) ∧ SameUpToTiny S.posts.entries ps.entries ∧ (d ≠ 1 → ps.entries = S.posts.entries) ∧
      (S.toLists = S → ({ S with fts := f, posts := ps } : OState K D gs).toLists = { S with fts := f, posts := ps }) :=
    ⟨S.fts, S.posts, rfl, rfl, fun h => h, .refl _, fun _ => rfl, fun h => h⟩
  unfold PState.plot at h ⊢
  rw [show S.forPlot.S = S from rfl] at h ⊢
  rw [if_neg (by simp [hst])] at h ⊢
  simp only at h ⊢
  generalize (S.models.any fun m => noError (m.tm.hyperIndex name)) = q1 at h ⊢
  generalize ((S.models.map OModelSt.name).contains name) = q2 at h ⊢
  cases q1 <;> cases q2 <;> simp only at h ⊢
  · cases t with
    | none =>
        rw [if_pos hst] at h ⊢
        unfold PState.plotEvolution at h ⊢
        rw [show S.forPlot.S = S from rfl] at h ⊢
        rw [if_neg (by simp [hst])] at h ⊢
        simp only at h ⊢
        split at h
        · cases h
        · rename_i ds' hds
          obtain ⟨a, mv, hmv⟩ := evolution_ok hds
          have hl : S.means ≠ [] := by
            intro hl
            simp [OState.forPlot, hl, PySeq.entries, transposed, getE] at hmv
          obtain ⟨ps, e1, e2, e3⟩ := evolution_fields (S.fitted c) gamma name fun a => getE (transposed S.forPlot.means.entries) a
          rw [e1]
          refine ⟨some (.list ((S.fts.map PySeq.entries).getD [])), .list ps, ?_, rfl, fun _ => rfl, e2, e3, fun _ => rfl⟩
          unfold OState.forPlot
          simp only [PySeq.entries, PState.mk.injEq, PySeq.list.injEq]
          exact ⟨rfl, transposed_back hl a.pos⟩
    | some t =>
        simp only at h ⊢
        refine ⟨some (.list ((S.fts.map PySeq.entries).getD [])), .list S.posts.entries, ?_, rfl, fun _ => rfl, .refl _, fun _ => rfl, fun _ => rfl⟩
        unfold OState.getParameterDistribution at h ⊢
        rw [if_neg (by simp [hst])] at h ⊢
        split at h
        · cases h
        · rename_i r hr
          simp only [hr]
          rfl
  · exact same
  · cases t with
    | none => simp only; rw [if_pos hst]; exact same
    | some t => cases t <;> exact same
  · exact same

/-- **C93 (online studies, several parameters).** For a model with several parameters a successful plot leaves a study whose histories are lists (as they are after each step) exactly as
it was: further data and queries are processed as without the plot. -/
theorem C93_online_several (hd : d ≠ 1) (c : OConf K D gs) (S : OState K D gs) (hst : S.store = true) (hL : S.toLists = S) (hf : S.fts.isSome) (gamma : K → K) (name : String)
    (t : Option (TimeArg K)) (density loc : Bool) (ds : List (Draw K)) (h : (S.forPlot.plot c gamma name t density loc).2 = .ok ds) :
    (S.forPlot.plot c gamma name t density loc).1 = S.forPlot := by
  obtain ⟨f, ps, e1, e2, e6, -, e3, e4⟩ := C93_online_partial c S hst gamma name t density loc ds h
  rw [e1]
  have e5 := e4 hL
  have e3 := e3 hd
  have h1 : S.posts = ps := by
    have a1 : S.posts.toList = S.posts := congrArg OState.posts hL
    have a2 : ps.toList = ps := congrArg OState.posts e5
    rw [← a1, ← a2]
    simp [PySeq.toList, e3]
  have h2 : S.fts = f := by
    have a1 : S.fts.map PySeq.toList = S.fts := congrArg OState.fts hL
    have a2 : f.map PySeq.toList = f := congrArg OState.fts e5
    obtain ⟨g, hg⟩ := Option.isSome_iff_exists.1 hf
    obtain ⟨g', rfl⟩ := Option.isSome_iff_exists.1 (e6 hf)
    rw [hg] at e2 a1 ⊢
    simp only [Option.map_some, Option.getD_some, Option.some.injEq] at e2 a1 a2 ⊢
    rw [← a1, ← a2]
    simp [PySeq.toList, e2]
  rw [← h1, ← h2]

end Props

namespace BL
open Spec Props
variable {K D : Type} [Field K] [LinearOrder K] [IsStrictOrderedRing K] {d : ℕ} {gs : Fin d → ℕ}

/-- a plot with an unknown name -/
theorem plot_unknown (c : OConf K D gs) (P : PState K D gs) (hst : P.S.store = true) (gamma : K → K) (name : String) (density loc : Bool)
    (hh : ∀ m ∈ P.S.models, name ∉ m.tm.flatNames) (hmn : name ∉ P.S.models.map OModelSt.name) (hn : paramIndex c.E.names name = none) :
    ∃ e, P.plot c gamma name none density loc = (⟨P.S.toArrays, .ndarray (transposed P.means.entries)⟩, .error e) := by
  unfold PState.plot
  rw [if_neg (by simp)]
  simp only [not_hyper hh]
  have hc : ((P.S.models.map OModelSt.name).contains name) = false := by
    rw [Bool.eq_false_iff]
    intro h
    exact hmn (List.contains_iff_mem.1 h)
  rw [hc]
  simp only
  rw [if_pos hst]
  unfold PState.plotEvolution
  rw [if_neg (by simp [hst])]
  have : ∃ e, (P.S.fitted c).evolution gamma name (fun a => getE (transposed P.means.entries) a) = (P.S.fitted c, .error e) := by
    unfold Fitted.evolution
    split
    · exact ⟨_, rfl⟩
    · split
      · exact ⟨_, rfl⟩
      · rw [show (P.S.fitted c).names = c.E.names from rfl, hn]
        exact ⟨_, rfl⟩
  obtain ⟨e, he⟩ := this
  refine ⟨e, ?_⟩
  simp only [he]
  rfl

end BL

namespace Props
open BL Spec
variable {K D : Type} [Field K] [LinearOrder K] [IsStrictOrderedRing K] {d : ℕ} {gs : Fin d → ℕ}

/-- **C94 (failures without effect).** A failing `plot` changes nothing if the study has no stored history and the name is not the one of a hyper-parameter, or if the name is the one of
a hyper-parameter or a transition model and there is a stored history. -/
theorem C94_partial (c : OConf K D gs) (P : PState K D gs) (gamma : K → K) (name : String) (t : Option (TimeArg K)) (density loc : Bool)
    (h : (P.S.store = true ∧ ((∃ m ∈ P.S.models, name ∈ m.tm.flatNames) ∨ name ∈ P.S.models.map OModelSt.name)) ∨
      (P.S.store = false ∧ ∀ m ∈ P.S.models, name ∉ m.tm.flatNames)) :
    (P.plot c gamma name t density loc).1 = P := by
  unfold PState.plot
  split
  · rfl
  · rename_i hts
    have key : (P.S.store = true ∧ ((P.S.models.any fun m => noError (m.tm.hyperIndex name)) = true ∨ ((P.S.models.map OModelSt.name).contains name) = true)) ∨
        (P.S.store = false ∧ (P.S.models.any fun m => noError (m.tm.hyperIndex name)) = false) := by
      rcases h with ⟨hst, h | h⟩ | ⟨hst, h⟩
      · exact .inl ⟨hst, .inl (is_hyper h)⟩
      · exact .inl ⟨hst, .inr (List.contains_iff_mem.2 h)⟩
      · exact .inr ⟨hst, not_hyper h⟩
    simp only
    clear h
    generalize (P.S.models.any fun m => noError (m.tm.hyperIndex name)) = q1 at key ⊢
    generalize ((P.S.models.map OModelSt.name).contains name) = q2 at key ⊢
    cases q1 <;> cases q2 <;> simp at key
    · cases t with
      | none => simp only; rw [if_neg (by simp [key])]
      | some t => simp [key] at hts
    · rfl
    · cases t with
      | none => simp only; rw [if_pos key]
      | some t => cases t <;> rfl
    · rfl

/-- **C94 (recovery).** After a plot with an unknown name, a second plot with an unknown name makes the study usable again: queries for mean values return the original values, and a
plot of the evolution of a parameter shows the same, and leaves the study in the same state, as without both failed plots. -/
theorem C94_recover_partial (c : OConf K D gs) (S : OState K D gs) (hst : S.store = true) (hd : 0 < d) (hm : S.means ≠ []) (gamma : K → K) (n1 n2 : String) (density loc : Bool)
    (hh : ∀ m ∈ S.models, n1 ∉ m.tm.flatNames ∧ n2 ∉ m.tm.flatNames) (hmn : n1 ∉ S.models.map OModelSt.name ∧ n2 ∉ S.models.map OModelSt.name)
    (hn : paramIndex c.E.names n1 = none ∧ paramIndex c.E.names n2 = none) :
    (∃ e, (S.forPlot.plot c gamma n1 none density loc).2 = .error e) ∧
    ∃ P, ((S.forPlot.plot c gamma n1 none density loc).1.plot c gamma n2 none density loc).1 = P ∧ (∀ name, P.getMeans c name = S.getMeans c name) ∧
      ∀ name, (∀ m ∈ S.models, name ∉ m.tm.flatNames) → name ∉ S.models.map OModelSt.name →
        P.plot c gamma name none density loc = S.forPlot.plot c gamma name none density loc := by
  obtain ⟨e, he⟩ := plot_unknown c S.forPlot hst gamma n1 density loc (fun m hm => (hh m hm).1) hmn.1 hn.1
  obtain ⟨e', he'⟩ := plot_unknown c ⟨S.forPlot.S.toArrays, .ndarray (transposed S.forPlot.means.entries)⟩ hst gamma n2 density loc (fun m hm => (hh m hm).2) hmn.2 hn.2
  have hb : transposed (transposed S.forPlot.means.entries) = S.means.map meanRow := transposed_back hm hd
  refine ⟨⟨e, by rw [he]⟩, ⟨S.toArrays, .ndarray (S.means.map meanRow)⟩, by rw [he, he', ← hb]; rfl, ?_⟩
  refine ⟨fun name => ?_, fun name hh' hmn' => ?_⟩
  · rw [← forPlot_getMeans c S name]
    rfl
  · have hc : ((S.models.map OModelSt.name).contains name) = false := by
      rw [Bool.eq_false_iff]
      intro h
      exact hmn' (List.contains_iff_mem.1 h)
    have f1 : ∀ P : PState K D gs, P.S.models = S.models → P.S.store = true → P.plot c gamma name none density loc = P.plotEvolution c gamma name := by
      intro P h1 h2
      unfold PState.plot
      rw [if_neg (by simp)]
      simp only [h1, not_hyper hh', hc]
      rw [if_pos h2]
    rw [f1 S.forPlot rfl hst, f1 _ rfl hst]
    unfold PState.plotEvolution
    have g1 : ¬ (S.forPlot.S.store = false) := by
      change ¬ (S.store = false)
      simp [hst]
    rw [if_neg g1, if_neg (show ¬ ((⟨S.toArrays, .ndarray (S.means.map meanRow)⟩ : PState K D gs).S.store = false) from g1)]
    rfl

end Props

namespace Ex
open BL Spec

/-- a fitted study with one parameter; one of the probabilities is small -/
def tiny : Fitted ℚ gs2 := ⟨fun _ => "x", grid gs2, fun _ => 1, [1, 2], [some (v2 (1 - 1 / 10 ^ 30) (1 / 10 ^ 30)), some (v2 (1 / 2) (1 / 2))], fun _ => [1 / 10 ^ 30, 1 / 2], true⟩
/-- a hyper-study -/
def halfH (g : HyperGrid ℚ) : HFitted ℚ gs2 := ⟨tiny, halfTM, g, [1, 1]⟩
/-- the online study after a plot with the name of no parameter -/
def failed : PState ℚ (ℚ × ℚ) gs2 := (after2.forPlot.plot och id "no parameter" none true false).1

end Ex

namespace Props
open BL Spec Ex

/-- **C93 refuted** (one parameter): `plot` changes the distributions reported afterwards. -/
theorem C93_refuted : ∃ ds, (tiny.plot id "x" none true).2 = .ok ds ∧
    tiny.distribution (.at 1) "x" false = .ok ([0, 1], some [1 - 1 / 10 ^ 30, 1 / 10 ^ 30]) ∧
    (tiny.plot id "x" none true).1.distribution (.at 1) "x" false = .ok ([0, 1], some [1 - 1 / 10 ^ 30, 0]) :=
  ⟨[.image [some [1 - 1 / 10 ^ 30, 0], some [1 / 2, 1 / 2]] 1 2 0 1, .curve [1, 2] [some (1 / 10 ^ 30), some (1 / 2)], .limits 0 1, .label .y "x", .label .x "time step"],
    ok_of_toOption (by decide +kernel), ok_of_toOption (by decide +kernel), ok_of_toOption (by decide +kernel)⟩

/-- **C93 refuted** (hyper-parameters): the same plot, made twice, shows different bars. -/
theorem C93_hyper_refuted : ∃ g, createHyperGrid halfTM [1, 2] = .ok g ∧
    ((halfH g).plot id "s" none true).2 = .ok [.bars [0, 1 / 2] (some [1 / 2, 1 / 2]) (1 / 2), .label .y "probability", .label .x "s"] ∧
    (((halfH g).plot id "s" none true).1.plot id "s" none true).2 = .ok [.bars [0, 1 / 2] (some [1 / 4, 1 / 4]) (1 / 2), .label .y "probability", .label .x "s"] :=
  ⟨_, rfl, ok_of_toOption (by decide +kernel), ok_of_toOption (by decide +kernel)⟩

/-- **C94 refuted.** A plot of an online study with a wrong name raises `PostProcessingError`.  Afterwards the query for mean values returns one value instead of two; a successful query for
a distribution, after which a study with other failed queries can be continued (C45), does not help: the next step raises `AttributeError`, after having replaced the current distribution. -/
theorem C94_refuted : errOf (after2.forPlot.plot och id "no parameter" none true false).2 = some .postProcessing ∧
    after2.getMeans och "x" = .ok [some (3 / 4), some (17 / 31)] ∧ failed.getMeans och "x" = .ok [some (3 / 4)] ∧
    (after2.step (some och) (1 / 2, 1 / 2)).2 = none ∧ (failed.step (some och) (1 / 2, 1 / 2)).2 = some .attributeError ∧
    (let P := failed.plot och id "x" (some (.at 0)) false false
     P.2 = .ok [.area [0, 1] (some [1 / 4, 3 / 4]), .label .x "x", .label .y "probability"] ∧ (P.1.step (some och) (1 / 2, 1 / 2)).2 = some .attributeError ∧
     (P.1.step (some och) (1 / 2, 1 / 2)).1.S.rawData.length = 3 ∧ (P.1.step (some och) (1 / 2, 1 / 2)).1.S.posts.entries.length = 2) := by
  refine ⟨by decide +kernel, ok_of_toOption (by decide +kernel), ok_of_toOption (by decide +kernel), by decide +kernel, by decide +kernel, ok_of_toOption (by decide +kernel), by decide +kernel, by decide +kernel, by decide +kernel⟩

/-- The assumptions of the theorems can be met: a successful plot of an online study, … -/
example : after2.store = true ∧ after2.toLists = after2 ∧ after2.fts.isSome ∧ after2.means ≠ [] ∧ noError (after2.forPlot.plot och id "x" none true false).2 = true ∧
    paramIndex och.E.names "no parameter" = none ∧ (∀ m ∈ after2.models, "no parameter" ∉ m.tm.flatNames) ∧ "no parameter" ∉ after2.models.map OModelSt.name := by
  have h : ∃ f ps, after2.fts = some (.list f) ∧ after2.posts = .list ps := by
    have h : (match after2.fts, after2.posts with
      | some (.list _), .list _ => true
      | _, _ => false) = true := by decide +kernel
    split at h
    · rename_i f ps h1 h2
      exact ⟨f, ps, h1, h2⟩
    · cases h
  refine ⟨by decide +kernel, ?_, by decide +kernel, by decide +kernel, by decide +kernel, by decide +kernel, by decide +kernel, by decide +kernel⟩
  obtain ⟨f, ps, h1, h2⟩ := h
  generalize after2 = S at h1 h2
  obtain ⟨⟩ := S
  simp only at h1 h2
  subst h1 h2
  rfl

/-- … and a failing plot with the name of a hyper-parameter -/
example : (∃ m ∈ after2.forPlot.S.models, "sigma" ∈ m.tm.flatNames) ∧ noError (after2.forPlot.plot och id "sigma" (some (.at 7)) true false).2 = false := by
  constructor <;> decide +kernel

end Props
