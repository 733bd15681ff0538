import Verif.Props.C28
import Verif.Lemmas.FitModel
import Verif.Props.Ex

/-! # C85: hyper-studies with a single combination of hyper-parameter values -/

set_option linter.unusedSectionVars false

namespace Spec
open BL
variable {K : Type}

/-- a list with one value stands for this value -/
def number : HVal K → HVal K
  | .array [v] => .scalar v
  | v => v

/-- the transition model of a plain study: numbers instead of lists with one value -/
def numbers (tm : TM K) : TM K := withValues (fun _ v => number v) tm

/-- a number, or a list with one number -/
def SingleValue (v : HVal K) : Prop := ∃ x, v = .scalar x ∨ v = .array [x]

mutual
/-- Every hyper-parameter has one value (break-points and hyper-parameters of Deterministic and BivariateRandomWalk: given as a number). -/
def OneValued : TM K → Prop
  | .leaf (.deterministic _ _) _ vals _ => ∀ v ∈ vals, ∃ x, v = .scalar x
  | .leaf .bivariate _ vals _ => ∀ v ∈ vals, ∃ x, v = .scalar x
  | .leaf _ _ vals _ => ∀ v ∈ vals, SingleValue v
  | .combined ms => OneValuedAll ms
  | .serial _ vals _ _ ms => (∀ v ∈ vals, ∃ x, v = .scalar x) ∧ OneValuedAll ms
/-- all sub-models -/
def OneValuedAll : List (TM K) → Prop
  | [] => True
  | m :: ms => OneValued m ∧ OneValuedAll ms
end

end Spec

namespace BL
open Spec
variable {K : Type} [Field K] [LinearOrder K] [IsStrictOrderedRing K] {d : ℕ} {gs : Fin d → ℕ} {E : Env K gs}

theorem zipWith_number : ∀ (names : List String) (vals : List (HVal K)), names.length = vals.length → List.zipWith (fun _ v => number v) names vals = vals.map number
  | [], [], _ => rfl
  | n :: names, v :: vals, h => by rw [List.zipWith_cons_cons, List.map_cons, zipWith_number names vals (by simpa using h)]

theorem map_number_scalars {vals : List (HVal K)} (h : ∀ v ∈ vals, ∃ x, v = .scalar x) : vals.map number = vals := by
  conv_rhs => rw [← List.map_id vals]
  refine List.map_congr_left fun v hv => ?_
  obtain ⟨x, rfl⟩ := h v hv
  rfl

theorem scalarAt_number (vals : List (HVal K)) (i : ℕ) : scalarAt (vals.map number) i = scalarAt vals i := by
  unfold scalarAt
  rw [List.getElem?_map]
  rcases vals[i]? with _ | (_ | x | (_ | ⟨x, (_ | ⟨y, l⟩)⟩) | _ | _) <;> rfl

theorem cpHit_number (vals : List (HVal K)) (t : K) : cpHit (vals.map number) t = cpHit vals t := by
  unfold cpHit
  rw [List.getElem?_map]
  rcases vals[0]? with _ | (_ | x | (_ | ⟨x, (_ | ⟨y, l⟩)⟩) | _ | _) <;> rfl

/-- leaves that accept lists with one value -/
theorem leafFwd_number (o : K) (k : Leaf K) (vals : List (HVal K)) (p : Arr K gs) (t : K) (hd : ∀ f s, k ≠ .deterministic f s) (hb : k ≠ .bivariate) :
    leafFwd E o k (vals.map number) p t = leafFwd E o k vals p t := by
  cases k with
  | deterministic f s => exact absurd rfl (hd f s)
  | bivariate => exact absurd rfl hb
  | _ => simp only [leafFwd, grwFwd, alphaFwd, regimeFwd, notEqualFwd, scalarAt_number, cpHit_number]

/-- values of a leaf in the model with numbers -/
theorem leaf_number {k : Leaf K} {names : List String} {vals : List (HVal K)} {pr : Option (Nest (HPrior K))} (h : OneValued (.leaf k names vals pr)) :
    vals.map number = vals ∨ (∀ f s, k ≠ .deterministic f s) ∧ k ≠ .bivariate := by
  cases k with
  | deterministic f s => exact Or.inl (map_number_scalars h)
  | bivariate => exact Or.inl (map_number_scalars h)
  | _ => exact Or.inr ⟨fun _ _ => by simp, by simp⟩

theorem leaf_names {k : Leaf K} {names : List String} {vals : List (HVal K)} {pr : Option (Nest (HPrior K))} (h : Proper (.leaf k names vals pr)) : names.length = vals.length := by
  cases k with
  | breakPoint => exact h.elim
  | _ => exact h.1

mutual
theorem fwd_numbers : ∀ tm : TM K, Proper tm → OneValued tm → ∀ (o : K) (p : Arr K gs) (t : K), (numbers tm).fwd E o p t = tm.fwd E o p t
  | .leaf k names vals pr, hp, h, o, p, t => by
      rw [numbers, withValues, zipWith_number _ _ (leaf_names hp), TM.fwd, TM.fwd]
      rcases leaf_number h with h | h
      · rw [h]
      · exact leafFwd_number o k vals p t h.1 h.2
  | .combined ms, hp, h, o, p, t => by rw [numbers, withValues, TM.fwd, TM.fwd]; exact fwdAll_numbers ms hp h o p t
  | .serial names vals pr mask ms, hp, h, o, p, t => by
      rw [numbers, withValues, zipWith_number _ _ hp.1, map_number_scalars h.1, TM.fwd, TM.fwd]
      simp only [fwdNth_numbers ms hp.2.2 h.2]
theorem fwdAll_numbers : ∀ ms : List (TM K), ProperAll ms → OneValuedAll ms → ∀ (o : K) (p : Arr K gs) (t : K),
    TM.fwdAll E o (withValuesAll (fun _ v => number v) ms) p t = TM.fwdAll E o ms p t
  | [], _, _, o, p, t => rfl
  | m :: ms, hp, h, o, p, t => by
      have e := fwd_numbers m hp.1 h.1 o p t
      rw [numbers] at e
      rw [withValuesAll, TM.fwdAll, TM.fwdAll, e]
      simp only [fwdAll_numbers ms hp.2 h.2]
theorem fwdNth_numbers : ∀ ms : List (TM K), ProperAll ms → OneValuedAll ms → ∀ (o : K) (i : ℕ) (p : Arr K gs) (t : K),
    TM.fwdNth E o (withValuesAll (fun _ v => number v) ms) i p t = TM.fwdNth E o ms i p t
  | [], _, _, o, i, p, t => rfl
  | m :: ms, hp, h, o, 0, p, t => by
      have e := fwd_numbers m hp.1 h.1 o p t
      rw [numbers] at e
      rw [withValuesAll, TM.fwdNth, TM.fwdNth, e]
  | m :: ms, hp, h, o, i + 1, p, t => by
      rw [withValuesAll, TM.fwdNth, TM.fwdNth]
      exact fwdNth_numbers ms hp.2 h.2 o i p t
end

theorem leafBwd_number (o : K) (k : Leaf K) (vals : List (HVal K)) (p : Arr K gs) (t : K) (hd : ∀ f s, k ≠ .deterministic f s) (hb : k ≠ .bivariate) :
    leafBwd E o k (vals.map number) p t = leafBwd E o k vals p t := by
  cases k with
  | deterministic f s => exact absurd rfl (hd f s)
  | bivariate => exact absurd rfl hb
  | _ =>
      simp only [leafBwd]
      exact leafFwd_number o _ vals p (t - 1) hd hb

mutual
theorem bwd_numbers : ∀ tm : TM K, Proper tm → OneValued tm → ∀ (o : K) (p : Arr K gs) (t : K), (numbers tm).bwd E o p t = tm.bwd E o p t
  | .leaf k names vals pr, hp, h, o, p, t => by
      rw [numbers, withValues, zipWith_number _ _ (leaf_names hp), TM.bwd, TM.bwd]
      rcases leaf_number h with h | h
      · rw [h]
      · exact leafBwd_number o k vals p t h.1 h.2
  | .combined ms, hp, h, o, p, t => by rw [numbers, withValues, TM.bwd, TM.bwd]; exact bwdAll_numbers ms hp h o p t
  | .serial names vals pr mask ms, hp, h, o, p, t => by
      rw [numbers, withValues, zipWith_number _ _ hp.1, map_number_scalars h.1, TM.bwd, TM.bwd]
      simp only [bwdNth_numbers ms hp.2.2 h.2]
theorem bwdAll_numbers : ∀ ms : List (TM K), ProperAll ms → OneValuedAll ms → ∀ (o : K) (p : Arr K gs) (t : K),
    TM.bwdAll E o (withValuesAll (fun _ v => number v) ms) p t = TM.bwdAll E o ms p t
  | [], _, _, o, p, t => rfl
  | m :: ms, hp, h, o, p, t => by
      have e := bwd_numbers m hp.1 h.1 o p t
      rw [numbers] at e
      rw [withValuesAll, TM.bwdAll, TM.bwdAll, e]
      simp only [bwdAll_numbers ms hp.2 h.2]
theorem bwdNth_numbers : ∀ ms : List (TM K), ProperAll ms → OneValuedAll ms → ∀ (o : K) (i : ℕ) (p : Arr K gs) (t : K),
    TM.bwdNth E o (withValuesAll (fun _ v => number v) ms) i p t = TM.bwdNth E o ms i p t
  | [], _, _, o, i, p, t => rfl
  | m :: ms, hp, h, o, 0, p, t => by
      have e := bwd_numbers m hp.1 h.1 o p t
      rw [numbers] at e
      rw [withValuesAll, TM.bwdNth, TM.bwdNth, e]
  | m :: ms, hp, h, o, i + 1, p, t => by
      rw [withValuesAll, TM.bwdNth, TM.bwdNth]
      exact bwdNth_numbers ms hp.2 h.2 o i p t
end

mutual
theorem returnsArg_numbers : ∀ tm : TM K, Proper tm → OneValued tm → ∀ t : K, (numbers tm).returnsArg t = tm.returnsArg t
  | .leaf k names vals pr, hp, h, t => by
      rw [numbers, withValues, zipWith_number _ _ (leaf_names hp), TM.returnsArg, TM.returnsArg]
      cases k <;> simp only [leafReturnsArg, cpHit_number]
  | .combined ms, hp, h, t => by rw [numbers, withValues, TM.returnsArg, TM.returnsArg]
  | .serial names vals pr mask ms, hp, h, t => by
      rw [numbers, withValues, zipWith_number _ _ hp.1, map_number_scalars h.1, TM.returnsArg, TM.returnsArg]
      simp only [returnsArgNth_numbers ms hp.2.2 h.2]
theorem returnsArgNth_numbers : ∀ ms : List (TM K), ProperAll ms → OneValuedAll ms → ∀ (i : ℕ) (t : K),
    TM.returnsArgNth (withValuesAll (fun _ v => number v) ms) i t = TM.returnsArgNth ms i t
  | [], _, _, i, t => rfl
  | m :: ms, hp, h, 0, t => by
      have e := returnsArg_numbers m hp.1 h.1 t
      rw [numbers] at e
      rw [withValuesAll, TM.returnsArgNth, TM.returnsArgNth, e]
  | m :: ms, hp, h, i + 1, t => by
      rw [withValuesAll, TM.returnsArgNth, TM.returnsArgNth]
      exact returnsArgNth_numbers ms hp.2 h.2 i t
end

mutual
theorem entries_one : ∀ tm : TM K, OneValued tm → ∀ e ∈ entries tm, SingleValue e.2
  | .leaf k names vals pr, h, e, he => by
      have hv := (List.of_mem_zip he).2
      cases k with
      | deterministic f s => obtain ⟨x, hx⟩ := h _ hv; exact ⟨x, Or.inl hx⟩
      | bivariate => obtain ⟨x, hx⟩ := h _ hv; exact ⟨x, Or.inl hx⟩
      | _ => exact h _ hv
  | .combined ms, h, e, he => entriesAll_one ms h e he
  | .serial names vals pr mask ms, h, e, he => by
      rcases List.mem_append.1 he with he | he
      · exact entriesAll_one ms h.2 e he
      · obtain ⟨x, hx⟩ := h.1 _ (List.of_mem_zip he).2; exact ⟨x, Or.inl hx⟩
theorem entriesAll_one : ∀ ms : List (TM K), OneValuedAll ms → ∀ e ∈ entriesAll ms, SingleValue e.2
  | [], _, e, he => by simp [entriesAll] at he
  | m :: ms, h, e, he => by
      rcases List.mem_append.1 he with he | he
      · exact entries_one m h.1 e he
      · exact entriesAll_one ms h.2 e he
end

end BL

namespace Props
open BL Spec
variable {K : Type} [Field K] [LinearOrder K] [IsStrictOrderedRing K] {d : ℕ} {gs : Fin d → ℕ}

/-- **C85 (part that holds: evidence, local evidences, posterior distributions, mean values).** Every hyper-study in which all hyper-parameters have a single value, every prior (also arrays), data, number of
jobs and mode: if `HyperStudy.fit` returns, `Study.fit` with the numbers in place of lists with one value stores the same results; the transition model of the user is unchanged. -/
theorem C85_partial (I : FitIn K gs) (nJobs : ℕ) (H R : HState K gs) (hp : Proper H.tm) (hone : OneValued H.tm) (h : hyperFit I nJobs H = .ok (some R)) :
    fit I.E I.grid (numbers H.tm) I.liks I.ts I.forwardOnly I.evidenceOnly H.S = .ok R.S ∧ R.tm = H.tm := by
  rw [fit_model (m := numbers H.tm) (m' := H.tm) (fun q p t => ⟨fwd_numbers H.tm hp hone 0 p t, bwd_numbers H.tm hp hone 0 p t⟩) I.grid I.liks I.ts I.forwardOnly I.evidenceOnly H.S
    (Or.inr (returnsArg_numbers H.tm hp hone))]
  unfold hyperFit at h
  cases hg : createHyperGrid H.tm I.ts with
  | error e => rw [hg] at h; simp [bind, Except.bind] at h
  | ok g =>
      obtain ⟨-, -, -, hr⟩ := createHyperGrid_eq hp hg
      have hlen : ¬ g.rows.length > 1 := by
        rw [hr]
        split
        · simp
        · rw [cart_length, axes, List.map_map]
          have : ∀ n ∈ (entries H.tm).map (List.length ∘ fun e => valuesOf I.ts e.2), n = 1 := by
            intro n hn
            obtain ⟨e, he, rfl⟩ := List.mem_map.1 hn
            obtain ⟨x, hx | hx⟩ := entries_one H.tm hone e he <;> simp [hx, valuesOf]
          rw [List.prod_eq_one this]
          simp
      rw [hg] at h
      simp only [bind, Except.bind] at h
      split at h
      · simp at h
      · split at h
        · simp at h
        · split at h
          · simp at h
          · rw [hyperCore, if_neg hlen] at h
            revert h
            cases fit I.E I.grid H.tm I.liks I.ts I.forwardOnly I.evidenceOnly H.S with
            | error e => simp [bind, Except.bind]
            | ok S =>
                simp only [bind, Except.bind, Except.ok.injEq, Option.some.injEq]
                rintro rfl
                exact ⟨rfl, rfl⟩

/-- the inputs of the examples: two data points -/
def oneIn : FitIn ℚ Ex.gs2 := ⟨Ex.env Ex.gs2 1, Ex.grid Ex.gs2, [Ex.v2 1 2, Ex.v2 1 3], [0, 1], true, false, 0⟩

/-- a hyper-study with the given model and the hyper-parameter distribution of an earlier fit -/
def oneState (tm : TM ℚ) (old : Option (List ℚ)) : HState ℚ Ex.gs2 := ⟨tm, Ex.S0 .none, [], old⟩

/-- evidence and hyper-parameter distribution after a fit -/
def oneResult (r : Except PyErr (Option (HState ℚ Ex.gs2))) : Option (ℚ × List ℚ × Option (List ℚ)) :=
  match r with
  | .ok (some R) => some (R.S.logEv.exp, R.evs.map LogV.exp, R.hpd)
  | _ => none

/-- random walk -/
def oneWalk (v : HVal ℚ) (pr : HPrior ℚ) : TM ℚ := .leaf (.grw "x") ["sigma"] [v] (some (.item pr))
/-- change-point -/
def oneChange (v : HVal ℚ) : TM ℚ := .leaf .changePoint ["t"] [v] (some (.item .none))

/-- **C85 refuted** for the hyper-parameter distribution: the only combination does not get probability one.  A new study has no distribution at all, an existing one keeps the distribution of the
previous fit (here one with three combinations); the list of evidences is empty. -/
theorem C85_refuted : oneResult (hyperFit oneIn 1 (oneState (oneWalk (.array [1]) .none) none)) = some (13 / 4, [], none) ∧
    oneResult (hyperFit oneIn 1 (oneState (oneWalk (.array [1]) .none) (some [1 / 2, 1 / 4, 1 / 4]))) = some (13 / 4, [], some [1 / 2, 1 / 4, 1 / 4]) := by
  decide +kernel

/-- **C85 refuted** for the keyword `'all'`: with two data points it stands for a change-point at the first time stamp, but the keyword is not replaced (core.py 1434-1441), and the change-point has no effect. -/
theorem C85_all_refuted : valuesOf oneIn.ts (.all : HVal ℚ) = [0] ∧ oneResult (hyperFit oneIn 1 (oneState (oneChange .all) none)) = some (7 / 2, [], none) ∧
    oneResult (hyperFit oneIn 1 (oneState (oneChange (.array [0])) none)) = some (3, [], none) := by
  decide +kernel

/-- **C85 refuted** for a number with a function as hyper-prior: the plain study works, the hyper-study raises a ConfigurationError (core.py 1194-1201). -/
theorem C85_prior_refuted : Ex.ev (fit oneIn.E oneIn.grid (oneWalk (.scalar 1) (.func fun _ => 1)) oneIn.liks oneIn.ts true false (Ex.S0 .none)) = some (13 / 4) ∧
    hyperFit oneIn 1 (oneState (oneWalk (.scalar 1) (.func fun _ => 1)) none) = .error .configuration := by
  exact ⟨by decide +kernel, rfl⟩

/-- Concrete case: a random walk with a list of one width and a change-point with a list of one time, inside a serial model with a break-point. -/
example : ∃ tm : TM ℚ, tm = .serial ["b"] [.scalar 1] [.item .none] [false] [.combined [oneWalk (.array [1]) .none, oneChange (.array [0])], .leaf .regimeSwitch ["p"] [.array [3]] (some (.item .none))] ∧
    Proper tm ∧ OneValued tm ∧ ∃ e, oneResult (hyperFit oneIn 1 (oneState tm none)) = some e :=
  ⟨_, rfl, by simp [oneWalk, oneChange, Proper, ProperAll, Plain], by simp [oneWalk, oneChange, OneValued, OneValuedAll, SingleValue], Option.isSome_iff_exists.1 (by decide +kernel)⟩

end Props
