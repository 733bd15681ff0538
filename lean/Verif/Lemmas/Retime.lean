import Verif.Spec.Retime
import Verif.Model.Fit
import Mathlib.Order.Monotone.Basic
import Mathlib.Algebra.Order.Ring.Defs

/-! # Another time axis -/

set_option linter.unusedSectionVars false

namespace BL
open Spec

variable {K : Type} [Field K] [LinearOrder K] {d : ℕ} {gs : Fin d → ℕ} {φ : K → K}

theorem cpHit_retime (hφ : StrictMono φ) (vals : List (HVal K)) (t : K) : cpHit (vals.map (retimeVal φ)) (φ t) = cpHit vals t := by
  cases vals with
  | nil => rfl
  | cons v vals =>
      simp only [cpHit, List.map_cons, List.getElem?_cons_zero]
      cases v with
      | none => rfl
      | all => rfl
      | scalar v => simp only [retimeVal, hφ.injective.eq_iff]
      | pylist vs => rfl
      | array vs =>
          match vs with
          | [] => rfl
          | [v] => simp only [retimeVal, List.map_cons, List.map_nil, hφ.injective.eq_iff]
          | _ :: _ :: _ => rfl

theorem scalars_retime : ∀ vals : List (HVal K), scalars (vals.map (retimeVal φ)) = (scalars vals).map (List.map φ)
  | [] => rfl
  | .scalar v :: vals => by
      simp only [List.map_cons, retimeVal, scalars, scalars_retime vals, bind, Except.bind]
      cases scalars vals <;> rfl
  | .none :: _ => rfl
  | .all :: _ => rfl
  | .array _ :: _ => rfl
  | .pylist _ :: _ => rfl

theorem modelIndex_retime (hφ : StrictMono φ) (vs : List K) (t : K) : modelIndex (vs.map φ) (φ t) = modelIndex vs t := by
  unfold modelIndex
  rw [List.countP_map]
  congr 1
  funext v
  simp only [Function.comp, hφ.le_iff_le]

theorem cpIn_retime (hφ : StrictMono φ) (vs : List K) (mask : List Bool) (t : K) : cpIn (vs.map φ) mask (φ t) = cpIn vs mask t := by
  unfold cpIn
  rw [List.zip_map_left, List.any_map]
  congr 1
  funext v
  simp only [Function.comp, Prod.map, hφ.injective.eq_iff, id]

theorem leafFwd_noclock (E : Env K gs) {k : Leaf K} (hk : ∀ f s, k ≠ .deterministic f s) (hc : k ≠ .changePoint) (o o' : K) (vals : List (HVal K)) (p : Arr K gs) (t t' : K) :
    leafFwd E o k vals p t = leafFwd E o' k vals p t' := by
  cases k <;> simp_all [leafFwd]

mutual
theorem fwd_retime (hφ : StrictMono φ) (E : Env K gs) : ∀ (tm : TM K) (o o' : K) (p : Arr K gs) (t : K), NoClock tm →
    (retime φ tm).fwd E o p (φ t) = tm.fwd E o' p t
  | .leaf k names vals pr, o, o', p, t, h => by
      cases k with
      | changePoint => simp only [retime, TM.fwd, leafFwd, cpHit_retime hφ]
      | deterministic f s => exact h.elim
      | _ => simp only [retime, TM.fwd, leafFwd]
  | .combined ms, o, o', p, t, h => by
      simp only [retime, TM.fwd]
      exact fwdAll_retime hφ E ms o o' p t h
  | .serial names vals pr mask ms, o, o', p, t, h => by
      simp only [retime, TM.fwd, scalars_retime]
      cases scalars vals with
      | error e => rfl
      | ok vs =>
          simp only [Except.map, bind, Except.bind, modelIndex_retime hφ]
          rw [fwdNth_retime hφ E ms _ (breakOffset (vs.map φ) (modelIndex vs t)) (breakOffset vs (modelIndex vs t)) p t h]
          cases TM.fwdNth E (breakOffset vs (modelIndex vs t)) ms (modelIndex vs t) p t with
          | error e => rfl
          | ok q => simp only [cpCheck, cpIn_retime hφ]
theorem fwdAll_retime (hφ : StrictMono φ) (E : Env K gs) : ∀ (ms : List (TM K)) (o o' : K) (p : Arr K gs) (t : K), NoClockAll ms →
    TM.fwdAll E o (retimeAll φ ms) p (φ t) = TM.fwdAll E o' ms p t
  | [], o, o', p, t, _ => by simp only [retimeAll, TM.fwdAll]
  | m :: ms, o, o', p, t, h => by
      simp only [retimeAll, TM.fwdAll]
      rw [fwd_retime hφ E m o o' p t h.1]
      cases m.fwd E o' p t with
      | error e => rfl
      | ok q => exact fwdAll_retime hφ E ms o o' q t h.2
theorem fwdNth_retime (hφ : StrictMono φ) (E : Env K gs) : ∀ (ms : List (TM K)) (i : ℕ) (o o' : K) (p : Arr K gs) (t : K), NoClockAll ms →
    TM.fwdNth E o (retimeAll φ ms) i p (φ t) = TM.fwdNth E o' ms i p t
  | [], i, o, o', p, t, _ => by simp only [retimeAll, TM.fwdNth]
  | m :: ms, 0, o, o', p, t, h => by simp only [retimeAll, TM.fwdNth]; exact fwd_retime hφ E m o o' p t h.1
  | m :: ms, i + 1, o, o', p, t, h => by simp only [retimeAll, TM.fwdNth]; exact fwdNth_retime hφ E ms i o o' p t h.2
end

mutual
theorem bwd_retime (hφ : StrictMono φ) (h1 : ∀ t, φ (t - 1) = φ t - 1) (E : Env K gs) : ∀ (tm : TM K) (o o' : K) (p : Arr K gs) (t : K), NoClock tm →
    (retime φ tm).bwd E o p (φ t) = tm.bwd E o' p t
  | .leaf k names vals pr, o, o', p, t, h => by
      cases k with
      | changePoint => simp only [retime, TM.bwd, leafBwd, leafFwd, ← h1, cpHit_retime hφ]
      | deterministic f s => exact h.elim
      | _ => simp only [retime, TM.bwd, leafBwd, leafFwd]
  | .combined ms, o, o', p, t, h => by
      simp only [retime, TM.bwd]
      exact bwdAll_retime hφ h1 E ms o o' p t h
  | .serial names vals pr mask ms, o, o', p, t, h => by
      simp only [retime, TM.bwd, scalars_retime]
      cases scalars vals with
      | error e => rfl
      | ok vs =>
          simp only [Except.map, bind, Except.bind, ← h1, modelIndex_retime hφ]
          rw [bwdNth_retime hφ h1 E ms _ (breakOffset (vs.map φ) (modelIndex vs (t - 1))) (breakOffset vs (modelIndex vs (t - 1))) p t h]
          cases TM.bwdNth E (breakOffset vs (modelIndex vs (t - 1))) ms (modelIndex vs (t - 1)) p t with
          | error e => rfl
          | ok q => simp only [cpCheck, cpIn_retime hφ]
theorem bwdAll_retime (hφ : StrictMono φ) (h1 : ∀ t, φ (t - 1) = φ t - 1) (E : Env K gs) : ∀ (ms : List (TM K)) (o o' : K) (p : Arr K gs) (t : K), NoClockAll ms →
    TM.bwdAll E o (retimeAll φ ms) p (φ t) = TM.bwdAll E o' ms p t
  | [], o, o', p, t, _ => by simp only [retimeAll, TM.bwdAll]
  | m :: ms, o, o', p, t, h => by
      simp only [retimeAll, TM.bwdAll]
      rw [bwd_retime hφ h1 E m o o' p t h.1]
      cases m.bwd E o' p t with
      | error e => rfl
      | ok q => exact bwdAll_retime hφ h1 E ms o o' q t h.2
theorem bwdNth_retime (hφ : StrictMono φ) (h1 : ∀ t, φ (t - 1) = φ t - 1) (E : Env K gs) : ∀ (ms : List (TM K)) (i : ℕ) (o o' : K) (p : Arr K gs) (t : K), NoClockAll ms →
    TM.bwdNth E o (retimeAll φ ms) i p (φ t) = TM.bwdNth E o' ms i p t
  | [], i, o, o', p, t, _ => by simp only [retimeAll, TM.bwdNth]
  | m :: ms, 0, o, o', p, t, h => by simp only [retimeAll, TM.bwdNth]; exact bwd_retime hφ h1 E m o o' p t h.1
  | m :: ms, i + 1, o, o', p, t, h => by simp only [retimeAll, TM.bwdNth]; exact bwdNth_retime hφ h1 E ms i o o' p t h.2
end

mutual
theorem returnsArg_retime (hφ : StrictMono φ) : ∀ (tm : TM K) (t : K), (retime φ tm).returnsArg (φ t) = tm.returnsArg t
  | .leaf k names vals pr, t => by
      cases k with
      | changePoint => simp only [retime, TM.returnsArg, leafReturnsArg, cpHit_retime hφ]
      | _ => simp only [retime, TM.returnsArg, leafReturnsArg]
  | .combined ms, t => by simp only [retime, TM.returnsArg]
  | .serial names vals pr mask ms, t => by
      simp only [retime, TM.returnsArg, scalars_retime]
      cases scalars vals with
      | error e => rfl
      | ok vs => simp only [Except.map, modelIndex_retime hφ, cpIn_retime hφ, returnsArgNth_retime hφ ms]
theorem returnsArgNth_retime (hφ : StrictMono φ) : ∀ (ms : List (TM K)) (i : ℕ) (t : K), TM.returnsArgNth (retimeAll φ ms) i (φ t) = TM.returnsArgNth ms i t
  | [], i, t => by simp only [retimeAll, TM.returnsArgNth]
  | m :: ms, 0, t => by simp only [retimeAll, TM.returnsArgNth, returnsArg_retime hφ m]
  | m :: ms, i + 1, t => by simp only [retimeAll, TM.returnsArgNth, returnsArgNth_retime hφ ms]
end

/-- a completed step on the new time axis -/
def Step.retime (φ : K → K) (s : Step K gs) : Step K gs := { s with t := φ s.t }

theorem fwdPass_retime (hφ : StrictMono φ) (E : Env K gs) (tm : TM K) (hc : NoClock tm) : ∀ (Ls : List (Idx gs → K)) (al : Bool) (pr : PriorSpec K gs) (a : Arr K gs) (ts : List K),
    fwdPass E (Spec.retime φ tm) al pr a Ls (ts.map φ) =
      (fwdPass E tm al pr a Ls ts).map fun f => { f with steps := f.steps.map (Step.retime φ) }
  | [], al, pr, a, ts => by cases a <;> simp only [fwdPass, Except.map, List.map_nil]
  | L :: Ls, al, pr, none, ts => by simp only [fwdPass, Except.map, List.map_nil]
  | L :: Ls, al, pr, some a, [] => by
      simp only [fwdPass, List.map_nil]
      split_ifs <;> rfl
  | L :: Ls, al, pr, some a, t :: ts => by
      simp only [fwdPass, List.map_cons]
      split_ifs
      all_goals try rfl
      all_goals
        rw [fwd_retime hφ _ tm 0 0 _ t hc]
        simp only [bind, Except.bind, returnsArg_retime hφ]
        split
        · rfl
        · rw [fwdPass_retime hφ E tm hc Ls]
          generalize fwdPass E tm (al && tm.returnsArg t) _ _ Ls ts = r
          cases r <;> rfl

theorem bwdPass_retime (hφ : StrictMono φ) (h1 : ∀ t, φ (t - 1) = φ t - 1) (E : Env K gs) (tm : TM K) (hc : NoClock tm) : ∀ ss : List (Step K gs),
    bwdPass E (Spec.retime φ tm) (ss.map (Step.retime φ)) = bwdPass E tm ss
  | [] => by simp only [bwdPass, List.map_nil]
  | s :: ss => by
      simp only [List.map_cons, bwdPass, bwdPass_retime hφ h1 E tm hc ss, Step.retime]
      simp only [bwd_retime hφ h1 E tm 0 0 _ _ hc]

end BL
