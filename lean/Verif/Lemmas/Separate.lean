import Verif.Spec.Separate
import Verif.Lemmas.Geometry
import Verif.Lemmas.FitLin
import Mathlib.Algebra.BigOperators.Ring.Finset
import Mathlib.Tactic.Ring
import Mathlib.Tactic.FieldSimp

/-! # Independent groups of parameters -/

set_option linter.unusedSectionVars false

namespace BL
open Spec

variable {K : Type} [Field K] [LinearOrder K] [IsStrictOrderedRing K] {d₁ d₂ : ℕ} {gs : Fin (d₁ + d₂) → ℕ}

/-- points of the joint grid are pairs of points -/
def pairs : Idx gs ≃ Idx (gs₁ gs) × Idx (gs₂ gs) where
  toFun z := (first z, second z)
  invFun p := Fin.addCases (motive := fun i => Fin (gs i)) p.1 p.2
  left_inv z := by
    funext i
    refine Fin.addCases (fun a => ?_) (fun b => ?_) i
    · simp [first]
    · simp [second]
  right_inv p := by
    refine Prod.ext ?_ ?_
    · funext a; simp [first]
    · funext b; simp [second]

theorem sum_times (p : Idx (gs₁ gs) → K) (q : Idx (gs₂ gs) → K) : ∑ z, times p q z = (∑ x, p x) * ∑ y, q y := by
  rw [Finset.sum_mul_sum, ← Fintype.sum_prod_type', ← Equiv.sum_comp (pairs (gs := gs))]
  rfl

/-- product of arrays; undefined if one of them is -/
def timesO : Arr K (gs₁ gs) → Arr K (gs₂ gs) → Arr K gs
  | some p, some q => some (times p q)
  | _, _ => none

theorem normalize_times (p : Idx (gs₁ gs) → K) (q : Idx (gs₂ gs) → K) : BL.normalize (times p q) = timesO (BL.normalize p) (BL.normalize q) := by
  unfold BL.normalize
  simp only [sum_times]
  by_cases hp : ∑ x, p x = 0
  · simp [hp, timesO]
  · by_cases hq : ∑ y, q y = 0
    · simp [hp, hq, timesO]
    · simp only [mul_eq_zero, hp, hq, or_self, if_false, timesO]
      congr 1
      funext z
      simp only [times]
      field_simp

theorem bind_normalize_times (p : Arr K (gs₁ gs)) (q : Arr K (gs₂ gs)) : (timesO p q).bind BL.normalize = timesO (p.bind BL.normalize) (q.bind BL.normalize) := by
  cases p with
  | none => cases q <;> rfl
  | some p =>
      cases q with
      | none => simp only [timesO, Option.bind_some, Option.bind_none]; cases BL.normalize p <;> rfl
      | some q => exact normalize_times p q

theorem first_update_left (z : Idx gs) (a : Fin d₁) (v) : first (Function.update z (Fin.castAdd d₂ a) v) = Function.update (first z) a v := by
  funext c
  by_cases h : c = a
  · subst h; simp [first]
  · rw [Function.update_of_ne h, first, Function.update_of_ne (fun h' => h (Fin.castAdd_injective _ _ h')), first]

theorem second_update_left (z : Idx gs) (a : Fin d₁) (v) : second (Function.update z (Fin.castAdd d₂ a) v) = second z := by
  funext c
  rw [second, Function.update_of_ne (fun h' => by have := congrArg Fin.val h'; simp at this; omega), second]

theorem first_update_right (z : Idx gs) (b : Fin d₂) (v) : first (Function.update z (Fin.natAdd d₁ b) v) = first z := by
  funext c
  rw [first, Function.update_of_ne (fun h' => by have := congrArg Fin.val h'; simp at this; omega), first]

theorem second_update_right (z : Idx gs) (b : Fin d₂) (v) : second (Function.update z (Fin.natAdd d₁ b) v) = Function.update (second z) b v := by
  funext c
  by_cases h : c = b
  · subst h; simp [second]
  · rw [Function.update_of_ne h, second, Function.update_of_ne (fun h' => h (Fin.natAdd_injective _ _ h')), second]

theorem filterAxis_left (r : ℕ) (w : ℤ → K) (a : Fin d₁) (p : Idx (gs₁ gs) → K) (q : Idx (gs₂ gs) → K) :
    filterAxis r w (Fin.castAdd d₂ a) (times p q) = times (filterAxis r w a p) q := by
  funext z
  simp only [filterAxis, times, first_update_left, second_update_left, Finset.sum_mul]
  refine Finset.sum_congr rfl fun k _ => ?_
  rw [mul_assoc]
  rfl

theorem filterAxis_right (r : ℕ) (w : ℤ → K) (b : Fin d₂) (p : Idx (gs₁ gs) → K) (q : Idx (gs₂ gs) → K) :
    filterAxis r w (Fin.natAdd d₁ b) (times p q) = times p (filterAxis r w b q) := by
  funext z
  simp only [filterAxis, times, first_update_right, second_update_right, Finset.mul_sum]
  refine Finset.sum_congr rfl fun k _ => ?_
  rw [mul_left_comm]
  rfl

variable {E : Env K gs} {E₁ : Env K (gs₁ gs)} {E₂ : Env K (gs₂ gs)}

theorem cell_separate (h : EnvSeparate E E₁ E₂) : E.cell = E₁.cell * E₂.cell := by
  unfold Env.cell
  rw [Fin.prod_univ_add]
  simp only [h.lattice₁, h.lattice₂]

theorem axis_left (h : EnvSeparate E E₁ E₂) {n : String} {a : Fin d₁} (ha : E₁.axis n = .ok a) : E.axis n = .ok (Fin.castAdd d₂ a) := by
  rw [← axis_name ha, h.names₁]
  exact axis_distinct h.distinct _

theorem axis_right (h : EnvSeparate E E₁ E₂) {n : String} {b : Fin d₂} (hb : E₂.axis n = .ok b) : E.axis n = .ok (Fin.natAdd d₁ b) := by
  rw [← axis_name hb, h.names₂]
  exact axis_distinct h.distinct _

/-- reset distributions of independent priors -/
structure ResetSeparate (E : Env K gs) (E₁ : Env K (gs₁ gs)) (E₂ : Env K (gs₂ gs)) : Prop where
  env : EnvSeparate E E₁ E₂
  reset : E.resetArr = timesO E₁.resetArr E₂.resetArr

theorem resetCell_separate (h : ResetSeparate E E₁ E₂) : E.resetCell = timesO E₁.resetCell E₂.resetCell := by
  unfold Env.resetCell
  rw [h.reset, cell_separate h.env]
  cases E₁.resetArr with
  | none => cases E₂.resetArr <;> rfl
  | some p =>
      cases E₂.resetArr with
      | none => rfl
      | some q =>
          simp only [timesO, Option.map_some]
          congr 1
          funext z
          simp only [times]
          ring

theorem const_times : (fun _ => 1 : Idx gs → K) = times (fun _ => 1) fun _ => 1 := by
  funext z; simp [times]

theorem resetArr_separate {pr : PriorSpec K gs} {pr₁ : PriorSpec K (gs₁ gs)} {pr₂ : PriorSpec K (gs₂ gs)} (h : PriorSeparate pr pr₁ pr₂) :
    ({ E with prior := pr } : Env K gs).resetArr = timesO ({ E₁ with prior := pr₁ } : Env K (gs₁ gs)).resetArr ({ E₂ with prior := pr₂ } : Env K (gs₂ gs)).resetArr := by
  cases h with
  | flat => simp only [Env.resetArr]; rw [const_times, normalize_times]
  | func p q => simp only [Env.resetArr]; rw [normalize_times]
  | rvs p q => simp only [Env.resetArr]; rw [const_times, normalize_times]

theorem grw_left (h : EnvSeparate E E₁ E₂) {n : String} {v : List (HVal K)} {p r : Arr K (gs₁ gs)} (q : Arr K (gs₂ gs)) (hp : grwFwd E₁ n v p = .ok r) :
    grwFwd E n v (timesO p q) = .ok (timesO r q) := by
  revert hp
  simp only [grwFwd]
  cases ha : E₁.axis n with
  | error x => intro hp; simp [bind, Except.bind] at hp
  | ok a =>
      rw [axis_left h ha]
      simp only [bind, Except.bind]
      cases scalarAt v 0 with
      | error x => intro hp; simp at hp
      | ok σ =>
          simp only [← h.lattice₁, ← h.gaussR₁, ← h.gaussW₁]
          split
          · split
            · intro hp; cases hp
            · intro hp; cases hp; rfl
          · split
            · intro hp
              cases hp
              cases p with
              | none => cases q <;> rfl
              | some p =>
                  cases q with
                  | none => rfl
                  | some q => simp only [timesO, Option.map_some, filterAxis_left]
            · intro hp; cases hp; rfl

theorem grw_right (h : EnvSeparate E E₁ E₂) {n : String} {v : List (HVal K)} (p : Arr K (gs₁ gs)) {q r : Arr K (gs₂ gs)} (hq : grwFwd E₂ n v q = .ok r) :
    grwFwd E n v (timesO p q) = .ok (timesO p r) := by
  revert hq
  simp only [grwFwd]
  cases ha : E₂.axis n with
  | error x => intro hq; simp [bind, Except.bind] at hq
  | ok a =>
      rw [axis_right h ha]
      simp only [bind, Except.bind]
      cases scalarAt v 0 with
      | error x => intro hq; simp at hq
      | ok σ =>
          simp only [← h.lattice₂, ← h.gaussR₂, ← h.gaussW₂]
          split
          · split
            · intro hq; cases hq
            · intro hq; cases hq; rfl
          · split
            · intro hq
              cases hq
              cases p with
              | none => cases q <;> rfl
              | some p =>
                  cases q with
                  | none => rfl
                  | some q => simp only [timesO, Option.map_some, filterAxis_right]
            · intro hq; cases hq; rfl

theorem cpCheck_separate (h : ResetSeparate E E₁ E₂) (vs : List K) (mask : List Bool) (p : Arr K (gs₁ gs)) (q : Arr K (gs₂ gs)) (t : K) :
    cpCheck E vs mask (timesO p q) t = timesO (cpCheck E₁ vs mask p t) (cpCheck E₂ vs mask q t) := by
  unfold cpCheck
  split
  · exact resetCell_separate h
  · rfl


theorem leafFwd_separate (h : ResetSeparate E E₁ E₂) {k k₁ k₂ : Leaf K} {v v₁ v₂ : List (HVal K)} (hm : LeafSeparate k v k₁ v₁ k₂ v₂)
    (toff : K) (p r₁ : Arr K (gs₁ gs)) (q r₂ : Arr K (gs₂ gs)) (t : K) (h₁ : leafFwd E₁ toff k₁ v₁ p t = .ok r₁) (h₂ : leafFwd E₂ toff k₂ v₂ q t = .ok r₂) :
    leafFwd E toff k v (timesO p q) t = .ok (timesO r₁ r₂) := by
  cases hm with
  | static =>
      simp only [leafFwd] at h₁ h₂ ⊢
      cases h₁; cases h₂; rfl
  | walk₁ =>
      simp only [leafFwd] at h₁ h₂ ⊢
      cases h₂
      exact grw_left h.env q h₁
  | walk₂ =>
      simp only [leafFwd] at h₁ h₂ ⊢
      cases h₁
      exact grw_right h.env p h₂
  | changePoint =>
      simp only [leafFwd, bind, Except.bind] at h₁ h₂ ⊢
      cases hc : cpHit v t with
      | error x => rw [hc] at h₁; simp at h₁
      | ok b =>
          simp only [hc] at h₁ h₂ ⊢
          cases b
          · simp only [Bool.false_eq_true, if_false] at h₁ h₂ ⊢
            cases h₁; cases h₂; rfl
          · simp only [if_true] at h₁ h₂ ⊢
            cases h₁; cases h₂
            rw [resetCell_separate h]
  | independent =>
      simp only [leafFwd] at h₁ h₂ ⊢
      cases h₁; cases h₂
      rw [h.reset]

mutual
theorem fwd_separate (h : ResetSeparate E E₁ E₂) :
    ∀ (tm tm₁ tm₂ : TM K), Apart tm tm₁ tm₂ → ∀ (toff : K) (p r₁ : Arr K (gs₁ gs)) (q r₂ : Arr K (gs₂ gs)) (t : K),
      tm₁.fwd E₁ toff p t = .ok r₁ → tm₂.fwd E₂ toff q t = .ok r₂ → tm.fwd E toff (timesO p q) t = .ok (timesO r₁ r₂)
  | .leaf k _ v _, .leaf k₁ _ v₁ _, .leaf k₂ _ v₂ _, hm, toff, p, r₁, q, r₂, t, h₁, h₂ => by
      simp only [TM.fwd] at h₁ h₂ ⊢
      simp only [Apart] at hm
      exact leafFwd_separate h hm toff p r₁ q r₂ t h₁ h₂
  | .combined ms, .combined ms₁, .combined ms₂, hm, toff, p, r₁, q, r₂, t, h₁, h₂ => by
      simp only [Apart] at hm
      simp only [TM.fwd] at h₁ h₂ ⊢
      exact fwdAll_separate h ms ms₁ ms₂ hm toff p r₁ q r₂ t h₁ h₂
  | .serial _ v _ mask ms, .serial _ v₁ _ mask₁ ms₁, .serial _ v₂ _ mask₂ ms₂, hm, toff, p, r₁, q, r₂, t, h₁, h₂ => by
      simp only [Apart] at hm
      obtain ⟨rfl, rfl, rfl, rfl, hms⟩ := hm
      simp only [TM.fwd] at h₁ h₂ ⊢
      cases hv : scalars v₂ with
      | error x => rw [hv] at h₁; simp [bind, Except.bind] at h₁
      | ok vs =>
          simp only [hv, bind, Except.bind] at h₁ h₂ ⊢
          split at h₁
          · simp at h₁
          · rename_i q₁ hq₁
            split at h₂
            · simp at h₂
            · rename_i q₂ hq₂
              cases h₁; cases h₂
              rw [fwdNth_separate h ms ms₁ ms₂ hms _ _ p q₁ q q₂ t hq₁ hq₂]
              simp only [cpCheck_separate h]
  | .leaf _ _ _ _, .leaf _ _ _ _, .combined _, hm, _, _, _, _, _, _, _, _ => by simp [Apart] at hm
  | .leaf _ _ _ _, .leaf _ _ _ _, .serial _ _ _ _ _, hm, _, _, _, _, _, _, _, _ => by simp [Apart] at hm
  | .leaf _ _ _ _, .combined _, _, hm, _, _, _, _, _, _, _, _ => by simp [Apart] at hm
  | .leaf _ _ _ _, .serial _ _ _ _ _, _, hm, _, _, _, _, _, _, _, _ => by simp [Apart] at hm
  | .combined _, .leaf _ _ _ _, _, hm, _, _, _, _, _, _, _, _ => by simp [Apart] at hm
  | .combined _, .serial _ _ _ _ _, _, hm, _, _, _, _, _, _, _, _ => by simp [Apart] at hm
  | .combined _, .combined _, .leaf _ _ _ _, hm, _, _, _, _, _, _, _, _ => by simp [Apart] at hm
  | .combined _, .combined _, .serial _ _ _ _ _, hm, _, _, _, _, _, _, _, _ => by simp [Apart] at hm
  | .serial _ _ _ _ _, .leaf _ _ _ _, _, hm, _, _, _, _, _, _, _, _ => by simp [Apart] at hm
  | .serial _ _ _ _ _, .combined _, _, hm, _, _, _, _, _, _, _, _ => by simp [Apart] at hm
  | .serial _ _ _ _ _, .serial _ _ _ _ _, .leaf _ _ _ _, hm, _, _, _, _, _, _, _, _ => by simp [Apart] at hm
  | .serial _ _ _ _ _, .serial _ _ _ _ _, .combined _, hm, _, _, _, _, _, _, _, _ => by simp [Apart] at hm
theorem fwdAll_separate (h : ResetSeparate E E₁ E₂) :
    ∀ (ms ms₁ ms₂ : List (TM K)), ApartAll ms ms₁ ms₂ → ∀ (toff : K) (p r₁ : Arr K (gs₁ gs)) (q r₂ : Arr K (gs₂ gs)) (t : K),
      TM.fwdAll E₁ toff ms₁ p t = .ok r₁ → TM.fwdAll E₂ toff ms₂ q t = .ok r₂ → TM.fwdAll E toff ms (timesO p q) t = .ok (timesO r₁ r₂)
  | [], [], [], _, _, p, r₁, q, r₂, t, h₁, h₂ => by
      simp only [TM.fwdAll] at h₁ h₂ ⊢
      cases h₁; cases h₂; rfl
  | m :: ms, m₁ :: ms₁, m₂ :: ms₂, hm, toff, p, r₁, q, r₂, t, h₁, h₂ => by
      simp only [ApartAll] at hm
      simp only [TM.fwdAll, bind, Except.bind] at h₁ h₂ ⊢
      split at h₁
      · simp at h₁
      · rename_i q₁ hq₁
        split at h₂
        · simp at h₂
        · rename_i q₂ hq₂
          rw [fwd_separate h m m₁ m₂ hm.1 toff p q₁ q q₂ t hq₁ hq₂]
          exact fwdAll_separate h ms ms₁ ms₂ hm.2 toff q₁ r₁ q₂ r₂ t h₁ h₂
  | [], [], _ :: _, hm, _, _, _, _, _, _, _, _ => by simp [ApartAll] at hm
  | [], _ :: _, _, hm, _, _, _, _, _, _, _, _ => by simp [ApartAll] at hm
  | _ :: _, [], _, hm, _, _, _, _, _, _, _, _ => by simp [ApartAll] at hm
  | _ :: _, _ :: _, [], hm, _, _, _, _, _, _, _, _ => by simp [ApartAll] at hm
theorem fwdNth_separate (h : ResetSeparate E E₁ E₂) :
    ∀ (ms ms₁ ms₂ : List (TM K)), ApartAll ms ms₁ ms₂ → ∀ (toff : K) (i : ℕ) (p r₁ : Arr K (gs₁ gs)) (q r₂ : Arr K (gs₂ gs)) (t : K),
      TM.fwdNth E₁ toff ms₁ i p t = .ok r₁ → TM.fwdNth E₂ toff ms₂ i q t = .ok r₂ → TM.fwdNth E toff ms i (timesO p q) t = .ok (timesO r₁ r₂)
  | [], [], [], _, _, _, p, r₁, q, r₂, t, h₁, h₂ => by simp [TM.fwdNth] at h₁
  | m :: ms, m₁ :: ms₁, m₂ :: ms₂, hm, toff, 0, p, r₁, q, r₂, t, h₁, h₂ => by
      simp only [ApartAll] at hm
      simp only [TM.fwdNth] at h₁ h₂ ⊢
      exact fwd_separate h m m₁ m₂ hm.1 toff p r₁ q r₂ t h₁ h₂
  | m :: ms, m₁ :: ms₁, m₂ :: ms₂, hm, toff, i + 1, p, r₁, q, r₂, t, h₁, h₂ => by
      simp only [ApartAll] at hm
      simp only [TM.fwdNth] at h₁ h₂ ⊢
      exact fwdNth_separate h ms ms₁ ms₂ hm.2 toff i p r₁ q r₂ t h₁ h₂
  | [], [], _ :: _, hm, _, _, _, _, _, _, _, _, _ => by simp [ApartAll] at hm
  | [], _ :: _, _, hm, _, _, _, _, _, _, _, _, _ => by simp [ApartAll] at hm
  | _ :: _, [], _, hm, _, _, _, _, _, _, _, _, _ => by simp [ApartAll] at hm
  | _ :: _, _ :: _, [], hm, _, _, _, _, _, _, _, _, _ => by simp [ApartAll] at hm
end

theorem leafBwd_separate (h : ResetSeparate E E₁ E₂) {k k₁ k₂ : Leaf K} {v v₁ v₂ : List (HVal K)} (hm : LeafSeparate k v k₁ v₁ k₂ v₂)
    (toff : K) (p r₁ : Arr K (gs₁ gs)) (q r₂ : Arr K (gs₂ gs)) (t : K) (h₁ : leafBwd E₁ toff k₁ v₁ p t = .ok r₁) (h₂ : leafBwd E₂ toff k₂ v₂ q t = .ok r₂) :
    leafBwd E toff k v (timesO p q) t = .ok (timesO r₁ r₂) := by
  cases hm with
  | static =>
      simp only [leafBwd, leafFwd] at h₁ h₂ ⊢
      cases h₁; cases h₂; rfl
  | walk₁ =>
      simp only [leafBwd, leafFwd] at h₁ h₂ ⊢
      cases h₂
      exact grw_left h.env q h₁
  | walk₂ =>
      simp only [leafBwd, leafFwd] at h₁ h₂ ⊢
      cases h₁
      exact grw_right h.env p h₂
  | changePoint =>
      simp only [leafBwd, leafFwd, bind, Except.bind] at h₁ h₂ ⊢
      cases hc : cpHit v (t - 1) with
      | error x => rw [hc] at h₁; simp at h₁
      | ok b =>
          simp only [hc] at h₁ h₂ ⊢
          cases b
          · simp only [Bool.false_eq_true, if_false] at h₁ h₂ ⊢
            cases h₁; cases h₂; rfl
          · simp only [if_true] at h₁ h₂ ⊢
            cases h₁; cases h₂
            rw [resetCell_separate h]
  | independent =>
      simp only [leafBwd, leafFwd] at h₁ h₂ ⊢
      cases h₁; cases h₂
      rw [h.reset]

mutual
theorem bwd_separate (h : ResetSeparate E E₁ E₂) :
    ∀ (tm tm₁ tm₂ : TM K), Apart tm tm₁ tm₂ → ∀ (toff : K) (p r₁ : Arr K (gs₁ gs)) (q r₂ : Arr K (gs₂ gs)) (t : K),
      tm₁.bwd E₁ toff p t = .ok r₁ → tm₂.bwd E₂ toff q t = .ok r₂ → tm.bwd E toff (timesO p q) t = .ok (timesO r₁ r₂)
  | .leaf k _ v _, .leaf k₁ _ v₁ _, .leaf k₂ _ v₂ _, hm, toff, p, r₁, q, r₂, t, h₁, h₂ => by
      simp only [TM.bwd] at h₁ h₂ ⊢
      simp only [Apart] at hm
      exact leafBwd_separate h hm toff p r₁ q r₂ t h₁ h₂
  | .combined ms, .combined ms₁, .combined ms₂, hm, toff, p, r₁, q, r₂, t, h₁, h₂ => by
      simp only [Apart] at hm
      simp only [TM.bwd] at h₁ h₂ ⊢
      exact bwdAll_separate h ms ms₁ ms₂ hm toff p r₁ q r₂ t h₁ h₂
  | .serial _ v _ mask ms, .serial _ v₁ _ mask₁ ms₁, .serial _ v₂ _ mask₂ ms₂, hm, toff, p, r₁, q, r₂, t, h₁, h₂ => by
      simp only [Apart] at hm
      obtain ⟨rfl, rfl, rfl, rfl, hms⟩ := hm
      simp only [TM.bwd] at h₁ h₂ ⊢
      cases hv : scalars v₂ with
      | error x => rw [hv] at h₁; simp [bind, Except.bind] at h₁
      | ok vs =>
          simp only [hv, bind, Except.bind] at h₁ h₂ ⊢
          split at h₁
          · simp at h₁
          · rename_i q₁ hq₁
            split at h₂
            · simp at h₂
            · rename_i q₂ hq₂
              cases h₁; cases h₂
              rw [bwdNth_separate h ms ms₁ ms₂ hms _ _ p q₁ q q₂ t hq₁ hq₂]
              simp only [cpCheck_separate h]
  | .leaf _ _ _ _, .leaf _ _ _ _, .combined _, hm, _, _, _, _, _, _, _, _ => by simp [Apart] at hm
  | .leaf _ _ _ _, .leaf _ _ _ _, .serial _ _ _ _ _, hm, _, _, _, _, _, _, _, _ => by simp [Apart] at hm
  | .leaf _ _ _ _, .combined _, _, hm, _, _, _, _, _, _, _, _ => by simp [Apart] at hm
  | .leaf _ _ _ _, .serial _ _ _ _ _, _, hm, _, _, _, _, _, _, _, _ => by simp [Apart] at hm
  | .combined _, .leaf _ _ _ _, _, hm, _, _, _, _, _, _, _, _ => by simp [Apart] at hm
  | .combined _, .serial _ _ _ _ _, _, hm, _, _, _, _, _, _, _, _ => by simp [Apart] at hm
  | .combined _, .combined _, .leaf _ _ _ _, hm, _, _, _, _, _, _, _, _ => by simp [Apart] at hm
  | .combined _, .combined _, .serial _ _ _ _ _, hm, _, _, _, _, _, _, _, _ => by simp [Apart] at hm
  | .serial _ _ _ _ _, .leaf _ _ _ _, _, hm, _, _, _, _, _, _, _, _ => by simp [Apart] at hm
  | .serial _ _ _ _ _, .combined _, _, hm, _, _, _, _, _, _, _, _ => by simp [Apart] at hm
  | .serial _ _ _ _ _, .serial _ _ _ _ _, .leaf _ _ _ _, hm, _, _, _, _, _, _, _, _ => by simp [Apart] at hm
  | .serial _ _ _ _ _, .serial _ _ _ _ _, .combined _, hm, _, _, _, _, _, _, _, _ => by simp [Apart] at hm
theorem bwdAll_separate (h : ResetSeparate E E₁ E₂) :
    ∀ (ms ms₁ ms₂ : List (TM K)), ApartAll ms ms₁ ms₂ → ∀ (toff : K) (p r₁ : Arr K (gs₁ gs)) (q r₂ : Arr K (gs₂ gs)) (t : K),
      TM.bwdAll E₁ toff ms₁ p t = .ok r₁ → TM.bwdAll E₂ toff ms₂ q t = .ok r₂ → TM.bwdAll E toff ms (timesO p q) t = .ok (timesO r₁ r₂)
  | [], [], [], _, _, p, r₁, q, r₂, t, h₁, h₂ => by
      simp only [TM.bwdAll] at h₁ h₂ ⊢
      cases h₁; cases h₂; rfl
  | m :: ms, m₁ :: ms₁, m₂ :: ms₂, hm, toff, p, r₁, q, r₂, t, h₁, h₂ => by
      simp only [ApartAll] at hm
      simp only [TM.bwdAll, bind, Except.bind] at h₁ h₂ ⊢
      split at h₁
      · simp at h₁
      · rename_i q₁ hq₁
        split at h₂
        · simp at h₂
        · rename_i q₂ hq₂
          rw [bwd_separate h m m₁ m₂ hm.1 toff p q₁ q q₂ t hq₁ hq₂]
          exact bwdAll_separate h ms ms₁ ms₂ hm.2 toff q₁ r₁ q₂ r₂ t h₁ h₂
  | [], [], _ :: _, hm, _, _, _, _, _, _, _, _ => by simp [ApartAll] at hm
  | [], _ :: _, _, hm, _, _, _, _, _, _, _, _ => by simp [ApartAll] at hm
  | _ :: _, [], _, hm, _, _, _, _, _, _, _, _ => by simp [ApartAll] at hm
  | _ :: _, _ :: _, [], hm, _, _, _, _, _, _, _, _ => by simp [ApartAll] at hm
theorem bwdNth_separate (h : ResetSeparate E E₁ E₂) :
    ∀ (ms ms₁ ms₂ : List (TM K)), ApartAll ms ms₁ ms₂ → ∀ (toff : K) (i : ℕ) (p r₁ : Arr K (gs₁ gs)) (q r₂ : Arr K (gs₂ gs)) (t : K),
      TM.bwdNth E₁ toff ms₁ i p t = .ok r₁ → TM.bwdNth E₂ toff ms₂ i q t = .ok r₂ → TM.bwdNth E toff ms i (timesO p q) t = .ok (timesO r₁ r₂)
  | [], [], [], _, _, _, p, r₁, q, r₂, t, h₁, h₂ => by simp [TM.bwdNth] at h₁
  | m :: ms, m₁ :: ms₁, m₂ :: ms₂, hm, toff, 0, p, r₁, q, r₂, t, h₁, h₂ => by
      simp only [ApartAll] at hm
      simp only [TM.bwdNth] at h₁ h₂ ⊢
      exact bwd_separate h m m₁ m₂ hm.1 toff p r₁ q r₂ t h₁ h₂
  | m :: ms, m₁ :: ms₁, m₂ :: ms₂, hm, toff, i + 1, p, r₁, q, r₂, t, h₁, h₂ => by
      simp only [ApartAll] at hm
      simp only [TM.bwdNth] at h₁ h₂ ⊢
      exact bwdNth_separate h ms ms₁ ms₂ hm.2 toff i p r₁ q r₂ t h₁ h₂
  | [], [], _ :: _, hm, _, _, _, _, _, _, _, _, _ => by simp [ApartAll] at hm
  | [], _ :: _, _, hm, _, _, _, _, _, _, _, _, _ => by simp [ApartAll] at hm
  | _ :: _, [], _, hm, _, _, _, _, _, _, _, _, _ => by simp [ApartAll] at hm
  | _ :: _, _ :: _, [], hm, _, _, _, _, _, _, _, _, _ => by simp [ApartAll] at hm
end

end BL
