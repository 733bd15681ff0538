import Verif.Lemmas.Separate
import Verif.Props.C08
import Verif.Props.C55
import Verif.Props.C61

/-! # C77: independent parameters are inferred independently -/

set_option linter.unusedSectionVars false

namespace BL
open Spec

variable {K : Type} [Field K] [LinearOrder K] [IsStrictOrderedRing K] {d₁ d₂ : ℕ} {gs : Fin (d₁ + d₂) → ℕ} {E : Env K gs} {E₁ : Env K (gs₁ gs)} {E₂ : Env K (gs₂ gs)}

theorem timesO_some (p : Idx (gs₁ gs) → K) (q : Idx (gs₂ gs) → K) : timesO (some p) (some q) = some (times p q) := rfl

theorem divScalar_times (p : Arr K (gs₁ gs)) (q : Arr K (gs₂ gs)) (a b : K) : ((timesO p q).bind fun r => divScalar r (a * b)) = timesO (p.bind fun r => divScalar r a) (q.bind fun r => divScalar r b) := by
  cases p with
  | none => cases q <;> rfl
  | some p =>
      cases q with
      | none => simp only [timesO, Option.bind_some, Option.bind_none]; cases divScalar p a <;> rfl
      | some q =>
          simp only [timesO, Option.bind_some, divScalar]
          by_cases ha : a = 0
          · simp [ha]
          · by_cases hb : b = 0
            · simp [hb]
            · simp only [mul_eq_zero, ha, hb, or_self, if_false]
              congr 1
              funext z
              simp only [times]
              field_simp

theorem computePrior_separate (hE : EnvSeparate E E₁ E₂) {pr : PriorSpec K gs} {pr₁ : PriorSpec K (gs₁ gs)} {pr₂ : PriorSpec K (gs₂ gs)} (h : PriorSeparate pr pr₁ pr₂) :
    ∃ p q, computePrior { E₁ with prior := pr₁ } = .ok (p, pr₁) ∧ computePrior { E₂ with prior := pr₂ } = .ok (q, pr₂) ∧ computePrior { E with prior := pr } = .ok (timesO p q, pr) ∧
      pr.isArray = false ∧ pr₁.isArray = false ∧ pr₂.isArray = false := by
  have hc : ({ E with prior := pr } : Env K gs).cell = ({ E₁ with prior := pr₁ } : Env K (gs₁ gs)).cell * ({ E₂ with prior := pr₂ } : Env K (gs₂ gs)).cell :=
    cell_separate (E := { E with prior := pr }) (E₁ := { E₁ with prior := pr₁ }) (E₂ := { E₂ with prior := pr₂ }) { hE with }
  cases h with
  | flat =>
      refine ⟨_, _, rfl, rfl, ?_, rfl, rfl, rfl⟩
      simp only [computePrior]
      rw [hc, const_times, normalize_times, divScalar_times]
  | func p q hp hq hpq =>
      refine ⟨_, _, by simp only [computePrior]; rw [if_pos hp], by simp only [computePrior]; rw [if_pos hq], ?_, rfl, rfl, rfl⟩
      simp only [computePrior]
      rw [if_pos (by rw [sum_times]; exact hpq), hc, normalize_times, divScalar_times]
  | rvs p q => exact ⟨some p, some q, by simp [computePrior], by simp [computePrior], by simp [computePrior, timesO], rfl, rfl, rfl⟩

/-- completed iterations of the two studies, taken together -/
def Step.times (s₁ : Step K (gs₁ gs)) (s₂ : Step K (gs₂ gs)) : Step K gs := ⟨Spec.times s₁.alpha s₂.alpha, s₁.norm * s₂.norm, Spec.times s₁.lik s₂.lik, s₁.t⟩

theorem fwdPass_separate {pr : PriorSpec K gs} {pr₁ : PriorSpec K (gs₁ gs)} {pr₂ : PriorSpec K (gs₂ gs)}
    (h : ResetSeparate { E with prior := pr } { E₁ with prior := pr₁ } { E₂ with prior := pr₂ }) {tm tm₁ tm₂ : TM K} (hm : Apart tm tm₁ tm₂) :
    ∀ (Ls₁ : List (Idx (gs₁ gs) → K)) (Ls₂ : List (Idx (gs₂ gs) → K)), Ls₁.length = Ls₂.length → ∀ (ts : List K) (p : Arr K (gs₁ gs)) (q : Arr K (gs₂ gs)) (r₁ : FwdOut K (gs₁ gs)) (r₂ : FwdOut K (gs₂ gs)),
      fwdPass E₁ tm₁ false pr₁ p Ls₁ ts = .ok r₁ → fwdPass E₂ tm₂ false pr₂ q Ls₂ ts = .ok r₂ → r₁.stopped = false → r₂.stopped = false →
        fwdPass E tm false pr (timesO p q) (List.zipWith times Ls₁ Ls₂) ts = .ok ⟨List.zipWith Step.times r₁.steps r₂.steps, false, pr⟩ ∧ r₁.steps.length = Ls₁.length ∧ r₂.steps.length = Ls₁.length ∧
          (r₁.steps.map fun s => s.t) = (r₂.steps.map fun s => s.t) ∧ r₁.prior = pr₁ ∧ r₂.prior = pr₂
  | [], [], _, ts, p, q, r₁, r₂, h₁, h₂, _, _ => by
      have e₁ : r₁ = ⟨[], false, pr₁⟩ := by cases p <;> (simp only [fwdPass] at h₁; cases h₁; rfl)
      have e₂ : r₂ = ⟨[], false, pr₂⟩ := by cases q <;> (simp only [fwdPass] at h₂; cases h₂; rfl)
      subst e₁ e₂
      refine ⟨?_, rfl, rfl, rfl, rfl, rfl⟩
      cases p <;> cases q <;> rfl
  | L₁ :: Ls₁, L₂ :: Ls₂, hl, ts, p, q, r₁, r₂, h₁, h₂, hs₁, hs₂ => by
      cases p with
      | none => simp only [fwdPass] at h₁; cases h₁; simp at hs₁
      | some p =>
          cases q with
          | none => simp only [fwdPass] at h₂; cases h₂; simp at hs₂
          | some q =>
              have e : (fun z => times p q z * times L₁ L₂ z) = times (fun x => p x * L₁ x) fun y => q y * L₂ y := by
                funext z; simp only [times]; ring
              have es : ∑ z, times p q z * times L₁ L₂ z = (∑ x, p x * L₁ x) * ∑ y, q y * L₂ y := by rw [← sum_times, ← e]
              simp only [fwdPass] at h₁ h₂
              by_cases hn₁ : 0 < ∑ x, p x * L₁ x
              · by_cases hn₂ : 0 < ∑ y, q y * L₂ y
                · simp only [hn₁, hn₂, if_true] at h₁ h₂
                  cases ts with
                  | nil => simp at h₁
                  | cons t ts =>
                      simp only [Bool.false_eq_true, if_false, Bool.false_and, bind, Except.bind] at h₁ h₂
                      split at h₁
                      · simp at h₁
                      · rename_i q₁ hq₁
                        split at h₁
                        · simp at h₁
                        · rename_i o₁ ho₁
                          cases h₁
                          split at h₂
                          · simp at h₂
                          · rename_i q₂ hq₂
                            split at h₂
                            · simp at h₂
                            · rename_i o₂ ho₂
                              cases h₂
                              obtain ⟨i1, i2, i3, i4, i5, i6⟩ := fwdPass_separate h hm Ls₁ Ls₂ (by simpa using hl) ts q₁ q₂ o₁ o₂ ho₁ ho₂ hs₁ hs₂
                              have hf := fwd_separate h tm tm₁ tm₂ hm 0 _ _ _ _ t hq₁ hq₂
                              refine ⟨?_, by simp [i2], by simp [i3], by simp [i4], i5, i6⟩
                              simp only [timesO_some, List.zipWith_cons_cons, fwdPass, es, mul_pos hn₁ hn₂, if_true, Bool.false_eq_true, if_false, Bool.false_and, bind, Except.bind]
                              have ea : (fun z => times p q z * times L₁ L₂ z / ((∑ x, p x * L₁ x) * ∑ y, q y * L₂ y)) =
                                  times (fun x => p x * L₁ x / ∑ x, p x * L₁ x) fun y => q y * L₂ y / ∑ y, q y * L₂ y := by
                                funext z
                                simp only [times]
                                rw [div_mul_div_comm]
                                congr 1
                                ring
                              simp only [timesO_some] at hf
                              rw [ea, hf]
                              simp only [i1]
                              rfl
                · simp only [hn₂, if_false] at h₂; cases h₂; simp at hs₂
              · simp only [hn₁, if_false] at h₁; cases h₁; simp at hs₁
  | [], _ :: _, hl, _, _, _, _, _, _, _, _, _ => by simp at hl
  | _ :: _, [], hl, _, _, _, _, _, _, _, _, _ => by simp at hl

theorem localEv_separate (h : EnvSeparate E E₁ E₂) {p l : Idx (gs₁ gs) → K} {q m : Idx (gs₂ gs) → K} (hl : ∀ x, l x ≠ 0) (hm : ∀ y, m y ≠ 0) {v w : K} (h₁ : localEv E₁ p l = .val v) (h₂ : localEv E₂ q m = .val w) :
    localEv E (times p q) (times l m) = .val (v * w) := by
  have hz : ∀ z, times l m z ≠ 0 := fun z => mul_ne_zero (hl _) (hm _)
  have es : ∑ z, times p q z / times l m z = (∑ x, p x / l x) * ∑ y, q y / m y := by
    rw [← sum_times]
    refine Finset.sum_congr rfl fun z _ => ?_
    simp only [times]
    rw [mul_div_mul_comm]
  unfold localEv at h₁ h₂ ⊢
  rw [if_neg (by rintro ⟨x, hx, -⟩; exact hl x hx), if_neg (by rintro ⟨x, hx⟩; exact hl x hx)] at h₁
  rw [if_neg (by rintro ⟨x, hx, -⟩; exact hm x hx), if_neg (by rintro ⟨x, hx⟩; exact hm x hx)] at h₂
  rw [if_neg (by rintro ⟨x, hx, -⟩; exact hz x hx), if_neg (by rintro ⟨x, hx⟩; exact hz x hx), es, cell_separate h]
  by_cases c₁ : (∑ x, p x / l x) * E₁.cell = 0
  · simp [c₁] at h₁
  · by_cases c₂ : (∑ y, q y / m y) * E₂.cell = 0
    · simp [c₂] at h₂
    · rw [if_neg c₁] at h₁
      rw [if_neg c₂] at h₂
      cases h₁; cases h₂
      have e : (∑ x, p x / l x) * (∑ y, q y / m y) * (E₁.cell * E₂.cell) = (∑ x, p x / l x) * E₁.cell * ((∑ y, q y / m y) * E₂.cell) := by ring
      rw [e, if_neg (mul_ne_zero c₁ c₂)]
      congr 1
      field_simp

/-- products of stored results -/
def Cell.times (c₁ : Cell (Idx (gs₁ gs) → K)) (c₂ : Cell (Idx (gs₂ gs) → K)) : Cell (Idx gs → K) :=
  match c₁, c₂ with
  | .val p, .val q => .val (Spec.times p q)
  | _, _ => .nan

theorem bwdPass_separate (h : ResetSeparate E E₁ E₂) {tm tm₁ tm₂ : TM K} (hm : Apart tm tm₁ tm₂) :
    ∀ (s₁ : List (Step K (gs₁ gs))) (s₂ : List (Step K (gs₂ gs))), s₁.length = s₂.length → (s₁.map fun s => s.t) = (s₂.map fun s => s.t) → ∀ (b₁ : BwdOut K (gs₁ gs)) (b₂ : BwdOut K (gs₂ gs)),
      bwdPass E₁ tm₁ s₁ = .ok b₁ → bwdPass E₂ tm₂ s₂ = .ok b₂ → b₁.stopped = false → b₂.stopped = false →
        ∃ b, bwdPass E tm (List.zipWith Step.times s₁ s₂) = .ok b ∧ b.stopped = false ∧ b.beta = timesO b₁.beta b₂.beta ∧ b.posts = List.zipWith Cell.times b₁.posts b₂.posts ∧
          b₁.posts.length = s₁.length ∧ b₂.posts.length = s₁.length ∧ b₁.locals.length = s₁.length ∧ b₂.locals.length = s₁.length ∧
          ((∀ s ∈ s₁, ∀ x, s.lik x ≠ 0) → (∀ s ∈ s₂, ∀ x, s.lik x ≠ 0) → ∀ (i : ℕ) (v w : K), b₁.locals[i]? = some (.val v) → b₂.locals[i]? = some (.val w) → b.locals[i]? = some (.val (v * w)))
  | [], [], _, _, b₁, b₂, h₁, h₂, _, _ => by
      simp only [bwdPass] at h₁ h₂
      cases h₁; cases h₂
      refine ⟨_, rfl, rfl, ?_, rfl, rfl, rfl, rfl, rfl, ?_⟩
      · simp only
        rw [const_times, normalize_times]
      · intro _ _ i v w hv; simp at hv
  | s₁ :: l₁, s₂ :: l₂, hl, ht, b₁, b₂, h₁, h₂, hb₁, hb₂ => by
      simp only [List.map_cons, List.cons.injEq] at ht
      simp only [bwdPass, bind, Except.bind] at h₁ h₂
      split at h₁
      · simp at h₁
      · rename_i o₁ ho₁
        split at h₂
        · simp at h₂
        · rename_i o₂ ho₂
          cases hso₁ : o₁.stopped with
          | true => simp only [hso₁, if_true] at h₁; cases h₁; simp [hso₁] at hb₁
          | false =>
              cases hso₂ : o₂.stopped with
              | true => simp only [hso₂, if_true] at h₂; cases h₂; simp [hso₂] at hb₂
              | false =>
                  simp only [hso₁, hso₂, Bool.false_eq_true, if_false] at h₁ h₂
                  cases hβ₁ : o₁.beta with
                  | none => simp only [hβ₁] at h₁; cases h₁; simp at hb₁
                  | some β₁ =>
                      cases hβ₂ : o₂.beta with
                      | none => simp only [hβ₂] at h₂; cases h₂; simp at hb₂
                      | some β₂ =>
                          simp only [hβ₁, hβ₂] at h₁ h₂
                          by_cases hn₁ : 0 < ∑ x, s₁.alpha x * β₁ x
                          · by_cases hn₂ : 0 < ∑ x, s₂.alpha x * β₂ x
                            · simp only [hn₁, hn₂, if_true] at h₁ h₂
                              split at h₁
                              · simp at h₁
                              · rename_i q₁ hq₁
                                split at h₂
                                · simp at h₂
                                · rename_i q₂ hq₂
                                  cases h₁; cases h₂
                                  obtain ⟨o, i1, i2, i3, i4, i5, i6, i7, i8, i9⟩ := bwdPass_separate h hm l₁ l₂ (by simpa using hl) ht.2 o₁ o₂ ho₁ ho₂ hso₁ hso₂
                                  have e : ∑ z, (Step.times s₁ s₂).alpha z * times β₁ β₂ z = (∑ x, s₁.alpha x * β₁ x) * ∑ y, s₂.alpha y * β₂ y := by
                                    rw [← sum_times]
                                    refine Finset.sum_congr rfl fun z _ => ?_
                                    simp only [Step.times, times]; ring
                                  have ep : (fun z => (Step.times s₁ s₂).alpha z * times β₁ β₂ z / ((∑ x, s₁.alpha x * β₁ x) * ∑ y, s₂.alpha y * β₂ y)) =
                                      times (fun x => s₁.alpha x * β₁ x / ∑ x, s₁.alpha x * β₁ x) fun y => s₂.alpha y * β₂ y / ∑ y, s₂.alpha y * β₂ y := by
                                    funext z
                                    simp only [Step.times, times]
                                    rw [div_mul_div_comm]
                                    congr 1
                                    ring
                                  have eb : (fun z => times β₁ β₂ z * (Step.times s₁ s₂).lik z) = times (fun x => β₁ x * s₁.lik x) fun y => β₂ y * s₂.lik y := by
                                    funext z; simp only [Step.times, times]; ring
                                  have hf := bwd_separate h tm tm₁ tm₂ hm 0 _ _ _ _ s₁.t hq₁ (ht.1 ▸ hq₂)
                                  simp only [timesO_some] at hf
                                  refine ⟨⟨.val (times (fun x => s₁.alpha x * β₁ x / ∑ x, s₁.alpha x * β₁ x) fun y => s₂.alpha y * β₂ y / ∑ y, s₂.alpha y * β₂ y) :: o.posts,
                                    localEv E (times (fun x => s₁.alpha x * β₁ x / ∑ x, s₁.alpha x * β₁ x) fun y => s₂.alpha y * β₂ y / ∑ y, s₂.alpha y * β₂ y) (times s₁.lik s₂.lik) :: o.locals,
                                    (timesO q₁ q₂).bind BL.normalize, false⟩, ?_, rfl, ?_, ?_, by simp [i5], by simp [i6], by simp [i7], by simp [i8], ?_⟩
                                  · simp only [List.zipWith_cons_cons, bwdPass, i1, bind, Except.bind, i2, Bool.false_eq_true, if_false, i3, hβ₁, hβ₂, timesO_some, e, mul_pos hn₁ hn₂, if_true, ep, eb]
                                    have : (Step.times s₁ s₂).t = s₁.t := rfl
                                    rw [this, hf]
                                    rfl
                                  · simp only [bind_normalize_times]
                                  · simp only [List.zipWith_cons_cons, i4]; rfl
                                  · intro hp₁ hp₂ i v w hv hw
                                    cases i with
                                    | zero =>
                                        simp only [List.getElem?_cons_zero, Option.some.injEq] at hv hw ⊢
                                        exact localEv_separate h.env (hp₁ s₁ (by simp)) (hp₂ s₂ (by simp)) hv hw
                                    | succ i =>
                                        simp only [List.getElem?_cons_succ] at hv hw ⊢
                                        exact i9 (fun s hs => hp₁ s (by simp [hs])) (fun s hs => hp₂ s (by simp [hs])) i v w hv hw
                            · simp only [hn₂, if_false] at h₂; cases h₂; simp at hb₂
                          · simp only [hn₁, if_false] at h₁; cases h₁; simp at hb₁
  | [], _ :: _, hl, _, _, _, _, _, _, _ => by simp at hl
  | _ :: _, [], hl, _, _, _, _, _, _, _ => by simp at hl


theorem mean_left {grid : (a : Fin (d₁ + d₂)) → Fin (gs a) → K} (a : Fin d₁) {p : Idx (gs₁ gs) → K} {q : Idx (gs₂ gs) → K} (hq : ∑ y, q y = 1) :
    mean grid (Fin.castAdd d₂ a) (times p q) = mean (gs := gs₁ gs) (fun a => grid (Fin.castAdd d₂ a)) a p := by
  have := sum_times (gs := gs) (fun x => p x * grid (Fin.castAdd d₂ a) (x a)) q
  rw [hq, mul_one] at this
  unfold mean
  rw [← this]
  refine Finset.sum_congr rfl fun z _ => ?_
  simp only [times, first]
  ring

theorem mean_right {grid : (a : Fin (d₁ + d₂)) → Fin (gs a) → K} (b : Fin d₂) {p : Idx (gs₁ gs) → K} {q : Idx (gs₂ gs) → K} (hp : ∑ x, p x = 1) :
    mean grid (Fin.natAdd d₁ b) (times p q) = mean (gs := gs₂ gs) (fun b => grid (Fin.natAdd d₁ b)) b q := by
  have := sum_times (gs := gs) p (fun y => q y * grid (Fin.natAdd d₁ b) (y b))
  rw [hp, one_mul] at this
  unfold mean
  rw [← this]
  refine Finset.sum_congr rfl fun z _ => ?_
  simp only [times, second]
  ring

theorem means_left {grid : (a : Fin (d₁ + d₂)) → Fin (gs a) → K} (a : Fin d₁) : ∀ (l₁ : List (Cell (Idx (gs₁ gs) → K))) (l₂ : List (Cell (Idx (gs₂ gs) → K))), l₁.length = l₂.length →
    (∀ c ∈ l₁, ∃ p, c = .val p ∧ ∑ x, p x = 1) → (∀ c ∈ l₂, ∃ p, c = .val p ∧ ∑ x, p x = 1) →
    ((List.zipWith Cell.times l₁ l₂).map fun c => c.get?.map (mean grid (Fin.castAdd d₂ a))) = l₁.map fun c => c.get?.map (mean (gs := gs₁ gs) (fun a => grid (Fin.castAdd d₂ a)) a)
  | [], [], _, _, _ => rfl
  | c₁ :: l₁, c₂ :: l₂, hl, h₁, h₂ => by
      obtain ⟨p, rfl, hp⟩ := h₁ c₁ (by simp)
      obtain ⟨q, rfl, hq⟩ := h₂ c₂ (by simp)
      rw [List.zipWith_cons_cons, List.map_cons, List.map_cons, means_left a l₁ l₂ (by simpa using hl) (fun c hc => h₁ c (by simp [hc])) fun c hc => h₂ c (by simp [hc])]
      simp only [Cell.times, Cell.get?, Option.map_some, mean_left a hq]
  | [], _ :: _, hl, _, _ => by simp at hl
  | _ :: _, [], hl, _, _ => by simp at hl

theorem means_right {grid : (a : Fin (d₁ + d₂)) → Fin (gs a) → K} (b : Fin d₂) : ∀ (l₁ : List (Cell (Idx (gs₁ gs) → K))) (l₂ : List (Cell (Idx (gs₂ gs) → K))), l₁.length = l₂.length →
    (∀ c ∈ l₁, ∃ p, c = .val p ∧ ∑ x, p x = 1) → (∀ c ∈ l₂, ∃ p, c = .val p ∧ ∑ x, p x = 1) →
    ((List.zipWith Cell.times l₁ l₂).map fun c => c.get?.map (mean grid (Fin.natAdd d₁ b))) = l₂.map fun c => c.get?.map (mean (gs := gs₂ gs) (fun b => grid (Fin.natAdd d₁ b)) b)
  | [], [], _, _, _ => rfl
  | c₁ :: l₁, c₂ :: l₂, hl, h₁, h₂ => by
      obtain ⟨p, rfl, hp⟩ := h₁ c₁ (by simp)
      obtain ⟨q, rfl, hq⟩ := h₂ c₂ (by simp)
      rw [List.zipWith_cons_cons, List.map_cons, List.map_cons, means_right b l₁ l₂ (by simpa using hl) (fun c hc => h₁ c (by simp [hc])) fun c hc => h₂ c (by simp [hc])]
      simp only [Cell.times, Cell.get?, Option.map_some, mean_right b hp]
  | [], _ :: _, hl, _, _ => by simp at hl
  | _ :: _, [], hl, _, _ => by simp at hl

theorem sumLog_separate (h : EnvSeparate E E₁ E₂) : ∀ (l₁ : List (Step K (gs₁ gs))) (l₂ : List (Step K (gs₂ gs))), l₁.length = l₂.length →
    (sumLog E (List.zipWith Step.times l₁ l₂)).exp = (sumLog E₁ l₁).exp * (sumLog E₂ l₂).exp := by
  have key : ∀ (l₁ : List (Step K (gs₁ gs))) (l₂ : List (Step K (gs₂ gs))), l₁.length = l₂.length → normProd (List.zipWith Step.times l₁ l₂) = normProd l₁ * normProd l₂ := by
    intro l₁
    induction l₁ with
    | nil => intro l₂ hl; cases l₂ with
      | nil => simp [normProd]
      | cons _ _ => simp at hl
    | cons s l₁ ih => intro l₂ hl; cases l₂ with
      | nil => simp at hl
      | cons s₂ l₂ =>
          have := ih l₂ (by simpa using hl)
          simp only [normProd, List.zipWith_cons_cons, List.map_cons, List.prod_cons] at this ⊢
          rw [this]
          simp only [Step.times]
          ring
  intro l₁ l₂ hl
  rw [sumLog_exp, sumLog_exp, sumLog_exp, key l₁ l₂ hl, cell_separate h]
  ring

theorem locals_separate (h : EnvSeparate E E₁ E₂) (l₁ : List (Step K (gs₁ gs))) (l₂ : List (Step K (gs₂ gs))) (i : ℕ) (v w : K)
    (hv : (l₁.map fun s => Cell.val (s.norm * E₁.cell))[i]? = some (.val v)) (hw : (l₂.map fun s => Cell.val (s.norm * E₂.cell))[i]? = some (.val w)) :
    ((List.zipWith Step.times l₁ l₂).map fun s => Cell.val (s.norm * E.cell))[i]? = some (.val (v * w)) := by
  simp only [List.getElem?_map, Option.map_eq_some_iff] at hv hw ⊢
  obtain ⟨s₁, g₁, e₁⟩ := hv
  obtain ⟨s₂, g₂, e₂⟩ := hw
  cases e₁; cases e₂
  refine ⟨Step.times s₁ s₂, by rw [List.getElem?_zipWith, g₁, g₂], ?_⟩
  simp only [Step.times, cell_separate h]
  congr 1
  ring

theorem posts_separate {l₁ : List (Step K (gs₁ gs))} {l₂ : List (Step K (gs₂ gs))} : (List.zipWith Step.times l₁ l₂).map (fun s => Cell.val s.alpha) = List.zipWith Cell.times (l₁.map fun s => Cell.val s.alpha) (l₂.map fun s => Cell.val s.alpha) := by
  rw [List.map_zipWith, List.zipWith_map]
  rfl

theorem fwd_liks : ∀ {d : ℕ} {gs : Fin d → ℕ} {E : Env K gs} {tm : TM K} (Ls : List (Idx gs → K)) (ts : List K) (al : Bool) (pr : PriorSpec K gs) (a : Arr K gs) (r : FwdOut K gs),
    fwdPass E tm al pr a Ls ts = .ok r → ∀ s ∈ r.steps, s.lik ∈ Ls
  | _, _, _, _, [], ts, al, pr, a, r, h, s, hs => by
      have : r.steps = [] := by cases a <;> (simp only [fwdPass] at h; cases h; rfl)
      simp [this] at hs
  | _, _, _, _, L :: Ls, ts, al, pr, none, r, h, s, hs => by simp only [fwdPass] at h; cases h; simp at hs
  | _, _, E, tm, L :: Ls, ts, al, pr, some a, r, h, s, hs => by
      simp only [fwdPass] at h
      split at h
      · cases ts with
        | nil => simp at h
        | cons t ts =>
            simp only [bind, Except.bind] at h
            split at h
            · simp at h
            · split at h
              · simp at h
              · rename_i o ho
                cases h
                simp only [List.mem_cons] at hs
                rcases hs with rfl | hs
                · simp
                · exact List.mem_cons_of_mem _ (fwd_liks Ls ts _ _ _ o ho s hs)
      · cases h; simp at hs

end BL

namespace Props
open BL Spec
variable {K : Type} [Field K] [LinearOrder K] [IsStrictOrderedRing K] {d₁ d₂ : ℕ} {gs : Fin (d₁ + d₂) → ℕ}

/-- **C77.** The parameters of a study form two groups; the prior is the product of priors of the groups, each likelihood is a product of a function of the first and a function of the second group, and the transition model
consists of random walks of single parameters, change-points, break-points, Independent and combinations of them.  If the groups are studied separately (both fits succeed with evidence different from zero), then the fit of
the joint study succeeds, its evidence is the product of the evidences, each of its posterior distributions is the product of those of the groups, the mean values are those of the groups, and so are (for non-zero
likelihoods) the local evidences, as products. -/
theorem C77 (E : Env K gs) (E₁ : Env K (gs₁ gs)) (E₂ : Env K (gs₂ gs)) (hE : EnvSeparate E E₁ E₂) (grid : (a : Fin (d₁ + d₂)) → Fin (gs a) → K) (tm tm₁ tm₂ : TM K) (hm : Apart tm tm₁ tm₂)
    (S : FitState K gs) (S₁ : FitState K (gs₁ gs)) (S₂ : FitState K (gs₂ gs)) (hp : PriorSeparate S.prior S₁.prior S₂.prior)
    (Ls₁ : List (Idx (gs₁ gs) → K)) (Ls₂ : List (Idx (gs₂ gs) → K)) (hl : Ls₁.length = Ls₂.length) (ts : List K) (fo eo : Bool) (A₁ : FitState K (gs₁ gs)) (A₂ : FitState K (gs₂ gs))
    (h₁ : fit E₁ (fun a => grid (Fin.castAdd d₂ a)) tm₁ Ls₁ ts fo eo S₁ = .ok A₁) (h₂ : fit E₂ (fun b => grid (Fin.natAdd d₁ b)) tm₂ Ls₂ ts fo eo S₂ = .ok A₂)
    (hf₁ : A₁.logEv ≠ LogV.ninf) (hf₂ : A₂.logEv ≠ LogV.ninf) :
    ∃ A, fit E grid tm (List.zipWith (fun L M z => L (first z) * M (second z)) Ls₁ Ls₂) ts fo eo S = .ok A ∧ A.logEv.exp = A₁.logEv.exp * A₂.logEv.exp ∧
      (eo = false → (∀ (i : ℕ) (p : Idx (gs₁ gs) → K) (q : Idx (gs₂ gs) → K), A₁.posts[i]? = some (.val p) → A₂.posts[i]? = some (.val q) → A.posts[i]? = some (.val fun z => p (first z) * q (second z))) ∧
        (∀ a, A.means (Fin.castAdd d₂ a) = A₁.means a) ∧ ∀ b, A.means (Fin.natAdd d₁ b) = A₂.means b) ∧
      ((∀ L ∈ Ls₁, ∀ x, L x ≠ 0) → (∀ L ∈ Ls₂, ∀ x, L x ≠ 0) → ∀ (i : ℕ) (v w : K), A₁.locals[i]? = some (.val v) → A₂.locals[i]? = some (.val w) → A.locals[i]? = some (.val (v * w))) := by
  have hA₁ := h₁
  have hA₂ := h₂
  have main : ∃ A, fit E grid tm (List.zipWith times Ls₁ Ls₂) ts fo eo S = .ok A ∧ A.logEv.exp = A₁.logEv.exp * A₂.logEv.exp ∧ (eo = false → A.posts = List.zipWith Cell.times A₁.posts A₂.posts) ∧
      ((∀ L ∈ Ls₁, ∀ x, L x ≠ 0) → (∀ L ∈ Ls₂, ∀ x, L x ≠ 0) → ∀ (i : ℕ) (v w : K), A₁.locals[i]? = some (.val v) → A₂.locals[i]? = some (.val w) → A.locals[i]? = some (.val (v * w))) := by
    have hR : ResetSeparate { E with prior := S.prior } { E₁ with prior := S₁.prior } { E₂ with prior := S₂.prior } := ⟨{ hE with }, resetArr_separate (E := { E with prior := S.prior }) (E₁ := { E₁ with prior := S₁.prior }) (E₂ := { E₂ with prior := S₂.prior }) hp⟩
    obtain ⟨p, q, c1, c2, c3, c4, c5, c6⟩ := computePrior_separate hE hp
    unfold fit at h₁ h₂ ⊢
    rw [c1] at h₁
    rw [c2] at h₂
    rw [c3]
    simp only [bind, Except.bind, c4, c5, c6] at h₁ h₂ ⊢
    split at h₁
    · simp at h₁
    · rename_i r₁ hr₁
      split at h₂
      · simp at h₂
      · rename_i r₂ hr₂
        have hs₁ : r₁.stopped = false := by
          cases hs : r₁.stopped with
          | false => rfl
          | true => simp only [hs, if_true] at h₁; cases h₁; simp at hf₁
        have hs₂ : r₂.stopped = false := by
          cases hs : r₂.stopped with
          | false => rfl
          | true => simp only [hs, if_true] at h₂; cases h₂; simp at hf₂
        obtain ⟨f1, f2, f3, f4, f5, f6⟩ := fwdPass_separate (E := E) (E₁ := E₁) (E₂ := E₂) hR hm Ls₁ Ls₂ hl ts p q r₁ r₂ hr₁ hr₂ hs₁ hs₂
        have hlen : r₁.steps.length = r₂.steps.length := by rw [f2, f3]
        rw [f1]
        simp only [hs₁, hs₂, Bool.false_eq_true, if_false] at h₁ h₂ ⊢
        cases eo with
        | true =>
            simp only [if_true] at h₁ h₂ ⊢
            cases h₁; cases h₂
            exact ⟨_, rfl, sumLog_separate hE _ _ hlen, by simp, fun _ _ i v w => locals_separate hE _ _ i v w⟩
        | false =>
            simp only [Bool.false_eq_true, if_false] at h₁ h₂ ⊢
            cases fo with
            | true =>
                simp only [if_true] at h₁ h₂ ⊢
                cases h₁; cases h₂
                exact ⟨_, rfl, sumLog_separate hE _ _ hlen, fun _ => posts_separate, fun _ _ i v w => locals_separate hE _ _ i v w⟩
            | false =>
                simp only [Bool.false_eq_true, if_false] at h₁ h₂ ⊢
                split at h₁
                · simp at h₁
                · rename_i b₁ hb₁
                  split at h₂
                  · simp at h₂
                  · rename_i b₂ hb₂
                    have ht₁ : b₁.stopped = false := by
                      cases hs : b₁.stopped with
                      | false => rfl
                      | true => simp only [hs, if_true] at h₁; cases h₁; simp at hf₁
                    have ht₂ : b₂.stopped = false := by
                      cases hs : b₂.stopped with
                      | false => rfl
                      | true => simp only [hs, if_true] at h₂; cases h₂; simp at hf₂
                    rw [f5] at hb₁
                    rw [f6] at hb₂
                    obtain ⟨b, g1, g2, -, g4, -, -, -, -, g9⟩ := bwdPass_separate (E := { E with prior := S.prior }) (E₁ := { E₁ with prior := S₁.prior }) (E₂ := { E₂ with prior := S₂.prior }) hR hm _ _ hlen f4 b₁ b₂ hb₁ hb₂ ht₁ ht₂
                    rw [g1]
                    simp only [ht₁, ht₂, g2, Bool.false_eq_true, if_false] at h₁ h₂ ⊢
                    cases h₁; cases h₂
                    exact ⟨_, rfl, sumLog_separate hE _ _ hlen, fun _ => g4, fun k₁ k₂ => g9 (fun s hs => k₁ _ (fwd_liks _ _ _ _ _ _ hr₁ s hs)) fun s hs => k₂ _ (fwd_liks _ _ _ _ _ _ hr₂ s hs)⟩
  obtain ⟨A, m1, m2, m3, m4⟩ := main
  refine ⟨A, m1, m2, ?_, m4⟩
  rintro rfl
  have hfin : A.logEv ≠ LogV.ninf := by
    intro h0
    rw [h0] at m2
    rcases mul_eq_zero.1 m2.symm with h | h
    · exact hf₁ (LogV.ext_exp h)
    · exact hf₂ (LogV.ext_exp h)
  obtain ⟨n1, n2⟩ := C07_normalised _ _ _ _ _ _ _ _ hA₁ hf₁
  obtain ⟨n3, n4⟩ := C07_normalised _ _ _ _ _ _ _ _ hA₂ hf₂
  have hlen : A₁.posts.length = A₂.posts.length := by rw [n1, n3, hl]
  refine ⟨fun i p q hi hj => ?_, fun a => ?_, fun b => ?_⟩
  · rw [m3 rfl, List.getElem?_zipWith, hi, hj]; rfl
  · have e1 := fit_means _ _ _ _ _ _ _ _ m1 hfin (Fin.castAdd d₂ a)
    rw [m3 rfl, means_left a _ _ hlen n2 n4, ← fit_means _ _ _ _ _ _ _ _ hA₁ hf₁ a] at e1
    exact (List.map_injective_iff.2 (Option.some_injective K)) e1
  · have e1 := fit_means _ _ _ _ _ _ _ _ m1 hfin (Fin.natAdd d₁ b)
    rw [m3 rfl, means_right b _ _ hlen n2 n4, ← fit_means _ _ _ _ _ _ _ _ hA₂ hf₂ b] at e1
    exact (List.map_injective_iff.2 (Option.some_injective K)) e1

/-- helper: a second group whose likelihoods are one and whose own study finds evidence one -/
theorem unused_of (E : Env K gs) (E₁ : Env K (gs₁ gs)) (E₂ : Env K (gs₂ gs)) (hE : EnvSeparate E E₁ E₂) (grid : (a : Fin (d₁ + d₂)) → Fin (gs a) → K) (tm tm₁ tm₂ : TM K) (hm : Apart tm tm₁ tm₂)
    (S : FitState K gs) (S₁ : FitState K (gs₁ gs)) (S₂ : FitState K (gs₂ gs)) (hp : PriorSeparate S.prior S₁.prior S₂.prior)
    (Ls : List (Idx (gs₁ gs) → K)) (ts : List K) (fo eo : Bool) (A₁ : FitState K (gs₁ gs)) (A₂ : FitState K (gs₂ gs))
    (h₁ : fit E₁ (fun a => grid (Fin.castAdd d₂ a)) tm₁ Ls ts fo eo S₁ = .ok A₁) (hf₁ : A₁.logEv ≠ LogV.ninf)
    (k1 : fit E₂ (fun b => grid (Fin.natAdd d₁ b)) tm₂ (List.replicate Ls.length fun _ => 1) ts fo eo S₂ = .ok A₂) (k3 : A₂.logEv.exp = 1) :
    ∃ A, fit E grid tm (Ls.map fun L z => L (first z)) ts fo eo S = .ok A ∧ A.logEv = A₁.logEv ∧
      (eo = false → (∀ (i : ℕ) (p : Idx (gs₁ gs) → K), A₁.posts[i]? = some (.val p) → ∃ q : Idx (gs₂ gs) → K, ∑ y, q y = 1 ∧ A.posts[i]? = some (.val fun z => p (first z) * q (second z))) ∧
        ∀ a, A.means (Fin.castAdd d₂ a) = A₁.means a) := by
  have hf₂ : A₂.logEv ≠ LogV.ninf := by
    intro h0
    rw [h0] at k3
    exact zero_ne_one k3
  obtain ⟨A, m1, m2, m3, -⟩ := C77 E E₁ E₂ hE grid tm tm₁ tm₂ hm S S₁ S₂ hp Ls _ (by simp) ts fo eo A₁ _ h₁ k1 hf₁ hf₂
  have hz : ∀ l : List (Idx (gs₁ gs) → K), List.zipWith (fun (L : Idx (gs₁ gs) → K) (M : Idx (gs₂ gs) → K) (z : Idx gs) => L (first z) * M (second z)) l (List.replicate l.length fun _ => 1) = l.map fun L z => L (first z) := by
    intro l
    induction l with
    | nil => rfl
    | cons L l ih => simp only [List.length_cons, List.replicate_succ, List.zipWith_cons_cons, ih, List.map_cons, mul_one]
  rw [hz] at m1
  refine ⟨A, m1, LogV.ext_exp (by rw [m2, k3, mul_one]), ?_⟩
  rintro rfl
  refine ⟨fun i p hi => ?_, (m3 rfl).2.1⟩
  obtain ⟨n1, n2⟩ := C07_normalised _ _ _ _ _ _ _ _ h₁ hf₁
  obtain ⟨n3, n4⟩ := C07_normalised _ _ _ _ _ _ _ _ k1 hf₂
  have hi' : i < A₂.posts.length := by
    rw [n3, List.length_replicate, ← n1]
    exact (List.getElem?_eq_some_iff.1 hi).1
  obtain ⟨q, hq, hs⟩ := n4 _ (List.getElem_mem hi')
  exact ⟨q, hs, (m3 rfl).1 i p q hi (by rw [List.getElem?_eq_getElem hi', hq])⟩

/-- **C77 (parameters without influence).** Parameters that do not occur in the likelihood, with a normalised prior and an own dynamics, do not change the evidence, and neither do they change the distributions and mean
values of the other parameters (modes forward-only and evidence-only). -/
theorem C77_unused (E : Env K gs) (E₁ : Env K (gs₁ gs)) (E₂ : Env K (gs₂ gs)) (hE : EnvSeparate E E₁ E₂) (grid : (a : Fin (d₁ + d₂)) → Fin (gs a) → K) (tm tm₁ tm₂ : TM K) (hm : Apart tm tm₁ tm₂)
    (S : FitState K gs) (S₁ : FitState K (gs₁ gs)) (S₂ : FitState K (gs₂ gs)) (hp : PriorSeparate S.prior S₁.prior S₂.prior)
    (hne : Nonempty (Idx (gs₂ gs))) (hl : ∀ b, 0 < E₂.lattice b) (hX : ProperExt E₂.ext) (hc : Conserving E₂ tm₂) (π : Idx (gs₂ gs) → K) (hπ : PriorMass E₂.cell S₂.prior π) (hpr : ProperPrior S₂.prior) (hone : ∑ y, π y = 1)
    (Ls : List (Idx (gs₁ gs) → K)) (hLs : Ls ≠ []) (ts : List K) (hts : ts.length = Ls.length) (fo eo : Bool) (hmode : eo = true ∨ fo = true) (A₁ : FitState K (gs₁ gs))
    (h₁ : fit E₁ (fun a => grid (Fin.castAdd d₂ a)) tm₁ Ls ts fo eo S₁ = .ok A₁) (hf₁ : A₁.logEv ≠ LogV.ninf) :
    ∃ A, fit E grid tm (Ls.map fun L z => L (first z)) ts fo eo S = .ok A ∧ A.logEv = A₁.logEv ∧
      (eo = false → (∀ (i : ℕ) (p : Idx (gs₁ gs) → K), A₁.posts[i]? = some (.val p) → ∃ q : Idx (gs₂ gs) → K, ∑ y, q y = 1 ∧ A.posts[i]? = some (.val fun z => p (first z) * q (second z))) ∧
        ∀ a, A.means (Fin.castAdd d₂ a) = A₁.means a) := by
  obtain ⟨n, hn⟩ : ∃ n, Ls.length = n + 1 := ⟨Ls.length - 1, by have := List.length_pos_iff.2 hLs; omega⟩
  obtain ⟨result, k1, -, k3⟩ := C61_partial (X := Unit) E₂ (fun b => grid (Fin.natAdd d₁ b)) tm₂ S₂ π hne hl hX hc hπ hpr hone (fun _ _ _ => 1)
    ⟨fun _ _ _ => zero_le_one, fun _ _ => by simp⟩ n ts (by rw [hts, hn]) fo eo hmode
  have k3 : (result fun _ => ()).logEv.exp = 1 := by
    rw [Fintype.sum_eq_single (fun _ => ()) fun x hx => absurd (funext fun _ => rfl) hx] at k3
    exact k3
  have hones : ∀ (l h : List Unit), likelihoods (fun (_ : List Unit) (_ : Unit) (_ : Idx (gs₂ gs)) => (1 : K)) h l = List.replicate l.length fun _ => 1 := by
    intro l
    induction l with
    | nil => intro h; rfl
    | cons x l ih => intro h; simp only [likelihoods, ih, List.length_cons, List.replicate_succ]
  have k1 := k1 fun _ => ()
  generalize (result fun _ => ()) = A₂ at k1 k3
  rw [hones, List.length_ofFn, ← hn] at k1
  exact unused_of E E₁ E₂ hE grid tm tm₁ tm₂ hm S S₁ S₂ hp Ls ts fo eo A₁ _ h₁ hf₁ k1 k3

/-- **C77 (parameters without influence, full fits).** The same for full fits with time stamps in steps of one and, if the own dynamics of the unused parameters contains change-points or Independent, a flat prior of these
parameters (the conditions under which the backward pass is exact, see C04-C06). -/
theorem C77_unused_full (E : Env K gs) (E₁ : Env K (gs₁ gs)) (E₂ : Env K (gs₂ gs)) (hE : EnvSeparate E E₁ E₂) (grid : (a : Fin (d₁ + d₂)) → Fin (gs a) → K) (tm tm₁ tm₂ : TM K) (hm : Apart tm tm₁ tm₂)
    (S : FitState K gs) (S₁ : FitState K (gs₁ gs)) (S₂ : FitState K (gs₂ gs)) (hp : PriorSeparate S.prior S₁.prior S₂.prior)
    (hR : Regular E₂) (hX : ProperExt E₂.ext) (hc : Conserving E₂ tm₂) (hlin : Linear E₂ tm₂) (π : Idx (gs₂ gs) → K) (hπ : PriorMass E₂.cell S₂.prior π) (hpr : ProperPrior S₂.prior) (hone : ∑ y, π y = 1)
    (hflat : ResetFree tm₂ ∨ S₂.prior = .none)
    (n : ℕ) (L : Fin (n + 1) → Idx (gs₁ gs) → K) (τ : Fin (n + 1) → K) (hU : ∀ i : Fin n, τ i.succ = τ i.castSucc + 1) (A₁ : FitState K (gs₁ gs))
    (h₁ : fit E₁ (fun a => grid (Fin.castAdd d₂ a)) tm₁ (List.ofFn L) (List.ofFn τ) false false S₁ = .ok A₁) (hf₁ : A₁.logEv ≠ LogV.ninf) :
    ∃ A, fit E grid tm (List.ofFn fun i z => L i (first z)) (List.ofFn τ) false false S = .ok A ∧ A.logEv = A₁.logEv ∧
      (∀ (i : ℕ) (p : Idx (gs₁ gs) → K), A₁.posts[i]? = some (.val p) → ∃ q : Idx (gs₂ gs) → K, ∑ y, q y = 1 ∧ A.posts[i]? = some (.val fun z => p (first z) * q (second z))) ∧
        ∀ a, A.means (Fin.castAdd d₂ a) = A₁.means a := by
  have hones : ∀ (l h : List Unit), likelihoods (fun (_ : List Unit) (_ : Unit) (_ : Idx (gs₂ gs)) => (1 : K)) h l = List.replicate l.length fun _ => 1 := by
    intro l
    induction l with
    | nil => intro h; rfl
    | cons x l ih => intro h; simp only [likelihoods, ih, List.length_cons, List.replicate_succ]
  obtain ⟨result, k1, -, k3⟩ := C61_partial (X := Unit) E₂ (fun b => grid (Fin.natAdd d₁ b)) tm₂ S₂ π hR.nonempty hR.lattice_pos hX hc hπ hpr hone (fun _ _ _ => 1)
    ⟨fun _ _ _ => zero_le_one, fun _ _ => by simp⟩ n (List.ofFn τ) (by simp) false true (Or.inl rfl)
  have k3 : (result fun _ => ()).logEv.exp = 1 := by
    rw [Fintype.sum_eq_single (fun _ => ()) fun x hx => absurd (funext fun _ => rfl) hx] at k3
    exact k3
  have k1 := k1 fun _ => ()
  rw [hones, List.length_ofFn, ← List.ofFn_const] at k1
  obtain ⟨B1, B2, B3, b1, b2, b3, e1, e2⟩ := C08_partial E₂ (fun b => grid (Fin.natAdd d₁ b)) tm₂ hR hlin S₂ π hπ hflat (fun _ _ => (1 : K)) (fun _ _ => zero_le_one) τ hU
  rw [b3] at k1
  cases k1
  rw [List.ofFn_const] at b1
  have hl : (List.ofFn L).length = n + 1 := by simp
  obtain ⟨A, m1, m2, m3⟩ := unused_of E E₁ E₂ hE grid tm tm₁ tm₂ hm S S₁ S₂ hp (List.ofFn L) (List.ofFn τ) false false A₁ B1 h₁ hf₁ (by rw [hl]; exact b1) (by rw [e1, e2]; exact k3)
  rw [List.map_ofFn] at m1
  exact ⟨A, m1, m2, m3 rfl⟩

/-- grid with 2 × 3 points -/
def gsS : Fin (1 + 1) → ℕ := fun a => if a = 0 then 2 else 3

/-- lattice constants 1 and 1/2 -/
def envS : Env ℚ gsS := ⟨fun a => if a = 0 then "a" else "b", fun a => if a = 0 then 1 else 1 / 2, .none, Ex.ext gsS⟩

/-- parameter "a" only -/
def envS₁ : Env ℚ (gs₁ (d₁ := 1) (d₂ := 1) gsS) := ⟨fun _ => "a", fun _ => 1, .none, Ex.ext _⟩

/-- parameter "b" only -/
def envS₂ : Env ℚ (gs₂ (d₁ := 1) (d₂ := 1) gsS) := ⟨fun _ => "b", fun _ => 1 / 2, .none, Ex.ext _⟩

/-- walks of both parameters, change-point at 1, then a walk of the second one -/
def tmS (a b c : TM ℚ) : TM ℚ := Ex.ser true 1 (.combined [a, b]) c

/-- random walk -/
def walkS (n : String) : TM ℚ := .leaf (.grw n) ["sigma"] [.scalar 1] none

/-- likelihoods -/
def liksS₁ : List (Idx (gs₁ (d₁ := 1) (d₂ := 1) gsS) → ℚ) := [fun x => 1 + (x 0).val, fun x => 2 + (x 0).val, fun x => 3 - (x 0).val]

/-- likelihoods -/
def liksS₂ : List (Idx (gs₂ (d₁ := 1) (d₂ := 1) gsS) → ℚ) := [fun y => 1 + (y 0).val, fun y => 2 + (y 0).val, fun y => 5 - (y 0).val]

theorem envS_separate : EnvSeparate (d₁ := 1) (d₂ := 1) envS envS₁ envS₂ where
  names₁ := by decide +kernel
  names₂ := by decide +kernel
  distinct := by decide +kernel
  lattice₁ := by decide +kernel
  lattice₂ := by decide +kernel
  gaussR₁ := rfl
  gaussR₂ := rfl
  gaussW₁ := rfl
  gaussW₂ := rfl

theorem tmS_apart : Apart (tmS (walkS "a") (walkS "b") (walkS "b")) (tmS (walkS "a") Ex.static Ex.static) (tmS Ex.static (walkS "b") (walkS "b")) := by
  simp only [tmS, Ex.ser, walkS, Ex.static, Apart, ApartAll, and_true, true_and]
  exact ⟨⟨.walk₁ _ _ _, .walk₂ _ _ _⟩, .walk₂ _ _ _⟩

/-- The hypotheses of `C77` can be met. -/
example : ∃ (A : FitState ℚ gsS) (A₁ : FitState ℚ (gs₁ (d₁ := 1) (d₂ := 1) gsS)) (A₂ : FitState ℚ (gs₂ (d₁ := 1) (d₂ := 1) gsS)),
    fit envS₁ (fun _ i => i.val) (tmS (walkS "a") Ex.static Ex.static) liksS₁ [0, 1, 2] false false (Ex.S0 .none) = .ok A₁ ∧
    fit envS₂ (fun _ i => i.val) (tmS Ex.static (walkS "b") (walkS "b")) liksS₂ [0, 1, 2] false false (Ex.S0 .none) = .ok A₂ ∧
    fit envS (fun _ i => i.val) (tmS (walkS "a") (walkS "b") (walkS "b")) (List.zipWith (fun L M z => L (first (d₁ := 1) (d₂ := 1) z) * M (second (d₁ := 1) (d₂ := 1) z)) liksS₁
      liksS₂) [0, 1, 2] false false (Ex.S0 .none) = .ok A ∧
    A.logEv.exp = A₁.logEv.exp * A₂.logEv.exp ∧ A.means 1 = A₂.means 0 := by
  obtain ⟨A₁, h₁, f₁⟩ := Ex.ok_of_ev (r := fit envS₁ (fun _ i => i.val) (tmS (walkS "a") Ex.static Ex.static) liksS₁ [0, 1, 2] false false (Ex.S0 .none)) (by decide +kernel)
  obtain ⟨A₂, h₂, f₂⟩ := Ex.ok_of_ev (r := fit envS₂ (fun _ i => i.val) (tmS Ex.static (walkS "b") (walkS "b")) liksS₂ [0, 1, 2] false false (Ex.S0 .none)) (by decide +kernel)
  obtain ⟨A, m1, m2, m3, -⟩ := C77 (d₁ := 1) (d₂ := 1) envS envS₁ envS₂ envS_separate (fun _ i => i.val) _ _ _ tmS_apart (Ex.S0 .none) (Ex.S0 .none) (Ex.S0 .none) .flat _ _ rfl [0, 1, 2] false false A₁ A₂ h₁ h₂ f₁ f₂
  exact ⟨A, A₁, A₂, h₁, h₂, m1, m2, (m3 rfl).2.2 0⟩

/-- The hypotheses of `C77_unused` can be met: the second parameter performs a random walk and does not occur in the likelihood. -/
example : ∃ (A : FitState ℚ gsS) (A₁ : FitState ℚ (gs₁ (d₁ := 1) (d₂ := 1) gsS)),
    fit envS₁ (fun _ i => i.val) (.combined [walkS "a", Ex.static]) liksS₁ [0, 1, 2] true false (Ex.S0 .none) = .ok A₁ ∧
    fit envS (fun _ i => i.val) (.combined [walkS "a", walkS "b"]) (liksS₁.map fun L z => L (first (d₁ := 1) (d₂ := 1) z)) [0, 1, 2] true false (Ex.S0 .none) = .ok A ∧
    A.logEv = A₁.logEv := by
  obtain ⟨A₁, h₁, f₁⟩ := Ex.ok_of_ev (r := fit envS₁ (fun _ i => i.val) (.combined [walkS "a", Ex.static]) liksS₁ [0, 1, 2] true false (Ex.S0 .none)) (by decide +kernel)
  have hax : envS₂.axis "b" = .ok 0 := by decide +kernel
  obtain ⟨A, m1, m2, -⟩ := C77_unused (d₁ := 1) (d₂ := 1) envS envS₁ envS₂ envS_separate (fun _ i => i.val) (.combined [walkS "a", walkS "b"]) (.combined [walkS "a", Ex.static]) (.combined [Ex.static, walkS "b"])
    (by simp only [walkS, Ex.static, Apart, ApartAll, and_true]; exact ⟨.walk₁ _ _ _, .walk₂ _ _ _⟩) (Ex.S0 .none) (Ex.S0 .none) (Ex.S0 .none) .flat ⟨fun b => ⟨0, by revert b; decide⟩⟩ (by intro b; norm_num [envS₂])
    ⟨Ex.gaussOK _, by intro a b c k l; simp only [envS₂, Ex.ext]; split <;> norm_num, by intro a b c _ _ _; simp [envS₂, Ex.ext]⟩
    (by simp only [Ex.static, walkS, Conserving, ConservingAll, and_true, true_and]; exact ⟨⟨0, hax⟩, 1, rfl⟩) _ .flat trivial (by decide +kernel) _ (by simp [liksS₁]) [0, 1, 2] rfl true false (.inr rfl) A₁ h₁ f₁
  exact ⟨A, A₁, h₁, m1, m2⟩

/-- The hypotheses of `C77_unused_full` can be met. -/
example : ∃ (A : FitState ℚ gsS) (A₁ : FitState ℚ (gs₁ (d₁ := 1) (d₂ := 1) gsS)),
    fit envS₁ (fun _ i => i.val) (.combined [walkS "a", Ex.static]) (List.ofFn fun i : Fin (2 + 1) => fun x => (i.val : ℚ) + 1 + (x 0).val) (List.ofFn fun i : Fin (2 + 1) => (i.val : ℚ)) false false (Ex.S0 .none) = .ok A₁ ∧
    fit envS (fun _ i => i.val) (.combined [walkS "a", walkS "b"]) (List.ofFn fun (i : Fin (2 + 1)) z => (i.val : ℚ) + 1 + (first (d₁ := 1) (d₂ := 1) z 0).val) (List.ofFn fun i : Fin (2 + 1) => (i.val : ℚ)) false false
      (Ex.S0 .none) = .ok A ∧ A.logEv = A₁.logEv := by
  obtain ⟨A₁, h₁, f₁⟩ := Ex.ok_of_ev (r := fit envS₁ (fun _ i => i.val) (.combined [walkS "a", Ex.static]) (List.ofFn fun i : Fin (2 + 1) => fun x => (i.val : ℚ) + 1 + (x 0).val)
    (List.ofFn fun i : Fin (2 + 1) => (i.val : ℚ)) false false (Ex.S0 .none)) (by decide +kernel)
  have hax : envS₂.axis "b" = .ok 0 := by decide +kernel
  obtain ⟨A, m1, m2, -⟩ := C77_unused_full (d₁ := 1) (d₂ := 1) envS envS₁ envS₂ envS_separate (fun _ i => i.val) (.combined [walkS "a", walkS "b"]) (.combined [walkS "a", Ex.static]) (.combined [Ex.static, walkS "b"])
    (by simp only [walkS, Ex.static, Apart, ApartAll, and_true]; exact ⟨.walk₁ _ _ _, .walk₂ _ _ _⟩) (Ex.S0 .none) (Ex.S0 .none) (Ex.S0 .none) .flat
    ⟨by intro b; norm_num [envS₂], ⟨fun b => ⟨0, by revert b; decide⟩⟩, Ex.gaussOK _⟩
    ⟨Ex.gaussOK _, by intro a b c k l; simp only [envS₂, Ex.ext]; split <;> norm_num, by intro a b c _ _ _; simp [envS₂, Ex.ext]⟩
    (by simp only [Ex.static, walkS, Conserving, ConservingAll, and_true, true_and]; exact ⟨⟨0, hax⟩, 1, rfl⟩)
    (by simp only [Ex.static, walkS, Linear, LinearAll, and_true, true_and]; exact ⟨⟨0, hax⟩, 1, rfl⟩) _ .flat trivial (by decide +kernel) (.inr rfl) 2 _ _ (by intro i; push_cast [Fin.val_succ, Fin.val_castSucc]; ring) A₁ h₁ f₁
  exact ⟨A, A₁, h₁, m1, m2⟩

end Props
