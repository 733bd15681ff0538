import Verif.Model.Fit
import Mathlib.Algebra.BigOperators.Field
import Mathlib.Tactic.Ring
import Mathlib.Tactic.FieldSimp

/-! # Scaling one likelihood -/

set_option linter.unusedSectionVars false

namespace Spec
open BL
variable {K : Type}

mutual
/-- the model contains no RegimeSwitch -/
def NoRegimeSwitch : TM K → Prop
  | .leaf .regimeSwitch _ _ _ => False
  | .leaf _ _ _ _ => True
  | .combined ms => NoRegimeSwitchAll ms
  | .serial _ _ _ _ ms => NoRegimeSwitchAll ms
/-- no member contains a RegimeSwitch -/
def NoRegimeSwitchAll : List (TM K) → Prop
  | [] => True
  | m :: ms => NoRegimeSwitch m ∧ NoRegimeSwitchAll ms
end

/-- multiply the likelihood of data point `k` by `c` -/
def scaleAt {ι : Type} [Mul K] (k : ℕ) (c : K) (Ls : List (ι → K)) : List (ι → K) := Ls.modify k fun L x => c * L x

/-- multiply entry `k` of a list of numbers by `c` -/
def scaleLocal [Mul K] (k : ℕ) (c : K) (l : List (Cell K)) : List (Cell K) :=
  l.modify k fun v => match v with
    | .val a => .val (c * a)
    | o => o

/-- the spline interpolation is linear in the array -/
def ShiftHomogeneous {K : Type} [Mul K] [LT K] [Zero K] {d : ℕ} {gs : Fin d → ℕ} (X : Ext K gs) : Prop :=
  ∀ a s c p, 0 < c → X.shift a s (fun x => c * p x) = fun x => c * X.shift a s p x

end Spec

namespace BL
open Spec
variable {K : Type} [Field K] [LinearOrder K] [IsStrictOrderedRing K] {d : ℕ} {gs : Fin d → ℕ}

/-- equal up to a positive factor -/
def SR (p q : Arr K gs) : Prop := ∃ c, 0 < c ∧ q = p.map fun v x => c * v x

/-- same exception, or results equal up to a positive factor -/
def SRE : Except PyErr (Arr K gs) → Except PyErr (Arr K gs) → Prop
  | .error e, .error e' => e = e'
  | .ok p, .ok q => SR p q
  | _, _ => False

theorem SR.refl (p : Arr K gs) : SR p p := ⟨1, one_pos, by cases p <;> simp⟩

theorem SRE.refl (p : Except PyErr (Arr K gs)) : SRE p p := by
  cases p with
  | error e => rfl
  | ok p => exact SR.refl p

theorem SRE.ok {p q : Arr K gs} (h : SR p q) : SRE (.ok p) (.ok q) := h

theorem SRE.of_eq {p q : Except PyErr (Arr K gs)} (h : p = q) : SRE p q := h ▸ SRE.refl p

theorem normalize_smul {c : K} (hc : c ≠ 0) (v : Idx gs → K) : normalize (fun x => c * v x) = normalize v := by
  unfold normalize
  rw [← Finset.mul_sum]
  by_cases h : ∑ x, v x = 0
  · simp [h]
  · rw [if_neg (mul_ne_zero hc h), if_neg h]
    congr 1; funext x; exact mul_div_mul_left _ _ hc

theorem bind_normalize_smul {c : K} (hc : c ≠ 0) (p : Arr K gs) :
    (p.map fun v x => c * v x).bind normalize = p.bind normalize := by
  cases p with
  | none => rfl
  | some v => simp [normalize_smul hc]

theorem amax_smul {c : K} (hc : 0 < c) (v : Idx gs → K) : amax (fun x => c * v x) = (amax v).map (c * ·) := by
  unfold amax
  cases h : (Finset.univ.image v).max with
  | bot =>
      have h' := Finset.max_eq_bot.1 h
      have : (Finset.univ : Finset (Idx gs)) = ∅ := Finset.image_eq_empty.1 h'
      have h2 : (Finset.univ.image fun x => c * v x) = ∅ := by rw [this]; rfl
      rw [h2]; rfl
  | coe m =>
      obtain ⟨x, -, hx⟩ := Finset.mem_image.1 (Finset.mem_of_max h)
      have hle : ∀ y, v y ≤ m := fun y => Finset.le_max_of_eq (Finset.mem_image_of_mem v (Finset.mem_univ y)) h
      show (Finset.univ.image fun x => c * v x).max = ((c * m : K) : WithBot K)
      refine le_antisymm ?_ ?_
      · refine Finset.max_le fun b hb => ?_
        obtain ⟨y, -, rfl⟩ := Finset.mem_image.1 hb
        exact WithBot.coe_le_coe.2 (mul_le_mul_of_nonneg_left (hle y) hc.le)
      · have := Finset.le_max (Finset.mem_image_of_mem (fun x => c * v x) (Finset.mem_univ x))
        simp only [hx] at this
        exact this

theorem convSame_smul (ker : (Fin d → ℤ) → K) (c : K) (p : Idx gs → K) :
    convSame ker (fun x => c * p x) = fun x => c * convSame ker p x := by
  funext y; unfold convSame; rw [Finset.mul_sum]
  exact Finset.sum_congr rfl fun x _ => mul_assoc _ _ _

theorem filterAxis_smul (r : ℕ) (w : ℤ → K) (a : Fin d) (c : K) (p : Idx gs → K) :
    filterAxis r w a (fun x => c * p x) = fun x => c * filterAxis r w a p x := by
  funext y; unfold filterAxis; rw [Finset.mul_sum]
  exact Finset.sum_congr rfl fun x _ => by ring

theorem detShift_SR {E : Env K gs} (hS : ShiftHomogeneous E.ext) {a : Fin d} {s : K} {p q : Arr K gs} (h : SR p q) :
    SRE (detShift E a s p) (detShift E a s q) := by
  obtain ⟨c, hc, rfl⟩ := h
  refine SRE.of_eq ?_
  unfold detShift
  split
  · rfl
  · congr 1
    cases p with
    | none => rfl
    | some v => simp [hS _ _ _ _ hc, normalize_smul hc.ne']

theorem leafFwd_SR {E : Env K gs} (hS : ShiftHomogeneous E.ext) {toff : K} {k : Leaf K} (hk : k ≠ .regimeSwitch) {vals : List (HVal K)}
    {p q : Arr K gs} {t : K} (h : SR p q) : SRE (leafFwd E toff k vals p t) (leafFwd E toff k vals q t) := by
  cases k with
  | static => exact h
  | grw target =>
      simp only [leafFwd, grwFwd, bind, Except.bind]
      split
      · rfl
      · split
        · rfl
        · split
          · split
            · rfl
            · exact h
          · split
            · obtain ⟨c, hc, rfl⟩ := h
              refine ⟨c, hc, ?_⟩
              cases p with
              | none => rfl
              | some v => simp [filterAxis_smul]
            · exact h
  | alphaStable target =>
      simp only [leafFwd, alphaFwd, bind, Except.bind]
      split
      · rfl
      · split
        · rfl
        · split
          · rfl
          · split
            · split
              · rfl
              · obtain ⟨c, hc, rfl⟩ := h
                refine SRE.of_eq ?_
                congr 1
                cases p with
                | none => rfl
                | some v => simp [convSame_smul, normalize_smul hc.ne']
            · exact SRE.refl _
  | changePoint =>
      simp only [leafFwd, bind, Except.bind]
      split
      · rfl
      · split
        · exact SR.refl _
        · exact h
  | independent => exact SRE.refl _
  | regimeSwitch => exact absurd rfl hk
  | notEqual =>
      simp only [leafFwd, notEqualFwd, bind, Except.bind]
      split
      · rfl
      · obtain ⟨c, hc, rfl⟩ := h
        cases p with
        | none => exact SR.refl _
        | some v =>
            simp only [Option.map_some, amax_smul hc]
            cases hm : amax v with
            | none => exact rfl
            | some m =>
                refine SRE.of_eq ?_
                simp only [Option.map_some]
                have : (fun x => c * m - c * v x) = fun x => c * (m - v x) := funext fun x => by ring
                rw [this, normalize_smul hc.ne']
  | deterministic f target =>
      simp only [leafFwd, bind, Except.bind]
      split
      · rfl
      · split
        · rfl
        · exact detShift_SR hS h
  | bivariate =>
      simp only [leafFwd, bivFwd, bind, Except.bind]
      split
      · rfl
      · split
        · rfl
        · split
          · rfl
          · split
            · split
              · rfl
              · split
                · rfl
                · obtain ⟨c, hc, rfl⟩ := h
                  refine SRE.of_eq ?_
                  congr 1
                  cases p with
                  | none => rfl
                  | some v => simp [convSame_smul, normalize_smul hc.ne']
            · rfl
  | breakPoint => exact rfl

theorem leafBwd_SR {E : Env K gs} (hS : ShiftHomogeneous E.ext) {toff : K} {k : Leaf K} (hk : k ≠ .regimeSwitch) {vals : List (HVal K)}
    {p q : Arr K gs} {t : K} (h : SR p q) : SRE (leafBwd E toff k vals p t) (leafBwd E toff k vals q t) := by
  by_cases hd : ∃ f target, k = .deterministic f target
  · obtain ⟨f, target, rfl⟩ := hd
    simp only [leafBwd, bind, Except.bind]
    split
    · rfl
    · split
      · rfl
      · exact detShift_SR hS h
  · have : ∀ p, leafBwd E toff k vals p t = leafFwd E toff k vals p (t - 1) := by
      intro p
      cases k <;> first | rfl | exact absurd ⟨_, _, rfl⟩ hd
    rw [this, this]
    exact leafFwd_SR hS hk h

theorem cpCheck_SR {E : Env K gs} {vs : List K} {mask : List Bool} {p q : Arr K gs} (h : SR p q) (t : K) :
    SR (cpCheck E vs mask p t) (cpCheck E vs mask q t) := by
  unfold cpCheck
  split
  · exact SR.refl _
  · exact h

mutual
theorem bwd_SR {E : Env K gs} (hS : ShiftHomogeneous E.ext) : ∀ (tm : TM K), NoRegimeSwitch tm → ∀ (toff : K) (p q : Arr K gs) (t : K),
    SR p q → SRE (tm.bwd E toff p t) (tm.bwd E toff q t)
  | .leaf k _ vals _, hN, toff, p, q, t, h => by
      rw [TM.bwd, TM.bwd]
      refine leafBwd_SR hS ?_ h
      rintro rfl
      rw [NoRegimeSwitch] at hN; exact hN
  | .combined ms, hN, toff, p, q, t, h => by
      rw [TM.bwd, TM.bwd]
      exact bwdAll_SR hS ms (by simpa only [NoRegimeSwitch] using hN) toff p q t h
  | .serial _ vals _ mask ms, hN, toff, p, q, t, h => by
      simp only [TM.bwd, bind, Except.bind]
      split
      · rfl
      · rename_i vs _
        have := bwdNth_SR hS ms (by simpa only [NoRegimeSwitch] using hN) (breakOffset vs (modelIndex vs (t - 1))) (modelIndex vs (t - 1)) p q t h
        revert this
        cases TM.bwdNth E (breakOffset vs (modelIndex vs (t - 1))) ms (modelIndex vs (t - 1)) p t <;>
          cases TM.bwdNth E (breakOffset vs (modelIndex vs (t - 1))) ms (modelIndex vs (t - 1)) q t
        · exact id
        · exact False.elim
        · exact False.elim
        · intro this
          exact cpCheck_SR this _
theorem bwdAll_SR {E : Env K gs} (hS : ShiftHomogeneous E.ext) : ∀ (ms : List (TM K)), NoRegimeSwitchAll ms → ∀ (toff : K) (p q : Arr K gs) (t : K),
    SR p q → SRE (TM.bwdAll E toff ms p t) (TM.bwdAll E toff ms q t)
  | [], _, toff, p, q, t, h => by rw [TM.bwdAll, TM.bwdAll]; exact h
  | m :: ms, hN, toff, p, q, t, h => by
      have hN' : NoRegimeSwitch m ∧ NoRegimeSwitchAll ms := by simpa only [NoRegimeSwitchAll] using hN
      have := bwd_SR hS m hN'.1 toff p q t h
      simp only [TM.bwdAll, bind, Except.bind]
      revert this
      cases TM.bwd E toff m p t <;> cases TM.bwd E toff m q t
      · exact id
      · exact False.elim
      · exact False.elim
      · intro this
        exact bwdAll_SR hS ms hN'.2 toff _ _ t this
theorem bwdNth_SR {E : Env K gs} (hS : ShiftHomogeneous E.ext) : ∀ (ms : List (TM K)), NoRegimeSwitchAll ms → ∀ (toff : K) (i : ℕ) (p q : Arr K gs) (t : K),
    SR p q → SRE (TM.bwdNth E toff ms i p t) (TM.bwdNth E toff ms i q t)
  | [], _, toff, i, p, q, t, h => by rw [TM.bwdNth, TM.bwdNth]; exact rfl
  | m :: ms, hN, toff, 0, p, q, t, h => by
      have hN' : NoRegimeSwitch m ∧ NoRegimeSwitchAll ms := by simpa only [NoRegimeSwitchAll] using hN
      rw [TM.bwdNth, TM.bwdNth]
      exact bwd_SR hS m hN'.1 toff p q t h
  | m :: ms, hN, toff, i + 1, p, q, t, h => by
      have hN' : NoRegimeSwitch m ∧ NoRegimeSwitchAll ms := by simpa only [NoRegimeSwitchAll] using hN
      rw [TM.bwdNth, TM.bwdNth]
      exact bwdNth_SR hS ms hN'.2 toff i p q t h
end

/-- a step whose likelihood was scaled -/
def scaleStep (c : K) (s : Step K gs) : Step K gs := ⟨s.alpha, c * s.norm, fun x => c * s.lik x, s.t⟩

theorem fwdPass_scale {E : Env K gs} {tm : TM K} {c : K} (hc : 0 < c) :
    ∀ (Ls : List (Idx gs → K)) (ts : List K) (k : ℕ) (al : Bool) (pr : PriorSpec K gs) (a : Arr K gs) (r : FwdOut K gs),
    fwdPass E tm al pr a Ls ts = .ok r →
    ∃ r', fwdPass E tm al pr a (scaleAt k c Ls) ts = .ok r' ∧ r'.stopped = r.stopped ∧
      r'.steps = r.steps.modify k (scaleStep c) ∧ (r.stopped = false → r'.prior = r.prior)
  | [], ts, k, al, pr, a, r, h => by
      have hs : scaleAt k c ([] : List (Idx gs → K)) = [] := by simp [scaleAt]
      rw [hs]
      refine ⟨r, h, rfl, ?_, fun _ => rfl⟩
      rw [fwdPass] at h; cases h; simp
  | L :: Ls, ts, k, al, pr, none, r, h => by
      obtain ⟨L', Ls', hs⟩ : ∃ L' Ls', scaleAt k c (L :: Ls) = L' :: Ls' := by cases k <;> exact ⟨_, _, rfl⟩
      rw [fwdPass] at h; cases h
      rw [hs, fwdPass]
      exact ⟨_, rfl, rfl, by simp, by simp⟩
  | L :: Ls, ts, 0, al, pr, some a, r, h => by
      have hs : scaleAt 0 c (L :: Ls) = (fun x => c * L x) :: Ls := rfl
      have e1 : ∀ x, a x * (c * L x) = c * (a x * L x) := fun x => by ring
      have e2 : ∑ x, a x * (c * L x) = c * ∑ x, a x * L x := by rw [Finset.mul_sum]; exact Finset.sum_congr rfl fun x _ => e1 x
      rw [fwdPass] at h
      rw [hs, fwdPass]
      simp only [e1, ← Finset.mul_sum, mul_div_mul_left _ _ hc.ne'] at h ⊢
      split at h
      · rename_i hn
        rw [if_pos (mul_pos hc hn)]
        cases ts with
        | nil => simp at h
        | cons t ts =>
            simp only [bind, Except.bind] at h ⊢
            split at h
            · simp at h
            · rename_i nx hnx
              split at h
              · simp at h
              · rename_i r1 hr1
                cases h
                simp only [hnx, hr1]
                refine ⟨_, rfl, ?_, ?_, ?_⟩
                · rfl
                · rfl
                · exact fun _ => rfl
      · rename_i hn
        have hn' : ¬ 0 < c * ∑ x, a x * L x := fun h' => hn ((mul_pos_iff_of_pos_left hc).1 h')
        rw [if_neg hn']
        cases h
        exact ⟨_, rfl, rfl, by simp, by simp⟩
  | L :: Ls, ts, k + 1, al, pr, some a, r, h => by
      have hs : scaleAt (k + 1) c (L :: Ls) = L :: scaleAt k c Ls := rfl
      rw [fwdPass] at h
      rw [hs, fwdPass]
      simp only at h ⊢
      split at h
      · rename_i hn
        rw [if_pos hn]
        cases ts with
        | nil => simp at h
        | cons t ts =>
            simp only [bind, Except.bind] at h ⊢
            split at h
            · simp at h
            · rename_i nx hnx
              split at h
              · simp at h
              · rename_i r1 hr1
                cases h
                obtain ⟨r2, h1, h2, h3, h4⟩ := fwdPass_scale hc Ls ts k _ _ nx r1 hr1
                rw [h1]
                exact ⟨_, rfl, h2, by simp [h3], h4⟩
      · rename_i hn
        rw [if_neg hn]
        cases h
        exact ⟨_, rfl, rfl, by simp, by simp⟩

theorem localEv_scale {E : Env K gs} {c : K} (hc : 0 < c) (post lik : Idx gs → K) :
    localEv E post (fun x => c * lik x) = match localEv E post lik with
      | .val a => .val (c * a)
      | o => o := by
  have e1 : ∀ x, c * lik x = 0 ↔ lik x = 0 := fun x => by simp [hc.ne']
  have e2 : ∑ x, post x / (c * lik x) = (∑ x, post x / lik x) / c := by
    rw [Finset.sum_div]; exact Finset.sum_congr rfl fun x _ => by rw [mul_comm, div_div]
  unfold localEv
  simp only [e1, e2]
  split_ifs with h1 h2 h3 h4 h5
  · rfl
  · simp
  · rfl
  · exact absurd (by rw [div_mul_eq_mul_div, div_eq_zero_iff] at h3; exact h3.resolve_right hc.ne') h4
  · exact absurd (by rw [div_mul_eq_mul_div, h5, zero_div]) h3
  · simp only [Cell.val.injEq]; field_simp

theorem bwdPass_scale {E : Env K gs} {tm : TM K} (hS : ShiftHomogeneous E.ext) (hN : NoRegimeSwitch tm) {c : K} (hc : 0 < c) :
    ∀ (st : List (Step K gs)) (k : ℕ) (o : BwdOut K gs), bwdPass E tm st = .ok o →
    ∃ o', bwdPass E tm (st.modify k (scaleStep c)) = .ok o' ∧ o'.posts = o.posts ∧ o'.stopped = o.stopped ∧ o'.beta = o.beta ∧
      o'.locals = scaleLocal k c o.locals
  | [], k, o, h => by
      rw [bwdPass] at h; cases h
      refine ⟨_, by simp only [List.modify_nil, bwdPass], rfl, rfl, rfl, by simp [scaleLocal]⟩
  | s :: rest, 0, o, h => by
      simp only [List.modify_zero_cons, bwdPass, bind, Except.bind] at h ⊢
      split at h
      · simp at h
      · rename_i o1 ho1
        split at h
        · rename_i hst
          cases h
          rw [if_pos hst]
          exact ⟨_, rfl, rfl, rfl, rfl, by simp [scaleStep, scaleLocal, mul_assoc]⟩
        · rename_i hst
          rw [if_neg hst]
          split at h
          · rename_i hb
            cases h
            exact ⟨_, rfl, rfl, rfl, rfl, by simp [scaleStep, scaleLocal, mul_assoc]⟩
          · rename_i b hb
            have e : (scaleStep c s).alpha = s.alpha := rfl
            simp only [e]
            split at h
            · rename_i hn
              rw [if_pos hn]
              have hsr := bwd_SR hS tm hN 0 (some fun x => b x * s.lik x) (some fun x => b x * (scaleStep c s).lik x) s.t
                ⟨c, hc, by simp only [Option.map_some, scaleStep, Option.some.injEq]; funext x; ring⟩
              have e2 : (scaleStep c s).t = s.t := rfl
              rw [e2]
              revert h hsr
              cases TM.bwd E 0 tm (some fun x => b x * s.lik x) s.t with
              | error e => intro h _; simp at h
              | ok nb =>
                  cases TM.bwd E 0 tm (some fun x => b x * (scaleStep c s).lik x) s.t with
                  | error e => intro _ h; exact h.elim
                  | ok nb' =>
                      rintro h ⟨c', hc', rfl⟩
                      simp only at h
                      cases h
                      refine ⟨_, rfl, rfl, rfl, bind_normalize_smul hc'.ne' nb, ?_⟩
                      simp only [scaleLocal, List.modify_zero_cons]
                      congr 1
                      exact localEv_scale hc _ _
            · rename_i hn
              rw [if_neg hn]
              cases h
              exact ⟨_, rfl, rfl, rfl, rfl, by simp [scaleStep, scaleLocal, mul_assoc]⟩
  | s :: rest, k + 1, o, h => by
      simp only [List.modify_succ_cons, bwdPass, bind, Except.bind] at h ⊢
      split at h
      · simp at h
      · rename_i o1 ho1
        obtain ⟨o2, h1, h2, h3, h4, h5⟩ := bwdPass_scale hS hN hc rest k o1 ho1
        rw [h1]
        simp only [h3, h4]
        split at h
        · rename_i hst
          cases h
          rw [if_pos hst]
          exact ⟨_, rfl, by simp [h2], by simp [h3], by simp [h4], by simp [h5, scaleLocal]⟩
        · rename_i hst
          rw [if_neg hst]
          split at h
          · rename_i hb
            cases h
            exact ⟨_, rfl, by simp [h2], rfl, by simp [h4, hb], by simp [h5, scaleLocal]⟩
          · rename_i b hb
            simp only [hb]
            split at h
            · rename_i hn
              rw [if_pos hn]
              split at h
              · simp at h
              · cases h
                exact ⟨_, rfl, by simp [h2], rfl, rfl, by simp [h5, scaleLocal]⟩
            · rename_i hn
              rw [if_neg hn]
              cases h
              exact ⟨_, rfl, by simp [h2], rfl, by simp [h4, hb], by simp [h5, scaleLocal]⟩

end BL
