import Verif.Spec.Units
import Verif.Lemmas.Scale
import Verif.Lemmas.Prior
import Verif.Lemmas.FitLin
import Mathlib.Algebra.Order.BigOperators.GroupWithZero.Finset
import Mathlib.Tactic.Linarith
import Mathlib.Tactic.FieldSimp

/-! # Change of units: the transition models -/

set_option linter.unusedSectionVars false

namespace BL
open Spec

variable {K : Type} [Field K] [LinearOrder K] [IsStrictOrderedRing K] {d : ℕ} {gs : Fin d → ℕ}

/-- product of the factors -/
def unitVolume (u : String → K) (E : Env K gs) : K := ∏ a, u (E.names a)

theorem units_cell {u : String → K} {E E' : Env K gs} (h : EnvUnits u E E') : E'.cell = unitVolume u E * E.cell := by
  unfold Env.cell unitVolume
  rw [← Finset.prod_mul_distrib]
  exact Finset.prod_congr rfl fun a _ => h.lattice a

theorem unitVolume_pos {u : String → K} (hu : ∀ s, 0 < u s) (E : Env K gs) : 0 < unitVolume u E := Finset.prod_pos fun a _ => hu _

theorem axis_name {E : Env K gs} {target : String} {a : Fin d} (h : E.axis target = .ok a) : E.names a = target := by
  unfold Env.axis at h
  split at h
  · rename_i b hb
    cases h
    simpa using List.find?_some hb
  · cases h

theorem units_axis {u : String → K} {E E' : Env K gs} (h : EnvUnits u E E') (target : String) : E'.axis target = E.axis target := by
  unfold Env.axis
  rw [h.names]

theorem mul_div_units {u s l : K} (hu : 0 < u) : u * s / (u * l) = s / l := mul_div_mul_left _ _ hu.ne'

theorem detDist_units (f : K → List K → K) (c : K) (vs : List K) (toff t0 t1 : K) : detDist (fun t vs => c * f t vs) vs toff t0 t1 = c * detDist f vs toff t0 t1 := by
  unfold detDist
  ring

theorem detShift_units {u : String → K} (hu : ∀ s, 0 < u s) {E E' : Env K gs} (h : EnvUnits u E E') (a : Fin d) (s : K) (p : Arr K gs) :
    detShift E' a (u (E.names a) * s) p = detShift E a s p := by
  unfold detShift
  rw [h.lattice, h.ext, mul_div_units (hu _)]
  simp only [mul_eq_zero, (hu _).ne', false_or]

theorem leafFwd_units {u : String → K} (hu : ∀ s, 0 < u s) {E E' : Env K gs} (h : EnvUnits u E E') (hr : E'.resetArr = E.resetArr) (toff : K) {k k' : Leaf K} {vals vals' : List (HVal K)}
    (hk : LeafUnits E.ext.pow10 E.names u (unitVolume u E) k vals k' vals') (p : Arr K gs) (t : K) : leafFwd E' toff k' vals' p t = leafFwd E toff k vals p t := by
  cases hk with
  | static => rfl
  | grw target σ =>
      simp only [leafFwd, grwFwd, units_axis h, h.ext]
      cases ha : E.axis target with
      | error e => rfl
      | ok a =>
          have hn := axis_name ha
          simp only [bind, Except.bind, scalarAt, List.getElem?_cons_zero, h.lattice, hn, mul_eq_zero, (hu target).ne', false_or, mul_pos_iff_of_pos_left (hu target), mul_div_units (hu target)]
  | alphaStable target c α =>
      simp only [leafFwd, alphaFwd, units_axis h, h.ext]
      cases ha : E.axis target with
      | error e => rfl
      | ok a =>
          have hn := axis_name ha
          simp only [bind, Except.bind, scalarAt, List.getElem?_cons_zero, List.getElem?_cons_succ, h.lattice, hn, mul_eq_zero, (hu target).ne', false_or, mul_div_units (hu target)]
  | independent => simp only [leafFwd, hr]
  | regimeSwitch v v' hv =>
      have e : E'.ext.pow10 v' * E'.cell = E.ext.pow10 v * E.cell := by
        rw [h.ext, hv, units_cell h, div_mul_eq_mul_div, mul_left_comm, mul_div_cancel_left₀ _ (unitVolume_pos hu E).ne']
      simp only [leafFwd, regimeFwd, scalarAt, List.getElem?_cons_zero, bind, Except.bind, e]
  | notEqual v v' hv =>
      have e : E'.ext.pow10 v' * E'.cell = E.ext.pow10 v * E.cell := by
        rw [h.ext, hv, units_cell h, div_mul_eq_mul_div, mul_left_comm, mul_div_cancel_left₀ _ (unitVolume_pos hu E).ne']
      simp only [leafFwd, notEqualFwd, scalarAt, List.getElem?_cons_zero, bind, Except.bind, e]
  | deterministic f target =>
      simp only [leafFwd, units_axis h]
      cases ha : E.axis target with
      | error e => rfl
      | ok a =>
          have hn := axis_name ha
          simp only [bind, Except.bind, detDist_units]
          cases scalars vals with
          | error e => rfl
          | ok vs => simp only; rw [← hn, detShift_units hu h]
  | bivariate h0 h1 s1 s2 ρ =>
      simp only [leafFwd, bivFwd, numberAt, List.getElem?_cons_zero, List.getElem?_cons_succ, bind, Except.bind, h.ext]
      split
      · simp only [h.lattice, mul_eq_zero, (hu _).ne', false_or, mul_div_units (hu _)]
        simp only [← not_lt, mul_pos_iff_of_pos_left (hu _)]
      · rfl

theorem leafBwd_units {u : String → K} (hu : ∀ s, 0 < u s) {E E' : Env K gs} (h : EnvUnits u E E') (hr : E'.resetArr = E.resetArr) (toff : K) {k k' : Leaf K} {vals vals' : List (HVal K)}
    (hk : LeafUnits E.ext.pow10 E.names u (unitVolume u E) k vals k' vals') (p : Arr K gs) (t : K) : leafBwd E' toff k' vals' p t = leafBwd E toff k vals p t := by
  have key := leafFwd_units hu h hr toff hk p (t - 1)
  cases hk with
  | deterministic f target =>
      simp only [leafBwd, units_axis h]
      cases ha : E.axis target with
      | error e => rfl
      | ok a =>
          have hn := axis_name ha
          simp only [bind, Except.bind, detDist_units]
          cases scalars vals with
          | error e => rfl
          | ok vs => simp only; rw [← hn, detShift_units hu h]
  | _ => simpa only [leafBwd] using key

theorem cpIn_false (vs : List K) (mask : List Bool) (h : ∀ b ∈ mask, b = false) (t : K) : cpIn vs mask t = false := by
  unfold cpIn
  rw [List.any_eq_false]
  intro q hq
  simp [h q.2 (List.of_mem_zip hq).2]

mutual
theorem fwd_units {u : String → K} (hu : ∀ s, 0 < u s) {E E' : Env K gs} (h : EnvUnits u E E') (hr : E'.resetArr = E.resetArr) :
    ∀ (tm tm' : TM K), InUnits E.ext.pow10 E.names u (unitVolume u E) tm tm' → ∀ (toff : K) (p : Arr K gs) (t : K), tm'.fwd E' toff p t = tm.fwd E toff p t
  | .leaf k _ vals _, .leaf k' _ vals' _, hm, toff, p, t => by
      simp only [InUnits] at hm
      simp only [TM.fwd]
      exact leafFwd_units hu h hr toff hm p t
  | .combined ms, .combined ms', hm, toff, p, t => by
      simp only [InUnits] at hm
      simp only [TM.fwd]
      exact fwdAll_units hu h hr ms ms' hm toff p t
  | .serial _ vals _ mask ms, .serial _ vals' _ mask' ms', hm, toff, p, t => by
      simp only [InUnits] at hm
      obtain ⟨rfl, hm1, rfl, hm2⟩ := hm
      simp only [TM.fwd, cpCheck, cpIn_false _ _ hm1]
      cases scalars vals' with
      | error e => rfl
      | ok vs => simp only [bind, Except.bind, fwdNth_units hu h hr ms ms' hm2, Bool.false_eq_true, if_false]
  | .leaf .., .combined _, hm, _, _, _ => by simp [InUnits] at hm
  | .leaf .., .serial .., hm, _, _, _ => by simp [InUnits] at hm
  | .combined _, .leaf .., hm, _, _, _ => by simp [InUnits] at hm
  | .combined _, .serial .., hm, _, _, _ => by simp [InUnits] at hm
  | .serial .., .leaf .., hm, _, _, _ => by simp [InUnits] at hm
  | .serial .., .combined _, hm, _, _, _ => by simp [InUnits] at hm
theorem fwdAll_units {u : String → K} (hu : ∀ s, 0 < u s) {E E' : Env K gs} (h : EnvUnits u E E') (hr : E'.resetArr = E.resetArr) :
    ∀ (ms ms' : List (TM K)), InUnitsAll E.ext.pow10 E.names u (unitVolume u E) ms ms' → ∀ (toff : K) (p : Arr K gs) (t : K), TM.fwdAll E' toff ms' p t = TM.fwdAll E toff ms p t
  | [], [], _, _, _, _ => rfl
  | m :: ms, m' :: ms', hm, toff, p, t => by
      simp only [InUnitsAll] at hm
      simp only [TM.fwdAll, fwd_units hu h hr m m' hm.1]
      congr 1
      funext q
      exact fwdAll_units hu h hr ms ms' hm.2 toff q t
  | [], _ :: _, hm, _, _, _ => by simp [InUnitsAll] at hm
  | _ :: _, [], hm, _, _, _ => by simp [InUnitsAll] at hm
theorem fwdNth_units {u : String → K} (hu : ∀ s, 0 < u s) {E E' : Env K gs} (h : EnvUnits u E E') (hr : E'.resetArr = E.resetArr) :
    ∀ (ms ms' : List (TM K)), InUnitsAll E.ext.pow10 E.names u (unitVolume u E) ms ms' → ∀ (toff : K) (i : ℕ) (p : Arr K gs) (t : K), TM.fwdNth E' toff ms' i p t = TM.fwdNth E toff ms i p t
  | [], [], _, _, _, _, _ => rfl
  | m :: ms, m' :: ms', hm, toff, 0, p, t => by
      simp only [InUnitsAll] at hm
      simp only [TM.fwdNth, fwd_units hu h hr m m' hm.1]
  | m :: ms, m' :: ms', hm, toff, i + 1, p, t => by
      simp only [InUnitsAll] at hm
      simp only [TM.fwdNth]
      exact fwdNth_units hu h hr ms ms' hm.2 toff i p t
  | [], _ :: _, hm, _, _, _, _ => by simp [InUnitsAll] at hm
  | _ :: _, [], hm, _, _, _, _ => by simp [InUnitsAll] at hm
end

mutual
theorem bwd_units {u : String → K} (hu : ∀ s, 0 < u s) {E E' : Env K gs} (h : EnvUnits u E E') (hr : E'.resetArr = E.resetArr) :
    ∀ (tm tm' : TM K), InUnits E.ext.pow10 E.names u (unitVolume u E) tm tm' → ∀ (toff : K) (p : Arr K gs) (t : K), tm'.bwd E' toff p t = tm.bwd E toff p t
  | .leaf k _ vals _, .leaf k' _ vals' _, hm, toff, p, t => by
      simp only [InUnits] at hm
      simp only [TM.bwd]
      exact leafBwd_units hu h hr toff hm p t
  | .combined ms, .combined ms', hm, toff, p, t => by
      simp only [InUnits] at hm
      simp only [TM.bwd]
      exact bwdAll_units hu h hr ms ms' hm toff p t
  | .serial _ vals _ mask ms, .serial _ vals' _ mask' ms', hm, toff, p, t => by
      simp only [InUnits] at hm
      obtain ⟨rfl, hm1, rfl, hm2⟩ := hm
      simp only [TM.bwd, cpCheck, cpIn_false _ _ hm1]
      cases scalars vals' with
      | error e => rfl
      | ok vs => simp only [bind, Except.bind, bwdNth_units hu h hr ms ms' hm2, Bool.false_eq_true, if_false]
  | .leaf .., .combined _, hm, _, _, _ => by simp [InUnits] at hm
  | .leaf .., .serial .., hm, _, _, _ => by simp [InUnits] at hm
  | .combined _, .leaf .., hm, _, _, _ => by simp [InUnits] at hm
  | .combined _, .serial .., hm, _, _, _ => by simp [InUnits] at hm
  | .serial .., .leaf .., hm, _, _, _ => by simp [InUnits] at hm
  | .serial .., .combined _, hm, _, _, _ => by simp [InUnits] at hm
theorem bwdAll_units {u : String → K} (hu : ∀ s, 0 < u s) {E E' : Env K gs} (h : EnvUnits u E E') (hr : E'.resetArr = E.resetArr) :
    ∀ (ms ms' : List (TM K)), InUnitsAll E.ext.pow10 E.names u (unitVolume u E) ms ms' → ∀ (toff : K) (p : Arr K gs) (t : K), TM.bwdAll E' toff ms' p t = TM.bwdAll E toff ms p t
  | [], [], _, _, _, _ => rfl
  | m :: ms, m' :: ms', hm, toff, p, t => by
      simp only [InUnitsAll] at hm
      simp only [TM.bwdAll, bwd_units hu h hr m m' hm.1]
      congr 1
      funext q
      exact bwdAll_units hu h hr ms ms' hm.2 toff q t
  | [], _ :: _, hm, _, _, _ => by simp [InUnitsAll] at hm
  | _ :: _, [], hm, _, _, _ => by simp [InUnitsAll] at hm
theorem bwdNth_units {u : String → K} (hu : ∀ s, 0 < u s) {E E' : Env K gs} (h : EnvUnits u E E') (hr : E'.resetArr = E.resetArr) :
    ∀ (ms ms' : List (TM K)), InUnitsAll E.ext.pow10 E.names u (unitVolume u E) ms ms' → ∀ (toff : K) (i : ℕ) (p : Arr K gs) (t : K), TM.bwdNth E' toff ms' i p t = TM.bwdNth E toff ms i p t
  | [], [], _, _, _, _, _ => rfl
  | m :: ms, m' :: ms', hm, toff, 0, p, t => by
      simp only [InUnitsAll] at hm
      simp only [TM.bwdNth, bwd_units hu h hr m m' hm.1]
  | m :: ms, m' :: ms', hm, toff, i + 1, p, t => by
      simp only [InUnitsAll] at hm
      simp only [TM.bwdNth]
      exact bwdNth_units hu h hr ms ms' hm.2 toff i p t
  | [], _ :: _, hm, _, _, _, _ => by simp [InUnitsAll] at hm
  | _ :: _, [], hm, _, _, _, _ => by simp [InUnitsAll] at hm
end

mutual
theorem returnsArg_units {pw : K → K} {names : Fin d → String} {u : String → K} {V : K} :
    ∀ (tm tm' : TM K), InUnits pw names u V tm tm' → ∀ t, tm'.returnsArg t = tm.returnsArg t
  | .leaf k _ vals _, .leaf k' _ vals' _, hm, t => by
      simp only [InUnits] at hm
      simp only [TM.returnsArg]
      cases hm <;> rfl
  | .combined _, .combined _, _, _ => by simp only [TM.returnsArg]
  | .serial _ vals _ mask ms, .serial _ vals' _ mask' ms', hm, t => by
      simp only [InUnits] at hm
      obtain ⟨rfl, hm1, rfl, hm2⟩ := hm
      simp only [TM.returnsArg]
      cases scalars vals' with
      | error e => rfl
      | ok vs => simp only [returnsArgNth_units ms ms' hm2]
  | .leaf .., .combined _, hm, _ => by simp [InUnits] at hm
  | .leaf .., .serial .., hm, _ => by simp [InUnits] at hm
  | .combined _, .leaf .., hm, _ => by simp [InUnits] at hm
  | .combined _, .serial .., hm, _ => by simp [InUnits] at hm
  | .serial .., .leaf .., hm, _ => by simp [InUnits] at hm
  | .serial .., .combined _, hm, _ => by simp [InUnits] at hm
theorem returnsArgNth_units {pw : K → K} {names : Fin d → String} {u : String → K} {V : K} :
    ∀ (ms ms' : List (TM K)), InUnitsAll pw names u V ms ms' → ∀ i t, TM.returnsArgNth ms' i t = TM.returnsArgNth ms i t
  | [], [], _, _, _ => rfl
  | m :: ms, m' :: ms', hm, 0, t => by
      simp only [InUnitsAll] at hm
      simp only [TM.returnsArgNth, returnsArg_units m m' hm.1]
  | m :: ms, m' :: ms', hm, i + 1, t => by
      simp only [InUnitsAll] at hm
      simp only [TM.returnsArgNth]
      exact returnsArgNth_units ms ms' hm.2 i t
  | [], _ :: _, hm, _, _ => by simp [InUnitsAll] at hm
  | _ :: _, [], hm, _, _ => by simp [InUnitsAll] at hm
end

/-- a completed iteration in other units -/
def StepUnits (s s' : Step K gs) : Prop := s'.alpha = s.alpha ∧ s'.t = s.t ∧ ∃ c, 0 < c ∧ s'.lik = fun x => c * s.lik x

/-- likelihoods multiplied by one factor for each data point -/
def scaleAll (cs : List K) (Ls : List (Idx gs → K)) : List (Idx gs → K) := List.zipWith (fun c L x => c * L x) cs Ls

theorem fwdPass_units {u : String → K} (hu : ∀ s, 0 < u s) {E E' : Env K gs} (h : EnvUnits u E E') {tm tm' : TM K} (hm : InUnits E.ext.pow10 E.names u (unitVolume u E) tm tm') :
    ∀ (Ls : List (Idx gs → K)) (cs : List K), cs.length = Ls.length → (∀ c ∈ cs, 0 < c) → ∀ (ts : List K) (al : Bool) (pr pr' : PriorSpec K gs), SameReset E pr pr' →
      ∀ (c0 : K), 0 < c0 → ∀ (a : Arr K gs) (r : FwdOut K gs), fwdPass E tm al pr a Ls ts = .ok r →
      ∃ r', fwdPass E' tm' al pr' (a.map fun v x => c0 * v x) (scaleAll cs Ls) ts = .ok r' ∧ r'.stopped = r.stopped ∧ List.Forall₂ StepUnits r.steps r'.steps ∧
        (r.stopped = false → SameReset E r.prior r'.prior ∧ normProd r'.steps = (if Ls = [] then 1 else c0) * cs.prod * normProd r.steps)
  | [], cs, hl, hc, ts, al, pr, pr', hp, c0, h0, a, r, hr => by
      obtain rfl : cs = [] := by simpa using hl
      rw [fwdPass] at hr
      cases hr
      refine ⟨⟨[], false, pr'⟩, by simp only [scaleAll, List.zipWith_nil_left, fwdPass], rfl, .nil, fun _ => ⟨hp, by simp⟩⟩
  | L :: Ls, [], hl, hc, ts, al, pr, pr', hp, c0, h0, a, r, hr => by simp at hl
  | L :: Ls, c :: cs, hl, hc, ts, al, pr, pr', hp, c0, h0, none, r, hr => by
      rw [fwdPass] at hr
      cases hr
      refine ⟨⟨[], true, pr'⟩, by simp only [scaleAll, List.zipWith_cons_cons, Option.map_none, fwdPass], rfl, .nil, by simp⟩
  | L :: Ls, c :: cs, hl, hc, ts, al, pr, pr', hp, c0, h0, some a, r, hr => by
      have hc1 : 0 < c := hc c (by simp)
      have hcc : 0 < c0 * c := mul_pos h0 hc1
      have e1 : ∀ x, c0 * a x * (c * L x) = c0 * c * (a x * L x) := fun x => by ring
      rw [fwdPass] at hr
      simp only [scaleAll, List.zipWith_cons_cons, Option.map_some]
      rw [fwdPass]
      simp only [e1, ← Finset.mul_sum, mul_div_mul_left _ _ hcc.ne', mul_pos_iff_of_pos_left hcc] at hr ⊢
      split at hr
      · rename_i hn
        rw [if_pos hn]
        cases ts with
        | nil => simp at hr
        | cons t ts =>
            have hp' : SameReset E (if al = true then PriorSpec.array (some fun x => a x * L x / ∑ i, a i * L i) else pr)
                (if al = true then PriorSpec.array (some fun x => a x * L x / ∑ i, a i * L i) else pr') := by
              cases al
              · exact hp
              · rfl
            have hfw := fwd_units (E := { E with prior := if al = true then PriorSpec.array (some fun x => a x * L x / ∑ i, a i * L i) else pr })
              (E' := { E' with prior := if al = true then PriorSpec.array (some fun x => a x * L x / ∑ i, a i * L i) else pr' }) hu ⟨h.names, h.ext, h.lattice⟩ hp'.symm tm tm' hm 0
              (some fun x => a x * L x / ∑ i, a i * L i) t
            simp only [bind, Except.bind] at hr ⊢
            rw [hfw]
            split at hr
            · simp at hr
            · rename_i nx hnx
              split at hr
              · simp at hr
              · rename_i r1 hr1
                cases hr
                obtain ⟨r2, g1, g2, g3, g4⟩ := fwdPass_units hu h hm Ls cs (by simpa using hl) (fun c h => hc c (by simp [h])) ts _ _ _ hp' 1 one_pos nx r1 hr1
                have e2 : (nx.map fun v x => 1 * v x) = nx := by cases nx <;> simp
                rw [e2] at g1
                simp only [returnsArg_units tm tm' hm]
                simp only [scaleAll] at g1
                rw [g1]
                refine ⟨_, rfl, g2, .cons ⟨rfl, rfl, c, hc1, rfl⟩ g3, fun hst => ⟨(g4 hst).1, ?_⟩⟩
                have := (g4 hst).2
                simp only [normProd, List.map_cons, List.prod_cons] at this ⊢
                rw [this]
                simp only [reduceCtorEq, if_false, ite_self, one_mul]
                ring
      · rename_i hn
        rw [if_neg hn]
        cases hr
        exact ⟨_, rfl, rfl, .nil, by simp⟩

theorem bwdPass_units {u : String → K} (hu : ∀ s, 0 < u s) {E E' : Env K gs} (h : EnvUnits u E E') (hr : E'.resetArr = E.resetArr) {tm tm' : TM K}
    (hm : InUnits E.ext.pow10 E.names u (unitVolume u E) tm tm') (hS : ShiftHomogeneous E.ext) (hN : NoRegimeSwitch tm) :
    ∀ (st st' : List (Step K gs)), List.Forall₂ StepUnits st st' → ∀ (o : BwdOut K gs), bwdPass E tm st = .ok o →
    ∃ o', bwdPass E' tm' st' = .ok o' ∧ o'.posts = o.posts ∧ o'.stopped = o.stopped ∧ o'.beta = o.beta
  | _, _, .nil, o, ho => by
      rw [bwdPass] at ho
      cases ho
      exact ⟨_, by simp only [bwdPass], rfl, rfl, rfl⟩
  | s :: st, s' :: st', .cons hs hst, o, ho => by
      obtain ⟨h1, h2, c, hc, h3⟩ := hs
      simp only [bwdPass, bind, Except.bind] at ho ⊢
      split at ho
      · simp at ho
      · rename_i o1 ho1
        obtain ⟨o2, g1, g2, g3, g4⟩ := bwdPass_units hu h hr hm hS hN st st' hst o1 ho1
        rw [g1]
        simp only [g3, g4, h1, h2]
        split at ho
        · rename_i hstop
          cases ho
          rw [if_pos hstop]
          exact ⟨_, rfl, by simp [g2], by simp [g3], by simp [g4]⟩
        · rename_i hstop
          rw [if_neg hstop]
          split at ho
          · rename_i hb
            cases ho
            exact ⟨_, rfl, by simp [g2], rfl, by simp [g4, hb]⟩
          · rename_i b hb
            simp only [hb]
            split at ho
            · rename_i hn
              rw [if_pos hn, h3, bwd_units hu h hr tm tm' hm]
              have hsr := bwd_SR hS tm hN 0 (some fun x => b x * s.lik x) (some fun x => b x * (c * s.lik x)) s.t
                ⟨c, hc, by simp only [Option.map_some, Option.some.injEq]; funext x; ring⟩
              revert ho hsr
              cases TM.bwd E 0 tm (some fun x => b x * s.lik x) s.t with
              | error e => intro h _; simp at h
              | ok nb =>
                  cases TM.bwd E 0 tm (some fun x => b x * (c * s.lik x)) s.t with
                  | error e => intro _ h; exact h.elim
                  | ok nb' =>
                      rintro ho ⟨c', hc', rfl⟩
                      simp only at ho
                      cases ho
                      exact ⟨_, rfl, by simp [g2], rfl, bind_normalize_smul hc'.ne' nb⟩
            · rename_i hn
              rw [if_neg hn]
              cases ho
              exact ⟨_, rfl, by simp [g2], rfl, by simp [g4, hb]⟩

theorem divScalar_units {V c : K} (hV : 0 < V) (v : Idx gs → K) : divScalar v (V * c) = (divScalar v c).map fun w x => V⁻¹ * w x := by
  unfold divScalar
  by_cases hc : c = 0
  · simp [hc]
  · rw [if_neg (mul_ne_zero hV.ne' hc), if_neg hc]
    simp only [Option.map_some, Option.some.injEq]
    funext x
    field_simp

theorem bind_divScalar_units {V c : K} (hV : 0 < V) (p : Arr K gs) : p.bind (divScalar · (V * c)) = (p.bind (divScalar · c)).map fun w x => V⁻¹ * w x := by
  cases p with
  | none => rfl
  | some v => simp only [Option.bind_some, divScalar_units hV]

theorem computePrior_units {u : String → K} (hu : ∀ s, 0 < u s) {E E' : Env K gs} (h : EnvUnits u E E') {p p' : PriorSpec K gs} (hp : PriorUnits (unitVolume u E) p p') {a0 : Arr K gs} {pr : PriorSpec K gs}
    (hc : computePrior { E with prior := p } = .ok (a0, pr)) :
    ∃ pr', computePrior { E' with prior := p' } = .ok (a0.map fun v x => (unitVolume u E)⁻¹ * v x, pr') ∧ pr'.isArray = pr.isArray ∧ SameReset E pr pr' := by
  have hV := unitVolume_pos hu E
  have hcell : ({ E' with prior := p' } : Env K gs).cell = unitVolume u E * ({ E with prior := p } : Env K gs).cell := by
    have := units_cell h
    simpa only [Env.cell] using this
  cases hp with
  | flat =>
      simp only [computePrior, Except.ok.injEq, Prod.mk.injEq] at hc ⊢
      obtain ⟨rfl, rfl⟩ := hc
      exact ⟨_, ⟨by rw [hcell, bind_divScalar_units hV], rfl⟩, rfl, rfl⟩
  | func v c hc0 h1 h2 =>
      simp only [computePrior] at hc ⊢
      rw [if_pos h1, Except.ok.injEq, Prod.mk.injEq] at hc
      obtain ⟨rfl, rfl⟩ := hc
      rw [if_pos h2]
      refine ⟨.func fun x => c * v x, by rw [hcell, normalize_smul hc0.ne', bind_divScalar_units hV], rfl, ?_⟩
      unfold SameReset Env.resetArr
      simp only [normalize_smul hc0.ne']
  | array v c hc0 h1 h2 =>
      simp only [computePrior] at hc ⊢
      rw [if_pos h1, Except.ok.injEq, Prod.mk.injEq] at hc
      obtain ⟨rfl, rfl⟩ := hc
      rw [if_pos h2]
      refine ⟨.array (((normalize v).bind (divScalar · ({ E with prior := .array (some v) } : Env K gs).cell)).map fun w x => (unitVolume u E)⁻¹ * w x),
        by rw [hcell, normalize_smul hc0.ne', bind_divScalar_units hV], rfl, ?_⟩
      unfold SameReset Env.resetArr
      simp only [bind_normalize_smul (inv_pos.2 hV).ne']
  | rvs n ok v =>
      simp only [computePrior] at hc ⊢
      split at hc
      · cases hc
      · rename_i hn
        rw [if_neg hn]
        split at hc
        · rename_i hok
          rw [if_pos hok]
          rw [Except.ok.injEq, Prod.mk.injEq] at hc
          obtain ⟨rfl, rfl⟩ := hc
          exact ⟨.rvs n ok fun x => v x / unitVolume u E, by simp only [Option.map_some, div_eq_inv_mul], rfl, rfl⟩
        · cases hc

end BL
