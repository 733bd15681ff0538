import Verif.Spec.Idle
import Verif.Lemmas.FitModel
import Verif.Lemmas.Linear
import Verif.Props.Ex
import Mathlib.Tactic.Linarith
import Mathlib.Tactic.NormNum

/-! # C84: parts of a transition model that have no effect -/

set_option linter.unusedSectionVars false

namespace BL
open Spec
variable {K : Type} [Field K] [LinearOrder K] [IsStrictOrderedRing K] {d : ℕ} {gs : Fin d → ℕ} {E : Env K gs}

/-- same predictions at the times `P` (backwards: one unit later, because the backward pass looks at `t - 1`) -/
def SameAt (E : Env K gs) (P : K → Prop) (m m' : TM K) : Prop :=
  (∀ t, P t → ∀ (o : K) (p : Arr K gs), m.fwd E o p t = m'.fwd E o p t) ∧ (∀ t, P (t - 1) → ∀ (o : K) (p : Arr K gs), m.bwd E o p t = m'.bwd E o p t)

theorem fwdAll_congr_at {m m' : TM K} {o t : K} (h : ∀ p, m.fwd E o p t = m'.fwd E o p t) (r : List (TM K)) : ∀ (l : List (TM K)) (p : Arr K gs),
    TM.fwdAll E o (l ++ m :: r) p t = TM.fwdAll E o (l ++ m' :: r) p t
  | [], p => by simp only [List.nil_append, TM.fwdAll, h]
  | x :: l, p => by simp only [List.cons_append, TM.fwdAll, fwdAll_congr_at h r l]

theorem bwdAll_congr_at {m m' : TM K} {o t : K} (h : ∀ p, m.bwd E o p t = m'.bwd E o p t) (r : List (TM K)) : ∀ (l : List (TM K)) (p : Arr K gs),
    TM.bwdAll E o (l ++ m :: r) p t = TM.bwdAll E o (l ++ m' :: r) p t
  | [], p => by simp only [List.nil_append, TM.bwdAll, h]
  | x :: l, p => by simp only [List.cons_append, TM.bwdAll, bwdAll_congr_at h r l]

theorem fwdNth_congr_at {m m' : TM K} {o t : K} (h : ∀ p, m.fwd E o p t = m'.fwd E o p t) (r : List (TM K)) : ∀ (l : List (TM K)) (i : ℕ) (p : Arr K gs),
    TM.fwdNth E o (l ++ m :: r) i p t = TM.fwdNth E o (l ++ m' :: r) i p t
  | [], 0, p => by simp only [List.nil_append, TM.fwdNth, h]
  | [], i + 1, p => by simp only [List.nil_append, TM.fwdNth]
  | x :: l, 0, p => by simp only [List.cons_append, TM.fwdNth]
  | x :: l, i + 1, p => by simp only [List.cons_append, TM.fwdNth, fwdNth_congr_at h r l]

theorem bwdNth_congr_at {m m' : TM K} {o t : K} (h : ∀ p, m.bwd E o p t = m'.bwd E o p t) (r : List (TM K)) : ∀ (l : List (TM K)) (i : ℕ) (p : Arr K gs),
    TM.bwdNth E o (l ++ m :: r) i p t = TM.bwdNth E o (l ++ m' :: r) i p t
  | [], 0, p => by simp only [List.nil_append, TM.bwdNth, h]
  | [], i + 1, p => by simp only [List.nil_append, TM.bwdNth]
  | x :: l, 0, p => by simp only [List.cons_append, TM.bwdNth]
  | x :: l, i + 1, p => by simp only [List.cons_append, TM.bwdNth, bwdNth_congr_at h r l]

theorem fwdNth_at {o t : K} {m : TM K} : ∀ {ms : List (TM K)} {i : ℕ}, ms[i]? = some m → ∀ p : Arr K gs, TM.fwdNth E o ms i p t = m.fwd E o p t
  | [], i, h, p => by simp at h
  | x :: ms, 0, h, p => by
      simp only [List.getElem?_cons_zero, Option.some.injEq] at h
      rw [TM.fwdNth, h]
  | x :: ms, i + 1, h, p => by rw [TM.fwdNth]; exact fwdNth_at (by simpa using h) p

theorem bwdNth_at {o t : K} {m : TM K} : ∀ {ms : List (TM K)} {i : ℕ}, ms[i]? = some m → ∀ p : Arr K gs, TM.bwdNth E o ms i p t = m.bwd E o p t
  | [], i, h, p => by simp at h
  | x :: ms, 0, h, p => by
      simp only [List.getElem?_cons_zero, Option.some.injEq] at h
      rw [TM.bwdNth, h]
  | x :: ms, i + 1, h, p => by rw [TM.bwdNth]; exact bwdNth_at (by simpa using h) p

mutual
/-- only Deterministic looks at the attribute `tOffset` -/
theorem fwd_offset : ∀ (tm : TM K), NoClock tm → ∀ (o o' : K) (p : Arr K gs) (t : K), tm.fwd E o p t = tm.fwd E o' p t
  | .leaf k _ vals _, h, o, o', p, t => by
      cases k with
      | deterministic f s => exact h.elim
      | _ => simp only [TM.fwd, leafFwd]
  | .combined ms, h, o, o', p, t => by simp only [TM.fwd]; exact fwdAll_offset ms h o o' p t
  | .serial _ vals _ mask ms, h, o, o', p, t => by simp only [TM.fwd]
theorem fwdAll_offset : ∀ (ms : List (TM K)), NoClockAll ms → ∀ (o o' : K) (p : Arr K gs) (t : K), TM.fwdAll E o ms p t = TM.fwdAll E o' ms p t
  | [], _, o, o', p, t => by simp only [TM.fwdAll]
  | m :: ms, h, o, o', p, t => by
      simp only [TM.fwdAll, fwd_offset m h.1 o o' p t, bind, Except.bind]
      split
      · rfl
      · exact fwdAll_offset ms h.2 o o' _ t
end

mutual
theorem bwd_offset : ∀ (tm : TM K), NoClock tm → ∀ (o o' : K) (p : Arr K gs) (t : K), tm.bwd E o p t = tm.bwd E o' p t
  | .leaf k _ vals _, h, o, o', p, t => by
      cases k with
      | deterministic f s => exact h.elim
      | _ => simp only [TM.bwd, leafBwd, leafFwd]
  | .combined ms, h, o, o', p, t => by simp only [TM.bwd]; exact bwdAll_offset ms h o o' p t
  | .serial _ vals _ mask ms, h, o, o', p, t => by simp only [TM.bwd]
theorem bwdAll_offset : ∀ (ms : List (TM K)), NoClockAll ms → ∀ (o o' : K) (p : Arr K gs) (t : K), TM.bwdAll E o ms p t = TM.bwdAll E o' ms p t
  | [], _, o, o', p, t => by simp only [TM.bwdAll]
  | m :: ms, h, o, o', p, t => by
      simp only [TM.bwdAll, bwd_offset m h.1 o o' p t, bind, Except.bind]
      split
      · rfl
      · exact bwdAll_offset ms h.2 o o' _ t
end

theorem scalars_scalar : ∀ vs : List K, scalars (vs.map HVal.scalar) = .ok vs
  | [] => rfl
  | v :: vs => by rw [List.map_cons, scalars, scalars_scalar vs]; rfl

theorem cpIn_absent {vs : List K} {mask : List Bool} {t : K} (h : t ∉ vs) : cpIn vs mask t = false := by
  rw [Bool.eq_false_iff, ne_eq, cpIn_iff]
  exact fun hc => h (List.of_mem_zip hc).1

theorem idle_axis {target : String} (h : ∃ a, E.names a = target) : ∃ a, E.axis target = .ok a := by
  unfold Env.axis
  obtain ⟨a, ha⟩ := h
  cases hf : (List.finRange d).find? fun a => E.names a = target with
  | some b => exact ⟨b, rfl⟩
  | none =>
      rw [List.find?_eq_none] at hf
      exact absurd ha (by simpa using hf a (List.mem_finRange a))

theorem idle_same {P : K → Prop} {m m' : TM K} (h : Idle E P m m') : SameAt E P m m' := by
  induction h with
  | changePoint name v pr pr' hv =>
      refine ⟨fun t ht o p => ?_, fun t ht o p => ?_⟩
      · have hne : t ≠ v := fun h => hv (h ▸ ht)
        simp only [TM.fwd, leafFwd, cpHit, List.getElem?_cons_zero, bind, Except.bind, decide_eq_true_eq, hne, if_false]
      · have hne : t - 1 ≠ v := fun h => hv (h ▸ ht)
        simp only [TM.bwd, leafBwd, leafFwd, cpHit, List.getElem?_cons_zero, bind, Except.bind, decide_eq_true_eq, hne, if_false]
  | walk target name pr pr' hn =>
      obtain ⟨a, ha⟩ := idle_axis hn
      have key : ∀ p : Arr K gs, grwFwd E target [.scalar 0] p = .ok p := by
        intro p
        have hs : scalarAt [HVal.scalar (0 : K)] 0 = .ok 0 := rfl
        rw [grwFwd, ha]
        simp only [hs, bind, Except.bind, zero_div, lt_irrefl, if_false, ite_self]
      exact ⟨fun t _ o p => by simp only [TM.fwd, leafFwd, key], fun t _ o p => by simp only [TM.bwd, leafBwd, leafFwd, key]⟩
  | segment names vs pr mask ms i m hP hm hc =>
      refine ⟨fun t ht o p => ?_, fun t ht o p => ?_⟩
      · obtain ⟨h1, h2⟩ := hP t ht
        have hi : modelIndex vs t = i := by rw [modelIndex_eq]; exact h1
        simp only [TM.fwd, scalars_scalar, bind, Except.bind, hi, fwdNth_at hm, cpCheck, cpIn_absent h2, Bool.false_eq_true, if_false]
        rw [fwd_offset m hc (breakOffset vs i) o p t]
        cases m.fwd E o p t <;> rfl
      · obtain ⟨h1, h2⟩ := hP _ ht
        have hi : modelIndex vs (t - 1) = i := by rw [modelIndex_eq]; exact h1
        simp only [TM.bwd, scalars_scalar, bind, Except.bind, hi, bwdNth_at hm, cpCheck, cpIn_absent h2, Bool.false_eq_true, if_false]
        rw [bwd_offset m hc (breakOffset vs i) o p t]
        cases m.bwd E o p t <;> rfl
  | refl m => exact ⟨fun _ _ _ _ => rfl, fun _ _ _ _ => rfl⟩
  | symm _ ih => exact ⟨fun t ht o p => (ih.1 t ht o p).symm, fun t ht o p => (ih.2 t ht o p).symm⟩
  | trans _ _ ih1 ih2 => exact ⟨fun t ht o p => (ih1.1 t ht o p).trans (ih2.1 t ht o p), fun t ht o p => (ih1.2 t ht o p).trans (ih2.2 t ht o p)⟩
  | inCombined l r _ ih =>
      refine ⟨fun t ht o p => ?_, fun t ht o p => ?_⟩
      · simp only [TM.fwd, fwdAll_congr_at (ih.1 t ht o) r l]
      · simp only [TM.bwd, bwdAll_congr_at (ih.2 t ht o) r l]
  | inSerial names vs pr mask l r _ ih =>
      refine ⟨fun t ht o p => ?_, fun t ht o p => ?_⟩
      · simp only [TM.fwd, fwdNth_congr_at (ih.1 t ht _) r l]
      · simp only [TM.bwd, bwdNth_congr_at (ih.2 t ht _) r l]

theorem idle_prior {P : K → Prop} (q : PriorSpec K gs) {m m' : TM K} (h : Idle E P m m') : Idle { E with prior := q } P m m' := by
  induction h with
  | changePoint name v pr pr' hv => exact .changePoint name v pr pr' hv
  | walk target name pr pr' hn => exact .walk target name pr pr' hn
  | segment names vs pr mask ms i m hP hm hc => exact .segment names vs pr mask ms i m hP hm hc
  | refl m => exact .refl m
  | symm _ ih => exact .symm ih
  | trans _ _ ih1 ih2 => exact .trans ih1 ih2
  | inCombined l r _ ih => exact .inCombined l r ih
  | inSerial names vs pr mask l r _ ih => exact .inSerial names vs pr mask l r ih

theorem idle_mono {P Q : K → Prop} (hPQ : ∀ t, Q t → P t) {m m' : TM K} (h : Idle E P m m') : Idle E Q m m' := by
  induction h with
  | changePoint name v pr pr' hv => exact .changePoint name v pr pr' fun h => hv (hPQ _ h)
  | walk target name pr pr' hn => exact .walk target name pr pr' hn
  | segment names vs pr mask ms i m hP hm hc => exact .segment names vs pr mask ms i m (fun t ht => hP t (hPQ t ht)) hm hc
  | refl m => exact .refl m
  | symm _ ih => exact .symm ih
  | trans _ _ ih1 ih2 => exact .trans ih1 ih2
  | inCombined l r _ ih => exact .inCombined l r ih
  | inSerial names vs pr mask l r _ ih => exact .inSerial names vs pr mask l r ih

theorem fwdPass_idle {P : K → Prop} {m m' : TM K} (h : Idle E P m m') : ∀ (Ls : List (Idx gs → K)) (ts : List K) (pr : PriorSpec K gs) (a : Arr K gs), (∀ t ∈ ts, P t) →
    fwdPass E m false pr a Ls ts = fwdPass E m' false pr a Ls ts
  | [], ts, pr, a, _ => by cases a <;> simp [fwdPass]
  | L :: Ls, ts, pr, none, _ => by simp [fwdPass]
  | L :: Ls, [], pr, some a, _ => by simp only [fwdPass]
  | L :: Ls, t :: ts, pr, some a, hP => by
      simp only [fwdPass, Bool.false_and, Bool.false_eq_true, if_false]
      split
      · rw [(idle_same (idle_prior pr h)).1 t (hP t List.mem_cons_self)]
        simp only [bind, Except.bind]
        split
        · rfl
        · rw [fwdPass_idle h Ls ts pr _ fun t ht => hP t (List.mem_cons_of_mem _ ht)]
      · rfl

theorem fwdPass_times_mem {m : TM K} : ∀ (Ls : List (Idx gs → K)) (al : Bool) (ts : List K) (pr : PriorSpec K gs) (a : Arr K gs) (r : FwdOut K gs), fwdPass E m al pr a Ls ts = .ok r →
    ∀ s ∈ r.steps, s.t ∈ ts
  | [], al, ts, pr, a, r, h => by
      rw [fwdPass] at h
      cases h
      simp
  | L :: Ls, al, ts, pr, none, r, h => by
      rw [fwdPass] at h
      cases h
      simp
  | L :: Ls, al, ts, pr, some a, r, h => by
      rw [fwdPass] at h
      simp only at h
      split at h
      · cases ts with
        | nil => simp at h
        | cons t ts =>
            revert h
            simp only [bind, Except.bind]
            split
            · intro h; simp at h
            · split
              · intro h; simp at h
              · rename_i r' hr
                intro h
                simp only [Except.ok.injEq] at h
                subst h
                intro s hs
                rcases List.mem_cons.1 hs with rfl | hs
                · exact List.mem_cons_self
                · exact List.mem_cons_of_mem _ (fwdPass_times_mem Ls _ ts _ _ r' hr s hs)
      · cases h
        simp

theorem bwdPass_idle {P : K → Prop} {m m' : TM K} (h : Idle E P m m') : ∀ ss : List (Step K gs), (∀ s ∈ ss, P (s.t - 1)) → bwdPass E m ss = bwdPass E m' ss
  | [], _ => rfl
  | s :: ss, hs => by
      simp only [bwdPass]
      rw [bwdPass_idle h ss fun s h => hs s (List.mem_cons_of_mem _ h)]
      congr 1; funext o
      split
      · rfl
      · split
        · rfl
        · rw [(idle_same h).2 _ (hs s List.mem_cons_self)]

end BL

namespace Props
open BL Spec
variable {K : Type} [Field K] [LinearOrder K] [IsStrictOrderedRing K] {d : ℕ} {gs : Fin d → ℕ}

/-- **C84 (partial: priors that are not numpy arrays).** If two transition models differ only in parts that have no effect at the time stamps (full fits: also at the times one unit earlier), the outcome of
fits (results or error) is the same: all kinds of models and nestings, all data. -/
theorem C84_partial (E : Env K gs) (grid : (a : Fin d) → Fin (gs a) → K) (Ls : List (Idx gs → K)) (ts : List K) (fo eo : Bool) {m m' : TM K}
    (h : Idle E (fun t => t ∈ ts ∨ (fo = false ∧ eo = false) ∧ t + 1 ∈ ts) m m') (S : FitState K gs) (hn : S.prior.isArray = false) :
    fit E grid m Ls ts fo eo S = fit E grid m' Ls ts fo eo S := by
  unfold fit
  cases hc : computePrior { E with prior := S.prior } with
  | error e => rfl
  | ok ap =>
    obtain ⟨a0, pr0⟩ := ap
    simp only [bind, Except.bind]
    have hal : pr0.isArray = false := by rw [computePrior_notArray hn hc]; exact hn
    rw [hal, fwdPass_idle h Ls ts pr0 a0 fun t ht => Or.inl ht]
    cases hf : fwdPass E m' false pr0 a0 Ls ts with
    | error e => rfl
    | ok f =>
        cases eo with
        | true => simp only [if_true]
        | false =>
            cases fo with
            | true => simp only [Bool.false_eq_true, if_false, if_true]
            | false =>
                simp only [Bool.false_eq_true, if_false]
                rw [bwdPass_idle (idle_prior f.prior h) f.steps fun s hs => Or.inr ⟨⟨rfl, rfl⟩, by
                  rw [sub_add_cancel]; exact fwdPass_times_mem Ls _ ts _ _ f hf s hs⟩]

/-- For numpy arrays as priors the claim is false: Static returns the array that it is given, so that the array of the user is overwritten further; a random walk of width zero returns a copy. Serial model
with a change-point at time 1, time stamps 0, 1, 2. -/
theorem C84_array_refuted : Idle (Ex.env Ex.gs2 1) (fun t => t ∈ [(0 : ℚ), 1, 2]) (Ex.ser true 1 (Ex.grw 0) (Ex.grw 1)) (Ex.ser true 1 Ex.static (Ex.grw 1)) ∧
    Ex.ev (fit (Ex.env Ex.gs2 1) (Ex.grid Ex.gs2) (Ex.ser true 1 (Ex.grw 0) (Ex.grw 1)) [Ex.v2 1 2, Ex.v2 1 3, Ex.v2 1 3] [0, 1, 2] true false (Ex.S0 (.array (Ex.v2 1 3)))) = some (361 / 28) ∧
    Ex.ev (fit (Ex.env Ex.gs2 1) (Ex.grid Ex.gs2) (Ex.ser true 1 Ex.static (Ex.grw 1)) [Ex.v2 1 2, Ex.v2 1 3, Ex.v2 1 3] [0, 1, 2] true false (Ex.S0 (.array (Ex.v2 1 3)))) = some (55 / 4) :=
  ⟨.inSerial _ _ _ _ [] [Ex.grw 1] (.walk _ _ _ _ ⟨0, rfl⟩), by decide +kernel, by decide +kernel⟩

/-- In full fits a change-point at a time that is no time stamp can have an effect: time stamps 0, 2, 4 and a change-point at time 1.  The first posterior differs from the one of the Static model. -/
theorem C84_full_refuted : Ex.postTable (fit (Ex.env Ex.gs2 1) (Ex.grid Ex.gs2) (Ex.cp 1) [Ex.v2 1 2, Ex.v2 1 3, Ex.v2 1 3] [0, 2, 4] false false (Ex.S0 .none))
      = some [.val [1 / 3, 2 / 3], .val [1 / 19, 18 / 19], .val [1 / 19, 18 / 19]] ∧
    Ex.postTable (fit (Ex.env Ex.gs2 1) (Ex.grid Ex.gs2) Ex.static [Ex.v2 1 2, Ex.v2 1 3, Ex.v2 1 3] [0, 2, 4] false false (Ex.S0 .none))
      = some [.val [1 / 19, 18 / 19], .val [1 / 19, 18 / 19], .val [1 / 19, 18 / 19]] := by
  decide +kernel

/-- A serial model whose break-point lies after the data, with a change-point before the data and a random walk of width zero: equivalent to a combination of Static models with a random walk (full fits). -/
example : Idle (Ex.env Ex.gs2 1) (fun t => t ∈ [(0 : ℚ), 1, 2] ∨ (false = false ∧ false = false) ∧ t + 1 ∈ [(0 : ℚ), 1, 2])
    (Ex.ser true 7 (.combined [Ex.cp (-3), Ex.grw 1, Ex.grw 0]) Ex.regime) (.combined [Ex.static, Ex.grw 1, Ex.static]) :=
  .trans (.segment ["t_break"] [7] [] [true] _ 0 (.combined [Ex.cp (-3), Ex.grw 1, Ex.grw 0]) (by
      intro t ht
      have h : t < 7 := by
        simp only [List.mem_cons, List.not_mem_nil, or_false, and_self, true_and] at ht
        rcases ht with (rfl | rfl | rfl) | (h | h | h) <;> linarith
      refine ⟨?_, by simpa using h.ne⟩
      rw [List.filter_cons_of_neg (by simpa using h)]
      rfl) rfl (by simp [Ex.cp, Ex.grw, NoClock, NoClockAll]))
    (.trans (.inCombined [] [Ex.grw 1, Ex.grw 0] (.changePoint _ _ _ none (by
      simp only [List.mem_cons, List.not_mem_nil, or_false, and_self, true_and]
      norm_num)))
      (.inCombined [Ex.static, Ex.grw 1] [] (.walk _ _ _ _ ⟨0, rfl⟩)))

end Props
