import Verif.Props.C21
import Verif.Lemmas.Linear

/-! # C83: the order of random walks inside a combination -/

set_option linter.unusedSectionVars false

namespace Spec
open BL

variable {K : Type} [Field K] [LinearOrder K] {d : ℕ} {gs : Fin d → ℕ}

/-- Two transition models that differ only in the order of sub-models inside combinations (at any depth), where all reordered sub-models are assembled from Static, GaussianRandomWalk, Combined and
Serial with break-points. -/
inductive Reordered (E : Env K gs) : TM K → TM K → Prop
  | perm {ms ms' : List (TM K)} : ms.Perm ms' → (∀ m ∈ ms, Linear E m ∧ ResetFree m) → Reordered E (.combined ms) (.combined ms')
  | refl (m : TM K) : Reordered E m m
  | trans {m m' m'' : TM K} : Reordered E m m' → Reordered E m' m'' → Reordered E m m''
  | inCombined (l r : List (TM K)) {m m' : TM K} : Reordered E m m' → Reordered E (.combined (l ++ m :: r)) (.combined (l ++ m' :: r))
  | inSerial (names : List String) (vs : List (HVal K)) (pr : List (Nest (HPrior K))) (mask : List Bool) (l r : List (TM K)) {m m' : TM K} :
      Reordered E m m' → Reordered E (.serial names vs pr mask (l ++ m :: r)) (.serial names vs pr mask (l ++ m' :: r))

end Spec

namespace BL
open Spec
variable {K : Type} [Field K] [LinearOrder K] [IsStrictOrderedRing K] {d : ℕ} {gs : Fin d → ℕ} {E : Env K gs} {ρ : Idx gs → K}

mutual
/-- random walks act on all arrays, also on those with `nan` -/
theorem fwd_walk (hl : ∀ a, 0 < E.lattice a) (hG : GaussOK E.ext) : ∀ (tm : TM K), Linear E tm → ResetFree tm → ∀ (toff : K) (p : Arr K gs) (t : K),
    tm.fwd E toff p t = .ok (p.map (push (kernel E ρ tm t)))
  | .leaf k nm vs pr, hL, hR, toff, p, t => by
      cases k with
      | static =>
          rw [TM.fwd, leafFwd, kernel]
          cases p <;> simp [push_stay]
      | grw target =>
          obtain ⟨⟨b, hb⟩, σ, rfl⟩ := (by simpa only [Linear] using hL : (∃ a, E.axis target = .ok a) ∧ ∃ σ, vs = [.scalar σ])
          rw [TM.fwd, leafFwd, kernel, grwFwd, hb]
          have hs : scalarAt [HVal.scalar σ] 0 = .ok σ := rfl
          simp only [hs, bind, Except.bind, (hl b).ne', if_false, val0]
          by_cases h : 0 < σ / E.lattice b
          · simp only [h, if_true]
            cases p with
            | none => rfl
            | some p =>
                simp only [Option.map_some]
                congr 2
                funext y
                rw [filterAxis_eq _ _ _ (hG.even _)]; rfl
          · simp only [h, if_false]
            cases p <;> simp [push_stay]
      | changePoint => simp [ResetFree] at hR
      | independent => simp [ResetFree] at hR
      | alphaStable => simp [Linear] at hL
      | regimeSwitch => simp [Linear] at hL
      | notEqual => simp [Linear] at hL
      | deterministic => simp [Linear] at hL
      | bivariate => simp [Linear] at hL
      | breakPoint => simp [Linear] at hL
  | .combined ms, hL, hR, toff, p, t => by
      rw [TM.fwd, kernel]
      exact fwdAll_walk hl hG ms (by simpa only [Linear] using hL) (by simpa only [ResetFree] using hR) toff p t
  | .serial _ vs _ mask ms, hL, hR, toff, p, t => by
      have hL' : (∀ v ∈ vs, ∃ c, v = .scalar c) ∧ ms.length = vs.length + 1 ∧ LinearAll E ms := by simpa only [Linear] using hL
      have hR' : true ∉ mask ∧ ResetFreeAll ms := by simpa only [ResetFree] using hR
      have hi : breaksUpTo (vals vs) t < ms.length := by
        have := breaksUpTo_le (vals vs) t
        rw [vals_length] at this
        omega
      have hc : ¬ IsChange (vals vs) mask t := isChange_mask hR'.1
      have hc' : cpIn (vals vs) mask t = false := by
        rw [Bool.eq_false_iff, ne_eq, cpIn_iff]; exact hc
      rw [TM.fwd, scalars_eq vs hL'.1]
      simp only [bind, Except.bind, modelIndex_eq]
      rw [fwdNth_walk hl hG ms hL'.2.2 hR'.2 _ _ hi p t]
      simp only [cpCheck, hc', Bool.false_eq_true, if_false]
      rw [kernel]
      simp only [hc, if_false]
      cases p with
      | none => rfl
      | some p => simp only [Option.map_some, push_comp, push_stay]
theorem fwdAll_walk (hl : ∀ a, 0 < E.lattice a) (hG : GaussOK E.ext) : ∀ (ms : List (TM K)), LinearAll E ms → ResetFreeAll ms → ∀ (toff : K) (p : Arr K gs) (t : K),
    TM.fwdAll E toff ms p t = .ok (p.map (push (kernelAll E ρ ms t)))
  | [], _, _, toff, p, t => by
      rw [TM.fwdAll, kernelAll]
      cases p <;> simp [push_stay]
  | m :: ms, hL, hR, toff, p, t => by
      have hL' : Linear E m ∧ LinearAll E ms := by simpa only [LinearAll] using hL
      have hR' : ResetFree m ∧ ResetFreeAll ms := by simpa only [ResetFreeAll] using hR
      rw [TM.fwdAll, fwd_walk hl hG m hL'.1 hR'.1 toff p t, kernelAll]
      simp only [bind, Except.bind]
      rw [fwdAll_walk hl hG ms hL'.2 hR'.2 toff _ t]
      cases p with
      | none => rfl
      | some p => simp only [Option.map_some, push_comp]
theorem fwdNth_walk (hl : ∀ a, 0 < E.lattice a) (hG : GaussOK E.ext) : ∀ (ms : List (TM K)), LinearAll E ms → ResetFreeAll ms → ∀ (toff : K) (i : ℕ), i < ms.length →
    ∀ (p : Arr K gs) (t : K), TM.fwdNth E toff ms i p t = .ok (p.map (push (kernelNth E ρ ms i t)))
  | [], _, _, toff, i, hi, p, t => by simp at hi
  | m :: ms, hL, hR, toff, 0, hi, p, t => by
      have hL' : Linear E m ∧ LinearAll E ms := by simpa only [LinearAll] using hL
      have hR' : ResetFree m ∧ ResetFreeAll ms := by simpa only [ResetFreeAll] using hR
      rw [TM.fwdNth, kernelNth]
      exact fwd_walk hl hG m hL'.1 hR'.1 toff p t
  | m :: ms, hL, hR, toff, i + 1, hi, p, t => by
      have hL' : Linear E m ∧ LinearAll E ms := by simpa only [LinearAll] using hL
      have hR' : ResetFree m ∧ ResetFreeAll ms := by simpa only [ResetFreeAll] using hR
      rw [TM.fwdNth, kernelNth]
      exact fwdNth_walk hl hG ms hL'.2 hR'.2 toff i (by simpa using hi) p t
end

theorem all_of_mem : ∀ {ms : List (TM K)}, (∀ m ∈ ms, Linear E m ∧ ResetFree m) → LinearAll E ms ∧ ResetFreeAll ms
  | [], _ => by simp [LinearAll, ResetFreeAll]
  | m :: ms, h => by
      have := all_of_mem fun m hm => h m (List.mem_cons_of_mem _ hm)
      simp only [LinearAll, ResetFreeAll]
      exact ⟨⟨(h m List.mem_cons_self).1, this.1⟩, (h m List.mem_cons_self).2, this.2⟩

theorem kernelAll_perm (hG : GaussOK E.ext) {ms ms' : List (TM K)} (hp : ms.Perm ms') (t : K) : (∀ m ∈ ms, Linear E m ∧ ResetFree m) →
    kernelAll E ρ ms t = kernelAll E ρ ms' t := by
  induction hp with
  | nil => exact fun _ => rfl
  | cons m _ ih =>
      intro h
      rw [kernelAll, kernelAll, ih fun m hm => h m (List.mem_cons_of_mem _ hm)]
  | swap m m' ms =>
      intro h
      have h1 := kernel_symAlg (ρ := ρ) hG 0 m (h m (by simp)).1 (Or.inl (h m (by simp)).2) t
      have h2 := kernel_symAlg (ρ := ρ) hG 0 m' (h m' (by simp)).1 (Or.inl (h m' (by simp)).2) t
      simp only [kernelAll]
      apply toM_inj
      simp only [toM_comp, ← Matrix.mul_assoc]
      rw [symAlg_comm 0 h1 h2]
  | trans h1 _ ih1 ih2 =>
      intro h
      rw [ih1 h, ih2 fun m hm => h m (h1.mem_iff.2 hm)]

end BL

namespace Props
open BL Spec
variable {K : Type} [Field K] [LinearOrder K] [IsStrictOrderedRing K] {d : ℕ} {gs : Fin d → ℕ}

/-- **C83 (predictions).** Reordering random walks inside combinations does not change the prediction in either direction, for every array (also with nan). -/
theorem C83_predictions (E : Env K gs) (hl : ∀ a, 0 < E.lattice a) (hG : GaussOK E.ext) {m m' : TM K} (h : Reordered E m m') : ∀ (toff : K) (p : Arr K gs) (t : K),
    TM.fwd E toff m p t = TM.fwd E toff m' p t ∧ TM.bwd E toff m p t = TM.bwd E toff m' p t := by
  induction h with
  | @perm ms ms' hp hm =>
      have hm' : ∀ m ∈ ms', Linear E m ∧ ResetFree m := fun m h => hm m (hp.mem_iff.2 h)
      have hA := all_of_mem hm
      have hB := all_of_mem hm'
      have key : ∀ (toff : K) (p : Arr K gs) (t : K), TM.fwdAll E toff ms p t = TM.fwdAll E toff ms' p t := fun toff p t => by
        rw [fwdAll_walk (ρ := 0) hl hG ms hA.1 hA.2, fwdAll_walk (ρ := 0) hl hG ms' hB.1 hB.2, kernelAll_perm hG hp t hm]
      intro toff p t
      refine ⟨?_, ?_⟩
      · rw [TM.fwd, TM.fwd, key]
      · rw [bwd_eq_fwd (.combined ms) (by simpa only [Linear] using hA.1), bwd_eq_fwd (.combined ms') (by simpa only [Linear] using hB.1), TM.fwd, TM.fwd, key]
  | refl m => exact fun toff p t => ⟨rfl, rfl⟩
  | trans _ _ ih1 ih2 => exact fun toff p t => ⟨(ih1 toff p t).1.trans (ih2 toff p t).1, (ih1 toff p t).2.trans (ih2 toff p t).2⟩
  | inCombined l r _ ih =>
      intro toff p t
      rw [(C21_append E toff l _ p t).1, (C21_append E toff l _ p t).2, (C21_append E toff l (_ :: r) p t).1, (C21_append E toff l (_ :: r) p t).2]
      constructor
      · congr 1; funext q; rw [(combined_cons E toff _ r q t).1, (combined_cons E toff _ r q t).1, (ih toff q t).1]
      · congr 1; funext q; rw [(combined_cons E toff _ r q t).2, (combined_cons E toff _ r q t).2, (ih toff q t).2]
  | inSerial names vs pr mask l r _ ih =>
      intro toff p t
      simp only [TM.fwd, TM.bwd]
      constructor
      · congr 1; funext vs'
        rw [(nth_congr ih r _ l _ p t).1]
      · congr 1; funext vs'
        rw [(nth_congr ih r _ l _ p t).2]

theorem reordered_prior {E : Env K gs} (q : PriorSpec K gs) {m m' : TM K} : Reordered E m m' → Reordered { E with prior := q } m m'
  | .perm hp hm => .perm hp fun m h => ⟨linear_prior q m (hm m h).1, (hm m h).2⟩
  | .refl m => .refl m
  | .trans h h' => .trans (reordered_prior q h) (reordered_prior q h')
  | .inCombined l r h => .inCombined l r (reordered_prior q h)
  | .inSerial a b c e l r h => .inSerial a b c e l r (reordered_prior q h)

theorem returnsArg_nth {m m' : TM K} (h : ∀ t, m.returnsArg t = m'.returnsArg t) (r : List (TM K)) : ∀ (l : List (TM K)) (i : ℕ) (t : K),
    TM.returnsArgNth (l ++ m :: r) i t = TM.returnsArgNth (l ++ m' :: r) i t
  | [], 0, t => by simp only [List.nil_append, TM.returnsArgNth, h]
  | [], i + 1, t => by simp only [List.nil_append, TM.returnsArgNth]
  | x :: l, 0, t => by simp only [List.cons_append, TM.returnsArgNth]
  | x :: l, i + 1, t => by simp only [List.cons_append, TM.returnsArgNth, returnsArg_nth h r l i t]

theorem returnsArg_reordered {E : Env K gs} {m m' : TM K} (h : Reordered E m m') : ∀ t, m.returnsArg t = m'.returnsArg t := by
  induction h with
  | perm _ _ => intro t; simp only [TM.returnsArg]
  | refl m => exact fun t => rfl
  | trans _ _ ih1 ih2 => exact fun t => (ih1 t).trans (ih2 t)
  | inCombined l r _ ih => intro t; simp only [TM.returnsArg]
  | inSerial names vs pr mask l r _ ih =>
      intro t
      simp only [TM.returnsArg, returnsArg_nth ih r l]

/-- **C83.** Reordering random walks inside combinations (at any depth) does not change the outcome of a fit: every prior (also numpy arrays), all data and time stamps, all modes. -/
theorem C83 (E : Env K gs) (hl : ∀ a, 0 < E.lattice a) (hG : GaussOK E.ext) (grid : (a : Fin d) → Fin (gs a) → K) {m m' : TM K} (h : Reordered E m m')
    (Ls : List (Idx gs → K)) (ts : List K) (fo eo : Bool) (S : FitState K gs) :
    fit E grid m Ls ts fo eo S = fit E grid m' Ls ts fo eo S :=
  fit_model (fun q p t => C83_predictions { E with prior := q } hl hG (reordered_prior q h) 0 p t) grid Ls ts fo eo S (Or.inr (returnsArg_reordered h))

/-- The restriction to random walks is needed: a change-point before or after a random walk makes a difference if the prior is not flat. -/
theorem C83_changePoint_refuted : Ex.ev (fit (Ex.env Ex.gs2 1) (Ex.grid Ex.gs2) (.combined [Ex.cp 0, Ex.grw 1]) [Ex.v2 1 2, Ex.v2 1 3] [0, 1] true false (Ex.S0 (.func (Ex.v2 1 3)))) = some (63 / 16) ∧
    Ex.ev (fit (Ex.env Ex.gs2 1) (Ex.grid Ex.gs2) (.combined [Ex.grw 1, Ex.cp 0]) [Ex.v2 1 2, Ex.v2 1 3] [0, 1] true false (Ex.S0 (.func (Ex.v2 1 3)))) = some (35 / 8) := by
  decide +kernel

/-- Two random walks of the same parameter and a serial walk, inside a serial model next to a regime-switch. -/
example (lat : ℚ) : Reordered (Ex.env Ex.gs2 lat) (Ex.ser true 3 (.combined [Ex.grw 1, Ex.nested, Ex.grw 2]) Ex.regime) (Ex.ser true 3 (.combined [Ex.nested, Ex.grw 1, Ex.grw 2]) Ex.regime) :=
  .inSerial _ _ _ _ [] [Ex.regime] (.perm (.swap _ _ _) (by
    simp only [List.forall_mem_cons, List.not_mem_nil, false_imp_iff, implies_true, and_true]
    exact ⟨⟨by simp [Ex.grw, Linear, Ex.axis_x], by simp [Ex.grw, ResetFree]⟩, ⟨Ex.nested_linear _ _, Ex.nested_resetFree⟩, by simp [Ex.grw, Linear, Ex.axis_x], by simp [Ex.grw, ResetFree]⟩))

end Props
