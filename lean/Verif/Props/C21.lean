import Verif.Props.C20
import Verif.Lemmas.FitModel
import Mathlib.Tactic.Ring
import Mathlib.Tactic.FieldSimp
import Mathlib.Tactic.Linarith

/-! # C21–C24: combined models, change-points, break-points, deterministic models -/

set_option linter.unusedSectionVars false

namespace Props
open BL Spec

variable {K : Type} [Field K] [LinearOrder K] [IsStrictOrderedRing K] {d : ℕ} {gs : Fin d → ℕ}

/-- a Static model -/
def staticModel {K : Type} : TM K := .leaf .static [] [] (some (.item .none))

/-- Rewriting of models: removing inner brackets, removing Static, a combination of one model, anywhere inside the model. -/
inductive Rewrites {K : Type} : TM K → TM K → Prop
  | flatten (l ms r : List (TM K)) : Rewrites (.combined (l ++ .combined ms :: r)) (.combined (l ++ ms ++ r))
  | static (l r : List (TM K)) : Rewrites (.combined (l ++ staticModel :: r)) (.combined (l ++ r))
  | single (m : TM K) : Rewrites (.combined [m]) m
  | refl (m : TM K) : Rewrites m m
  | symm {m m' : TM K} : Rewrites m m' → Rewrites m' m
  | trans {m m' m'' : TM K} : Rewrites m m' → Rewrites m' m'' → Rewrites m m''
  | inCombined (l r : List (TM K)) {m m' : TM K} : Rewrites m m' → Rewrites (.combined (l ++ m :: r)) (.combined (l ++ m' :: r))
  | inSerial (names : List String) (vs : List (HVal K)) (pr : List (Nest (HPrior K))) (mask : List Bool) (l r : List (TM K)) {m m' : TM K} :
      Rewrites m m' → Rewrites (.serial names vs pr mask (l ++ m :: r)) (.serial names vs pr mask (l ++ m' :: r))

/-- **C21 (composition).** A combined model applies its sub-models one after the other, in both directions. -/
theorem C21_append (E : Env K gs) (toff : K) : ∀ (ms ns : List (TM K)) (p : Arr K gs) (t : K),
    TM.fwd E toff (.combined (ms ++ ns)) p t = (TM.fwd E toff (.combined ms) p t).bind (fun q => TM.fwd E toff (.combined ns) q t) ∧
    TM.bwd E toff (.combined (ms ++ ns)) p t = (TM.bwd E toff (.combined ms) p t).bind (fun q => TM.bwd E toff (.combined ns) q t)
  | [], ns, p, t => by simp [TM.fwd, TM.fwdAll, TM.bwd, TM.bwdAll, Except.bind]
  | m :: ms, ns, p, t => by
      have ih := C21_append E toff ms ns
      simp only [TM.fwd, TM.bwd] at ih
      simp only [TM.fwd, TM.bwd, List.cons_append, TM.fwdAll, TM.bwdAll, bind]
      constructor
      · cases TM.fwd E toff m p t with
        | error e => rfl
        | ok q => simp only [Except.bind]; exact (ih q t).1
      · cases TM.bwd E toff m p t with
        | error e => rfl
        | ok q => simp only [Except.bind]; exact (ih q t).2

theorem combined_single (E : Env K gs) (toff : K) (m : TM K) (p : Arr K gs) (t : K) :
    TM.fwd E toff (.combined [m]) p t = TM.fwd E toff m p t ∧ TM.bwd E toff (.combined [m]) p t = TM.bwd E toff m p t := by
  simp only [TM.fwd, TM.fwdAll, TM.bwd, TM.bwdAll, bind]
  constructor
  · cases TM.fwd E toff m p t <;> rfl
  · cases TM.bwd E toff m p t <;> rfl

theorem combined_cons (E : Env K gs) (toff : K) (m : TM K) (ms : List (TM K)) (p : Arr K gs) (t : K) :
    TM.fwd E toff (.combined (m :: ms)) p t = (TM.fwd E toff m p t).bind (fun q => TM.fwd E toff (.combined ms) q t) ∧
    TM.bwd E toff (.combined (m :: ms)) p t = (TM.bwd E toff m p t).bind (fun q => TM.bwd E toff (.combined ms) q t) := by
  have := C21_append E toff [m] ms p t
  rw [(combined_single E toff m p t).1, (combined_single E toff m p t).2] at this
  exact this

theorem nth_congr {E : Env K gs} {m m' : TM K} (h : ∀ toff p t, TM.fwd E toff m p t = TM.fwd E toff m' p t ∧ TM.bwd E toff m p t = TM.bwd E toff m' p t) (r : List (TM K)) (toff : K) :
    ∀ (l : List (TM K)) (i : ℕ) (p : Arr K gs) (t : K), TM.fwdNth E toff (l ++ m :: r) i p t = TM.fwdNth E toff (l ++ m' :: r) i p t ∧
      TM.bwdNth E toff (l ++ m :: r) i p t = TM.bwdNth E toff (l ++ m' :: r) i p t
  | [], 0, p, t => by simp only [List.nil_append, TM.fwdNth, TM.bwdNth]; exact h toff p t
  | [], i + 1, p, t => by simp only [List.nil_append, TM.fwdNth, TM.bwdNth, and_self]
  | x :: l, 0, p, t => by simp only [List.cons_append, TM.fwdNth, TM.bwdNth, and_self]
  | x :: l, i + 1, p, t => by simp only [List.cons_append, TM.fwdNth, TM.bwdNth]; exact nth_congr h r toff l i p t

/-- **C21 (rewriting, predictions).** Rewritten models compute the same predictions in both directions. -/
theorem C21_predictions (E : Env K gs) {m m' : TM K} (h : Rewrites m m') : ∀ (toff : K) (p : Arr K gs) (t : K),
    TM.fwd E toff m p t = TM.fwd E toff m' p t ∧ TM.bwd E toff m p t = TM.bwd E toff m' p t := by
  induction h with
  | flatten l ms r =>
      intro toff p t
      rw [List.append_assoc]
      rw [(C21_append E toff l (_ :: r) p t).1, (C21_append E toff l (_ :: r) p t).2, (C21_append E toff l (ms ++ r) p t).1, (C21_append E toff l (ms ++ r) p t).2]
      constructor
      · congr 1; funext q; rw [(combined_cons E toff _ r q t).1, (C21_append E toff ms r q t).1]
      · congr 1; funext q; rw [(combined_cons E toff _ r q t).2, (C21_append E toff ms r q t).2]
  | static l r =>
      intro toff p t
      rw [(C21_append E toff l (_ :: r) p t).1, (C21_append E toff l (_ :: r) p t).2, (C21_append E toff l r p t).1, (C21_append E toff l r p t).2]
      constructor
      · congr 1
      · congr 1
  | single m => exact fun toff p t => combined_single E toff m p t
  | refl m => exact fun toff p t => ⟨rfl, rfl⟩
  | symm _ ih => exact fun toff p t => ⟨(ih toff p t).1.symm, (ih toff p t).2.symm⟩
  | trans _ _ ih1 ih2 => exact fun toff p t => ⟨(ih1 toff p t).1.trans (ih2 toff p t).1, (ih1 toff p t).2.trans (ih2 toff p t).2⟩
  | inCombined l r _ ih =>
      intro toff p t
      rw [(C21_append E toff l _ p t).1, (C21_append E toff l _ p t).2, (C21_append E toff l (_ :: r) p t).1, (C21_append E toff l (_ :: r) p t).2]
      constructor
      · congr 1; funext q; rw [(combined_cons E toff _ r q t).1, (combined_cons E toff _ r q t).1, (ih toff q t).1]
      · congr 1; funext q; rw [(combined_cons E toff _ r q t).2, (combined_cons E toff _ r q t).2, (ih toff q t).2]
  | inSerial names vs pr mask l r _ ih =>
      intro toff p t
      simp only [TM.fwd, TM.bwd]
      constructor
      · congr 1; funext bs; rw [(nth_congr ih r _ l _ p t).1]
      · congr 1; funext bs; rw [(nth_congr ih r _ l _ p t).2]

/-- **C21 (rewriting, fits).** For every prior that is not a numpy array, fits with rewritten models are identical in every mode. -/
theorem C21_fit_partial (E : Env K gs) (grid : (a : Fin d) → Fin (gs a) → K) {m m' : TM K} (h : Rewrites m m') (Ls : List (Idx gs → K)) (ts : List K)
    (fo eo : Bool) (S : FitState K gs) (hn : S.prior.isArray = false) :
    fit E grid m Ls ts fo eo S = fit E grid m' Ls ts fo eo S :=
  fit_model (fun q p t => C21_predictions { E with prior := q } h 0 p t) grid Ls ts fo eo S (Or.inl hn)

/-- Removing brackets and Static inside a combination keeps fits identical for every prior, also numpy arrays. -/
theorem C21_fit_combined (E : Env K gs) (grid : (a : Fin d) → Fin (gs a) → K) {ms ms' : List (TM K)} (h : Rewrites (.combined ms) (.combined ms'))
    (Ls : List (Idx gs → K)) (ts : List K) (fo eo : Bool) (S : FitState K gs) :
    fit E grid (.combined ms) Ls ts fo eo S = fit E grid (.combined ms') Ls ts fo eo S :=
  fit_model (fun q p t => C21_predictions { E with prior := q } h 0 p t) grid Ls ts fo eo S (Or.inr fun t => by simp [TM.returnsArg])

example : Rewrites (.combined [Ex.grw 1, .combined [staticModel, Ex.regime], .combined [Ex.cp 3]]) (.combined [Ex.grw 1, Ex.regime, Ex.cp 3]) :=
  .trans (.flatten [Ex.grw 1] [staticModel, Ex.regime] [.combined [Ex.cp 3]])
    (.trans (.flatten [Ex.grw 1, staticModel, Ex.regime] [Ex.cp 3] []) (.static [Ex.grw 1] [Ex.regime, Ex.cp 3]))

/-- The claim C21 for fits (any prior). -/
def C21_claim {K : Type} [Field K] [LinearOrder K] {d : ℕ} {gs : Fin d → ℕ} (E : Env K gs) (grid : (a : Fin d) → Fin (gs a) → K) (S : FitState K gs) : Prop :=
  ∀ (m m' : TM K), Rewrites m m' → ∀ (Ls : List (Idx gs → K)) (ts : List K),
    (match fit E grid m Ls ts true false S, fit E grid m' Ls ts true false S with
      | .ok A, .ok B => A.logEv = B.logEv
      | _, _ => True)

/-- **C21 refuted** for a prior given as numpy array: a change-point and the combination consisting of this change-point only give different evidences. -/
theorem C21_refuted : ¬ C21_claim (Ex.env Ex.gs2 1) (Ex.grid Ex.gs2) (Ex.S0 (.array (some (Ex.v2 1 3)))) := by
  intro h
  have := h _ _ (.single (Ex.cp 1)) [Ex.v2 1 2, Ex.v2 1 4, Ex.v2 1 3] [0, 1, 2]
  revert this
  have e1 : Ex.ev (fit (Ex.env Ex.gs2 1) (Ex.grid Ex.gs2) (Ex.cp 1) [Ex.v2 1 2, Ex.v2 1 4, Ex.v2 1 3] [0, 1, 2] true false (Ex.S0 (.array (some (Ex.v2 1 3))))) ≠
      Ex.ev (fit (Ex.env Ex.gs2 1) (Ex.grid Ex.gs2) (.combined [Ex.cp 1]) [Ex.v2 1 2, Ex.v2 1 4, Ex.v2 1 3] [0, 1, 2] true false (Ex.S0 (.array (some (Ex.v2 1 3))))) := by decide +kernel
  have e2 : Ex.ev (fit (Ex.env Ex.gs2 1) (Ex.grid Ex.gs2) (Ex.cp 1) [Ex.v2 1 2, Ex.v2 1 4, Ex.v2 1 3] [0, 1, 2] true false (Ex.S0 (.array (some (Ex.v2 1 3))))) ≠ none := by decide +kernel
  have e3 : Ex.ev (fit (Ex.env Ex.gs2 1) (Ex.grid Ex.gs2) (.combined [Ex.cp 1]) [Ex.v2 1 2, Ex.v2 1 4, Ex.v2 1 3] [0, 1, 2] true false (Ex.S0 (.array (some (Ex.v2 1 3))))) ≠ none := by decide +kernel
  revert e1 e2 e3
  generalize fit (Ex.env Ex.gs2 1) (Ex.grid Ex.gs2) (Ex.cp 1) [Ex.v2 1 2, Ex.v2 1 4, Ex.v2 1 3] [0, 1, 2] true false (Ex.S0 (.array (some (Ex.v2 1 3)))) = A
  generalize fit (Ex.env Ex.gs2 1) (Ex.grid Ex.gs2) (.combined [Ex.cp 1]) [Ex.v2 1 2, Ex.v2 1 4, Ex.v2 1 3] [0, 1, 2] true false (Ex.S0 (.array (some (Ex.v2 1 3)))) = B
  cases A <;> cases B <;> simp [Ex.ev]
  intro h1 h2
  exact h1 (by rw [h2])

/-- ChangePoint(t) -/
def cpModel {K : Type} (c : K) : TM K := .leaf .changePoint ["t"] [.scalar c] (some (.item .none))

/-- serial model of Static sub-models with change-points at the times `bs` -/
def staticSerial {K : Type} (names : List String) (bs : List K) : TM K :=
  .serial names (bs.map .scalar) (bs.map fun _ => .item .none) (bs.map fun _ => true) (List.replicate (bs.length + 1) staticModel)

theorem nth_static {E : Env K gs} {toff : K} : ∀ (n i : ℕ), i < n → ∀ (p : Arr K gs) (t : K),
    TM.fwdNth E toff (List.replicate n staticModel) i p t = .ok p ∧ TM.bwdNth E toff (List.replicate n staticModel) i p t = .ok p ∧
      TM.returnsArgNth (List.replicate n (staticModel : TM K)) i t = true
  | n + 1, 0, _, p, t => by simp [List.replicate_succ, TM.fwdNth, TM.bwdNth, TM.returnsArgNth, staticModel, TM.fwd, TM.bwd, TM.returnsArg, leafFwd, leafBwd, leafReturnsArg]
  | n + 1, i + 1, h, p, t => by
      simp only [List.replicate_succ, TM.fwdNth, TM.bwdNth, TM.returnsArgNth]
      exact nth_static n i (by omega) p t

theorem cpIn_all (bs : List K) (t : K) : cpIn bs (bs.map fun _ => true) t = decide (t ∈ bs) := by
  unfold cpIn
  induction bs with
  | nil => simp
  | cons b bs ih =>
      simp only [List.map_cons, List.zip_cons_cons, List.any_cons, ih, Bool.true_and, List.mem_cons]
      by_cases h : b = t
      · simp [h]
      · simp [h, Ne.symm h]

theorem staticSerial_fwd (E : Env K gs) (toff : K) (names : List String) (bs : List K) (p : Arr K gs) (t : K) :
    TM.fwd E toff (staticSerial names bs) p t = .ok (if t ∈ bs then E.resetCell else p) ∧
    TM.bwd E toff (staticSerial names bs) p t = .ok (if t - 1 ∈ bs then E.resetCell else p) ∧
    TM.returnsArg (staticSerial names bs) t = decide (t ∉ bs) := by
  have hk : ∀ t, modelIndex bs t < bs.length + 1 := fun t => Nat.lt_succ_of_le List.countP_le_length
  refine ⟨?_, ?_, ?_⟩
  · simp only [staticSerial, TM.fwd, scalars_map, bind, Except.bind]
    rw [(nth_static _ _ (hk t) p t).1]
    simp only [cpCheck, cpIn_all, decide_eq_true_eq]
  · simp only [staticSerial, TM.bwd, scalars_map, bind, Except.bind]
    rw [(nth_static _ _ (hk (t - 1)) p t).2.1]
    simp only [cpCheck, cpIn_all, decide_eq_true_eq]
  · simp only [staticSerial, TM.returnsArg, scalars_map]
    rw [(nth_static (K := K) (gs := gs) (E := E) (toff := toff) _ _ (hk t) p t).2.2, cpIn_all]
    simp

theorem cpModel_fwd (E : Env K gs) (toff c : K) (p : Arr K gs) (t : K) :
    TM.fwd E toff (cpModel c) p t = .ok (if t = c then E.resetCell else p) ∧
    TM.bwd E toff (cpModel c) p t = .ok (if t - 1 = c then E.resetCell else p) ∧
    TM.returnsArg (cpModel c) t = decide (t ≠ c) := by
  refine ⟨?_, ?_, ?_⟩
  · simp only [cpModel, TM.fwd, leafFwd, cpHit, bind, Except.bind, List.getElem?_cons_zero, decide_eq_true_eq]; split <;> rfl
  · simp only [cpModel, TM.bwd, leafBwd, leafFwd, cpHit, bind, Except.bind, List.getElem?_cons_zero, decide_eq_true_eq]; split <;> rfl
  · simp [cpModel, TM.returnsArg, leafReturnsArg, cpHit]

/-- **C22 (one change-point).** Every prior (also arrays), data, timestamps and mode: identical fits. -/
theorem C22_changePoint (E : Env K gs) (grid : (a : Fin d) → Fin (gs a) → K) (name : String) (c : K) (Ls : List (Idx gs → K)) (ts : List K)
    (fo eo : Bool) (S : FitState K gs) :
    mkSerial [staticModel, cpModel c, staticModel] = .ok (staticSerial ["t"] [c]) ∧
    fit E grid (cpModel c) Ls ts fo eo S = fit E grid (staticSerial [name] [c]) Ls ts fo eo S := by
  refine ⟨?_, fit_model (fun q p t => ?_) grid Ls ts fo eo S (Or.inr fun t => ?_)⟩
  · rfl
  · rw [(cpModel_fwd _ 0 c p t).1, (cpModel_fwd _ 0 c p t).2.1, (staticSerial_fwd _ 0 [name] [c] p t).1, (staticSerial_fwd _ 0 [name] [c] p t).2.1]
    simp
  · rw [(cpModel_fwd E 0 c none t).2.2, (staticSerial_fwd E 0 [name] [c] none t).2.2]
    simp

theorem combined_cps (E : Env K gs) (toff : K) (t : K) : ∀ (bs : List K) (p : Arr K gs),
    TM.fwd E toff (.combined (bs.map cpModel)) p t = .ok (if t ∈ bs then E.resetCell else p) ∧
    TM.bwd E toff (.combined (bs.map cpModel)) p t = .ok (if t - 1 ∈ bs then E.resetCell else p)
  | [], p => by simp [TM.fwd, TM.fwdAll, TM.bwd, TM.bwdAll]
  | b :: bs, p => by
      rw [List.map_cons, (combined_cons E toff _ _ p t).1, (combined_cons E toff _ _ p t).2, (cpModel_fwd E toff b p t).1, (cpModel_fwd E toff b p t).2.1]
      simp only [Except.bind]
      rw [(combined_cps E toff t bs _).1, (combined_cps E toff t bs _).2]
      constructor
      · by_cases h : t = b <;> by_cases h' : t ∈ bs <;> simp [h, h']
      · by_cases h : t - 1 = b <;> by_cases h' : t - 1 ∈ bs <;> simp [h, h']

/-- **C22 (several change-points).** Every prior that is not a numpy array: the serial model with change-points `bs` and Static sub-models fits like the combination of the
single change-points. -/
theorem C22_several_partial (E : Env K gs) (grid : (a : Fin d) → Fin (gs a) → K) (names : List String) (bs : List K) (Ls : List (Idx gs → K)) (ts : List K)
    (fo eo : Bool) (S : FitState K gs) (hn : S.prior.isArray = false) :
    fit E grid (staticSerial names bs) Ls ts fo eo S = fit E grid (.combined (bs.map cpModel)) Ls ts fo eo S := by
  refine fit_model (fun q p t => ?_) grid Ls ts fo eo S (Or.inl hn)
  rw [(staticSerial_fwd _ 0 names bs p t).1, (staticSerial_fwd _ 0 names bs p t).2.1, (combined_cps _ 0 t bs p).1, (combined_cps _ 0 t bs p).2]
  exact ⟨rfl, rfl⟩

example : (Ex.S0 (gs := Ex.gs2) (.func (Ex.v2 1 3))).prior.isArray = false ∧
    Ex.ev (fit (Ex.env Ex.gs2 2) (Ex.grid Ex.gs2) (staticSerial ["a", "b"] [0, 1]) [Ex.v2 1 2, Ex.v2 1 4, Ex.v2 1 3] [0, 1, 2] false false (Ex.S0 (.func (Ex.v2 1 3)))) = some (455 / 8) := by
  decide +kernel

/-- **C22 refuted** for numpy-array priors and several change-points. -/
theorem C22_refuted_array :
    Ex.ev (fit (Ex.env Ex.gs2 1) (Ex.grid Ex.gs2) (staticSerial ["a", "b"] [1, 5]) [Ex.v2 1 2, Ex.v2 1 4, Ex.v2 1 3] [0, 1, 2] true false (Ex.S0 (.array (some (Ex.v2 1 3))))) ≠
    Ex.ev (fit (Ex.env Ex.gs2 1) (Ex.grid Ex.gs2) (.combined [cpModel 1, cpModel 5]) [Ex.v2 1 2, Ex.v2 1 4, Ex.v2 1 3] [0, 1, 2] true false (Ex.S0 (.array (some (Ex.v2 1 3))))) := by
  decide +kernel

mutual
/-- No explicit time dependence: everything except ChangePoint, Deterministic, break-points and serial models. -/
def Timeless {K : Type} : TM K → Prop
  | .leaf .changePoint _ _ _ => False
  | .leaf (.deterministic _ _) _ _ _ => False
  | .leaf _ _ _ _ => True
  | .combined ms => TimelessAll ms
  | .serial _ _ _ _ _ => False
/-- all members -/
def TimelessAll {K : Type} : List (TM K) → Prop
  | [] => True
  | m :: ms => Timeless m ∧ TimelessAll ms
end

mutual
theorem timeless_fwd {E : Env K gs} : ∀ (m : TM K), Timeless m → ∀ (o o' t t' : K) (p : Arr K gs),
    TM.fwd E o m p t = TM.fwd E o' m p t' ∧ TM.bwd E o m p t = TM.bwd E o' m p t' ∧ TM.returnsArg m t = TM.returnsArg m t'
  | .leaf k _ _ _, h, o, o', t, t', p => by
      cases k <;> first
        | (simp only [TM.fwd, TM.bwd, TM.returnsArg, leafFwd, leafBwd, leafReturnsArg, and_self]; done)
        | (exact absurd h (by simp only [Timeless, not_false_eq_true]))
  | .combined ms, h, o, o', t, t', p => by
      have h : TimelessAll ms := by simpa only [Timeless] using h
      simp only [TM.fwd, TM.bwd, TM.returnsArg, and_true]
      exact timelessAll_fwd ms h o o' t t' p
  | .serial _ _ _ _ _, h, _, _, _, _, _ => by simp only [Timeless] at h
theorem timelessAll_fwd {E : Env K gs} : ∀ (ms : List (TM K)), TimelessAll ms → ∀ (o o' t t' : K) (p : Arr K gs),
    TM.fwdAll E o ms p t = TM.fwdAll E o' ms p t' ∧ TM.bwdAll E o ms p t = TM.bwdAll E o' ms p t'
  | [], _, o, o', t, t', p => by simp only [TM.fwdAll, TM.bwdAll, and_self]
  | m :: ms, h, o, o', t, t', p => by
      have h : Timeless m ∧ TimelessAll ms := by simpa only [TimelessAll] using h
      simp only [TM.fwdAll, TM.bwdAll]
      rw [(timeless_fwd m h.1 o o' t t' p).1, (timeless_fwd m h.1 o o' t t' p).2.1]
      constructor
      · congr 1; funext q; exact (timelessAll_fwd ms h.2 o o' t t' q).1
      · congr 1; funext q; exact (timelessAll_fwd ms h.2 o o' t t' q).2
end

/-- serial model with break-points at `bs` whose sub-models are copies of `m` -/
def splitModel {K : Type} (names : List String) (pri : List (Nest (HPrior K))) (bs : List K) (m : TM K) : TM K :=
  .serial names (bs.map .scalar) pri (bs.map fun _ => false) (List.replicate (bs.length + 1) m)

theorem nth_copies {E : Env K gs} {o : K} {m : TM K} : ∀ (n i : ℕ), i < n → ∀ (p : Arr K gs) (t : K),
    TM.fwdNth E o (List.replicate n m) i p t = TM.fwd E o m p t ∧ TM.bwdNth E o (List.replicate n m) i p t = TM.bwd E o m p t ∧
      TM.returnsArgNth (List.replicate n m) i t = TM.returnsArg m t
  | n + 1, 0, _, p, t => by simp only [List.replicate_succ, TM.fwdNth, TM.bwdNth, TM.returnsArgNth, and_self]
  | n + 1, i + 1, h, p, t => by
      simp only [List.replicate_succ, TM.fwdNth, TM.bwdNth, TM.returnsArgNth]
      exact nth_copies n i (by omega) p t

theorem cpIn_none (bs : List K) (t : K) : cpIn bs (bs.map fun _ => false) t = false := by
  unfold cpIn
  induction bs with
  | nil => rfl
  | cons b bs ih => simp only [List.map_cons, List.zip_cons_cons, List.any_cons, ih, Bool.false_and, Bool.or_self]

/-- **C23.** Every model without explicit time dependence, every list of break times (in any order), every prior, data, timestamps and mode. -/
theorem C23_split (E : Env K gs) (grid : (a : Fin d) → Fin (gs a) → K) (names : List String) (pri : List (Nest (HPrior K))) (bs : List K) (m : TM K) (hm : Timeless m)
    (Ls : List (Idx gs → K)) (ts : List K) (fo eo : Bool) (S : FitState K gs) :
    fit E grid (splitModel names pri bs m) Ls ts fo eo S = fit E grid m Ls ts fo eo S := by
  have hk : ∀ t, modelIndex bs t < bs.length + 1 := fun t => Nat.lt_succ_of_le List.countP_le_length
  have hcp : ∀ (E : Env K gs) (q : Arr K gs) (t : K), cpCheck E bs (bs.map fun _ => false) q t = q := by
    intro E q t; unfold cpCheck; rw [cpIn_none]; rfl
  refine fit_model (fun q p t => ⟨?_, ?_⟩) grid Ls ts fo eo S (Or.inr fun t => ?_)
  · simp only [splitModel, TM.fwd, scalars_map, bind, Except.bind]
    rw [(nth_copies _ _ (hk t) p t).1, (timeless_fwd m hm _ 0 t t p).1]
    cases TM.fwd { E with prior := q } 0 m p t with
    | error e => rfl
    | ok r => simp only [hcp]
  · simp only [splitModel, TM.bwd, scalars_map, bind, Except.bind]
    rw [(nth_copies _ _ (hk (t - 1)) p t).2.1, (timeless_fwd m hm _ 0 t t p).2.1]
    cases TM.bwd { E with prior := q } 0 m p t with
    | error e => rfl
    | ok r => simp only [hcp]
  · simp only [splitModel, TM.returnsArg, scalars_map]
    rw [(nth_copies (E := E) (o := 0) _ _ (hk t) none t).2.2, cpIn_none]
    simp

example : Timeless (.combined [Ex.grw 1, .combined [Ex.regime, Ex.indep], Ex.static] : TM ℚ) := by
  simp [Timeless, TimelessAll, Ex.grw, Ex.regime, Ex.indep, Ex.static]

/-- The split model of a Deterministic model does NOT fit like the model alone (time restarts at breaks), so the restriction is needed. -/
example : ¬ Timeless (.leaf (.deterministic (fun t _ => t) "x") [] [] none : TM ℚ) := by simp [Timeless]

/-! ## Deterministic models -/

/-- a Deterministic model with function `f` (time first) and hyper-parameter values `vs` -/
def detModel {K : Type} (f : K → List K → K) (target : String) (names : List String) (vs : List K) : TM K :=
  .leaf (.deterministic f target) names (vs.map .scalar) none

/-- predictions for the time steps `t0, t0 + 1, …` (`n` of them), one after the other -/
def predictN {K : Type} [Field K] [LinearOrder K] {d : ℕ} {gs : Fin d → ℕ} (E : Env K gs) (toff : K) (m : TM K) (t0 : K) : ℕ → Arr K gs → Except PyErr (Arr K gs)
  | 0, p => .ok p
  | n + 1, p => (predictN E toff m t0 n p).bind fun q => TM.fwd E toff m q (t0 + n)

theorem det_fwd (E : Env K gs) (f : K → List K → K) (target : String) (names : List String) (vs : List K) (a : Fin d) (ha : E.axis target = .ok a)
    (hl : E.lattice a ≠ 0) (toff t : K) (p : Arr K gs) :
    TM.fwd E toff (detModel f target names vs) p t = .ok (p.bind fun q => BL.normalize (E.ext.shift a ((f (t + 1 - toff) vs - f (t - toff) vs) / E.lattice a) q)) ∧
    TM.bwd E toff (detModel f target names vs) p t = .ok (p.bind fun q => BL.normalize (E.ext.shift a ((f (t - 1 - toff) vs - f (t - toff) vs) / E.lattice a) q)) := by
  simp only [detModel, TM.fwd, TM.bwd, leafFwd, leafBwd, ha, scalars_map, bind, Except.bind, detShift, if_neg hl, detDist, and_self]

/-- **C24 (one step).** The forward prediction from `t` to `t + 1` shifts the distribution by `f(t+1) - f(t)` (in units of the lattice constant), the backward prediction from
`t + 1` to `t` by exactly the opposite amount; with time measured from `toff`. -/
theorem C24_step (E : Env K gs) (f : K → List K → K) (target : String) (names : List String) (vs : List K) (a : Fin d) (ha : E.axis target = .ok a)
    (hl : E.lattice a ≠ 0) (toff t : K) (p : Idx gs → K) :
    ∃ u : K, u * E.lattice a = f (t + 1 - toff) vs - f (t - toff) vs ∧
      TM.fwd E toff (detModel f target names vs) (some p) t = .ok (BL.normalize (E.ext.shift a u p)) ∧
      TM.bwd E toff (detModel f target names vs) (some p) (t + 1) = .ok (BL.normalize (E.ext.shift a (-u) p)) := by
  refine ⟨_, div_mul_cancel₀ _ hl, ?_, ?_⟩
  · rw [(det_fwd E f target names vs a ha hl toff t _).1]; rfl
  · rw [(det_fwd E f target names vs a ha hl toff (t + 1) _).2]
    have : (f (t + 1 - 1 - toff) vs - f (t + 1 - toff) vs) / E.lattice a = -((f (t + 1 - toff) vs - f (t - toff) vs) / E.lattice a) := by
      rw [add_sub_cancel_right, ← neg_div, neg_sub]
    rw [this]; rfl

/-- Shifts by amounts in `G` add up, and shifting commutes with multiplication by constants. -/
structure ShiftAction {K : Type} [Field K] {d : ℕ} {gs : Fin d → ℕ} (X : Ext K gs) (a : Fin d) (G : Set K) : Prop where
  zero_mem : (0 : K) ∈ G
  add_mem : ∀ u ∈ G, ∀ v ∈ G, u + v ∈ G
  zero : ∀ p, X.shift a 0 p = p
  add : ∀ u ∈ G, ∀ v ∈ G, ∀ p, X.shift a v (X.shift a u p) = X.shift a (u + v) p
  smul : ∀ u c p, X.shift a u (fun x => c * p x) = fun x => c * X.shift a u p x

theorem norm_shift {X : Ext K gs} {a : Fin d} {G : Set K} (hX : ShiftAction X a G) {u v : K} (hu : u ∈ G) (hv : v ∈ G) (p : Idx gs → K)
    (h0 : ∑ x, X.shift a u p x ≠ 0) :
    ((BL.normalize (X.shift a u p)).bind fun q => BL.normalize (X.shift a v q)) = BL.normalize (X.shift a (u + v) p) := by
  unfold BL.normalize
  rw [if_neg h0]
  simp only [Option.bind_some]
  have e : X.shift a v (fun x => X.shift a u p x / ∑ y, X.shift a u p y) = fun x => (1 / ∑ y, X.shift a u p y) * X.shift a (u + v) p x := by
    rw [← hX.add u hu v hv p, ← hX.smul]
    congr 1; funext x; ring
  rw [e, ← Finset.mul_sum]
  by_cases h : ∑ x, X.shift a (u + v) p x = 0
  · simp [h]
  · rw [if_neg h, if_neg (mul_ne_zero (one_div_ne_zero h0) h)]
    congr 1; funext x
    field_simp

/-- **C24 (accumulated shift).** After `n` unit time steps from `t0` the distribution has been shifted by `f(t0 + n) - f(t0)` in total: whenever the `n` predictions return a distribution `q`,
it is the normalised shift of the initial distribution by that amount. -/
theorem C24_accumulated (E : Env K gs) (f : K → List K → K) (target : String) (names : List String) (vs : List K) (a : Fin d) (ha : E.axis target = .ok a)
    (hl : E.lattice a ≠ 0) (toff t0 : K) (G : Set K) (hX : ShiftAction E.ext a G)
    (hG : ∀ n : ℕ, (f (t0 + n + 1 - toff) vs - f (t0 + n - toff) vs) / E.lattice a ∈ G)
    (p : Idx gs → K) (hp : ∑ x, p x = 1) : ∀ (n : ℕ) (q : Idx gs → K),
    predictN E toff (detModel f target names vs) t0 n (some p) = .ok (some q) →
    BL.normalize (E.ext.shift a ((f (t0 + n - toff) vs - f (t0 - toff) vs) / E.lattice a) p) = some q := by
  have hmem : ∀ n : ℕ, (f (t0 + n - toff) vs - f (t0 - toff) vs) / E.lattice a ∈ G := by
    intro n
    induction n with
    | zero => simpa using hX.zero_mem
    | succ n ih =>
        have := hX.add_mem _ ih _ (hG n)
        rw [← add_div] at this
        have e : f (t0 + n - toff) vs - f (t0 - toff) vs + (f (t0 + n + 1 - toff) vs - f (t0 + n - toff) vs) = f (t0 + ((n + 1 : ℕ) : K) - toff) vs - f (t0 - toff) vs := by
          push_cast; rw [← add_assoc]; ring
        rwa [e] at this
  intro n
  induction n with
  | zero =>
      intro q h
      simp only [predictN, Except.ok.injEq, Option.some.injEq] at h
      subst h
      simp only [Nat.cast_zero, add_zero, sub_self, zero_div, hX.zero, BL.normalize, hp, one_ne_zero, if_false, div_one]
  | succ n ih =>
      intro q h
      simp only [predictN] at h
      cases hr : predictN E toff (detModel f target names vs) t0 n (some p) with
      | error e => rw [hr] at h; simp [Except.bind] at h
      | ok r =>
        rw [hr] at h
        simp only [Except.bind] at h
        rw [(det_fwd E f target names vs a ha hl toff _ _).1] at h
        cases r with
        | none => simp at h
        | some r =>
          have h1 := ih r hr
          simp only [Except.ok.injEq] at h
          rw [← h1] at h
          have h0 : ∑ x, E.ext.shift a ((f (t0 + n - toff) vs - f (t0 - toff) vs) / E.lattice a) p x ≠ 0 := by
            intro h0; unfold BL.normalize at h1; rw [if_pos h0] at h1; simp at h1
          rw [norm_shift hX (hmem n) (hG n) p h0] at h
          rw [← h]
          congr 2
          rw [← add_div]
          congr 1
          push_cast; rw [← add_assoc]; ring

/-- shift by whole grid cells with boundary mode 'nearest' on an axis, zero for non-integer amounts: what scipy computes for shifts by whole cells -/
def wholeShift (gs : Fin 1 → ℕ) (u : ℚ) (p : Idx gs → ℚ) : Idx gs → ℚ := fun x =>
  p fun b => ⟨(max 0 (min ((gs b : ℤ) - 1) (((x b : ℕ) : ℤ) - u.floor))).toNat, by have := (x b).isLt; omega⟩

/-- whole-cell shifts in one direction add up -/
theorem wholeShift_action (gs : Fin 1 → ℕ) : ShiftAction ({ Ex.ext gs with shift := fun _ => wholeShift gs } : Ext ℚ gs) 0 {u | ∃ n : ℕ, u = n} where
  zero_mem := ⟨0, by simp⟩
  add_mem := by rintro _ ⟨n, rfl⟩ _ ⟨m, rfl⟩; exact ⟨n + m, by push_cast; ring⟩
  zero := by
    intro p
    funext x
    simp only [wholeShift]
    congr 1
    funext b
    apply Fin.ext
    have h1 := (x b).isLt
    have : (0 : ℚ).floor = 0 := by decide +kernel
    simp only [this]
    omega
  add := by
    rintro _ ⟨n, rfl⟩ _ ⟨m, rfl⟩ p
    funext x
    simp only [wholeShift]
    congr 1
    funext b
    apply Fin.ext
    have h1 := (x b).isLt
    have f1 : ∀ k : ℕ, (k : ℚ).floor = k := fun k => by
      have := Rat.floor_intCast (k : ℤ)
      simpa using this
    have f2 : ((n : ℚ) + m).floor = n + m := by
      have := f1 (n + m); push_cast at this; exact this
    simp only [f1, f2]
    omega
  smul := by intro u c p; rfl

/-- hypotheses of `C24_accumulated`: `f(t) = 2 t` on a grid with lattice constant 1, whole-cell shifts -/
example (p : Idx Ex.gs3 → ℚ) (hp : ∑ x, p x = 1) (n : ℕ) (q : Idx Ex.gs3 → ℚ) :=
  C24_accumulated { Ex.env Ex.gs3 1 with ext := { Ex.ext Ex.gs3 with shift := fun _ => wholeShift Ex.gs3 } } (fun t _ => 2 * t) "x" [] [] 0
    (by simp [Env.axis, Ex.env, List.finRange_succ]) (by decide +kernel) 0 0 _ (wholeShift_action Ex.gs3)
    (fun n => ⟨2, by simp only [Ex.env]; push_cast; ring⟩) p hp n q

/-- the prediction in the example is not trivial -/
example : (match predictN { Ex.env Ex.gs3 1 with ext := { Ex.ext Ex.gs3 with shift := fun _ => wholeShift Ex.gs3 } } 0 (detModel (fun t _ => t) "x" [] []) 0 2
      (some (Ex.v3 (1 / 2) (1 / 4) (1 / 4))) with
    | .ok (some q) => some (q fun _ => ⟨0, by simp [Ex.gs3]⟩)
    | _ => none) = some (1 / 3 : ℚ) := by decide +kernel

/-- **C24 (breaks).** Inside a serial model the Deterministic sub-model of segment `k` measures time from the break at which the segment starts: at `t` in the segment it shifts by
`f(t+1-b) - f(t-b)`, `b = bs[k-1]`. -/
theorem C24_break (E : Env K gs) (names : List String) (bs : List K) (pri : List (Nest (HPrior K))) (mask : List Bool) (ms : List (TM K))
    (hlen : ms.length = bs.length + 1) (hinc : bs.Pairwise (· < ·)) (t : K) (k : ℕ) (hk : k < bs.length) (h1 : bs[k] ≤ t) (h2 : ∀ i (h : i < bs.length), k < i → t < bs[i])
    (hnc : (t, true) ∉ bs.zip mask)
    (f : K → List K → K) (target : String) (dn : List String) (vs : List K) (hm : ms[k + 1]'(by omega) = detModel f target dn vs)
    (a : Fin d) (ha : E.axis target = .ok a) (hl : E.lattice a ≠ 0) (toff : K) (p : Arr K gs) :
    TM.fwd E toff (.serial names (bs.map .scalar) pri mask ms) p t =
      .ok (p.bind fun q => BL.normalize (E.ext.shift a ((f (t + 1 - bs[k]) vs - f (t - bs[k]) vs) / E.lattice a) q)) := by
  obtain ⟨j, ⟨⟨hj1, hj2⟩, hj3, -⟩, -⟩ := C20_segment E names bs pri mask ms hlen hinc t
  have hjk : j.val = k + 1 := by
    have e1 : k < j.val := by
      by_contra hh
      exact absurd h1 (not_le.2 (hj2 k hk (by omega)))
    by_contra hne
    have hlt : k + 1 < j.val := by omega
    have hb : k + 1 < bs.length := by omega
    exact absurd (hj1 (k + 1) hb hlt) (not_le.2 (h2 (k + 1) hb (by omega)))
  have hm' : ms[j.val]'(by omega) = detModel f target dn vs := by rw [← hm]; congr 1
  rw [hj3 toff p, hm', (det_fwd E f target dn vs a ha hl _ t p).1]
  simp only [Except.map, if_neg hnc, hjk, Nat.succ_pos, dif_pos, Nat.add_sub_cancel]

example : ∃ bs : List ℚ, bs = [2, 5] ∧ ∃ h : 0 < bs.length, bs[0] ≤ 3 ∧ (3, true) ∉ bs.zip [false, true] := ⟨_, rfl, by decide, by decide +kernel, by decide +kernel⟩

end Props
