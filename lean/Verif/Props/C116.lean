import Verif.Model.Dtype
import Verif.Props.C113
import Verif.Props.C114
import Verif.Props.Ex
import Mathlib.Tactic.Linarith

/-!
# C116: whether numbers are given as integers or as floating-point numbers does not matter

Model/Dtype.lean models the functions that change user-supplied values in place, with the element types of the arrays.
-/

set_option linter.unusedSectionVars false

namespace Props
open BL

variable {K : Type} [Field K] [LinearOrder K] {d : ℕ} {gs : Fin d → ℕ}

theorem resetArrT_float (E : Env K gs) : E.resetArrT .float = .ok E.resetArr := by
  unfold Env.resetArrT
  cases E.prior <;> rfl

theorem resetCellT_of {ty : NumType} {E : Env K gs} (h : E.resetArrT ty = .ok E.resetArr) :
    E.resetCellT ty = .ok E.resetCell := by
  unfold Env.resetCellT
  rw [h]; rfl

/-- floats, or no resets -/
def Harmless (ty : NumType) (m : TM K) : Prop := ty = .float ∨ NoReset m
def HarmlessAll (ty : NumType) (ms : List (TM K)) : Prop := ty = .float ∨ NoResetAll ms

theorem leafFwdT_eq {ty : NumType} {k : Leaf K} {ns vals pr} (h : Harmless ty (TM.leaf k ns vals pr)) (E : Env K gs) (toff : K)
    (p : Arr K gs) (t : K) : leafFwdT ty E toff k vals p t = leafFwd E toff k vals p t := by
  rcases h with rfl | h
  · cases k <;> try rfl
    · simp only [leafFwdT, leafFwd, resetCellT_of (resetArrT_float E)]
    · simp only [leafFwdT, leafFwd, resetArrT_float]
  · cases k <;> first | rfl | exact absurd h (by simp [NoReset])

theorem leafBwdT_eq {ty : NumType} {k : Leaf K} {ns vals pr} (h : Harmless ty (TM.leaf k ns vals pr)) (E : Env K gs) (toff : K)
    (p : Arr K gs) (t : K) : leafBwdT ty E toff k vals p t = leafBwd E toff k vals p t := by
  have := leafFwdT_eq h E toff p (t - 1)
  cases k <;> first | exact this | rfl

theorem cpCheckT_eq {ty : NumType} {mask : List Bool} (h : ty = .float ∨ ∀ b ∈ mask, b = false) (E : Env K gs) (vs : List K)
    (p : Arr K gs) (t : K) : cpCheckT ty E vs mask p t = .ok (cpCheck E vs mask p t) := by
  unfold cpCheckT cpCheck
  rcases h with rfl | h
  · rw [resetCellT_of (resetArrT_float E)]
    split_ifs <;> rfl
  · rw [cpIn_false h]; rfl

mutual
theorem fwdT_eq {ty : NumType} (E : Env K gs) : ∀ (toff : K) (m : TM K), Harmless ty m → ∀ p t, m.fwdT ty E toff p t = m.fwd E toff p t
  | toff, .leaf k ns vals pr, h, p, t => by
      rw [TM.fwdT, TM.fwd]; exact leafFwdT_eq h E toff p t
  | toff, .combined ms, h, p, t => by
      rw [TM.fwdT, TM.fwd]
      exact fwdAllT_eq E toff ms (h.imp id fun h => by simpa only [NoReset] using h) p t
  | toff, .serial ns vals pr mask ms, h, p, t => by
      rw [TM.fwdT, TM.fwd]
      have h' : ty = .float ∨ (∀ b ∈ mask, b = false) ∧ NoResetAll ms := h.imp id fun h => by simpa only [NoReset] using h
      congr 1; funext vs
      simp only [fwdNthT_eq E _ ms (h'.imp id (·.2)), cpCheckT_eq (h'.imp id (·.1))]
theorem fwdAllT_eq {ty : NumType} (E : Env K gs) : ∀ (toff : K) (ms : List (TM K)), HarmlessAll ty ms → ∀ p t,
    TM.fwdAllT ty E toff ms p t = TM.fwdAll E toff ms p t
  | _, [], _, _, _ => by rw [TM.fwdAllT, TM.fwdAll]
  | toff, m :: ms, h, p, t => by
      rw [TM.fwdAllT, TM.fwdAll]
      have h' : ty = .float ∨ NoReset m ∧ NoResetAll ms := h.imp id fun h => by simpa only [NoResetAll] using h
      rw [fwdT_eq E toff m (h'.imp id (·.1))]
      congr 1; funext q
      exact fwdAllT_eq E toff ms (h'.imp id (·.2)) q t
theorem fwdNthT_eq {ty : NumType} (E : Env K gs) : ∀ (toff : K) (ms : List (TM K)), HarmlessAll ty ms → ∀ i p t,
    TM.fwdNthT ty E toff ms i p t = TM.fwdNth E toff ms i p t
  | _, [], _, i, _, _ => by rw [TM.fwdNthT, TM.fwdNth]
  | toff, m :: ms, h, 0, p, t => by
      rw [TM.fwdNthT, TM.fwdNth]
      have h' : ty = .float ∨ NoReset m ∧ NoResetAll ms := h.imp id fun h => by simpa only [NoResetAll] using h
      exact fwdT_eq E toff m (h'.imp id (·.1)) p t
  | toff, m :: ms, h, i + 1, p, t => by
      rw [TM.fwdNthT, TM.fwdNth]
      have h' : ty = .float ∨ NoReset m ∧ NoResetAll ms := h.imp id fun h => by simpa only [NoResetAll] using h
      exact fwdNthT_eq E toff ms (h'.imp id (·.2)) i p t
end

mutual
theorem bwdT_eq {ty : NumType} (E : Env K gs) : ∀ (toff : K) (m : TM K), Harmless ty m → ∀ p t, m.bwdT ty E toff p t = m.bwd E toff p t
  | toff, .leaf k ns vals pr, h, p, t => by
      rw [TM.bwdT, TM.bwd]; exact leafBwdT_eq h E toff p t
  | toff, .combined ms, h, p, t => by
      rw [TM.bwdT, TM.bwd]
      exact bwdAllT_eq E toff ms (h.imp id fun h => by simpa only [NoReset] using h) p t
  | toff, .serial ns vals pr mask ms, h, p, t => by
      rw [TM.bwdT, TM.bwd]
      have h' : ty = .float ∨ (∀ b ∈ mask, b = false) ∧ NoResetAll ms := h.imp id fun h => by simpa only [NoReset] using h
      congr 1; funext vs
      simp only [bwdNthT_eq E _ ms (h'.imp id (·.2)), cpCheckT_eq (h'.imp id (·.1))]
theorem bwdAllT_eq {ty : NumType} (E : Env K gs) : ∀ (toff : K) (ms : List (TM K)), HarmlessAll ty ms → ∀ p t,
    TM.bwdAllT ty E toff ms p t = TM.bwdAll E toff ms p t
  | _, [], _, _, _ => by rw [TM.bwdAllT, TM.bwdAll]
  | toff, m :: ms, h, p, t => by
      rw [TM.bwdAllT, TM.bwdAll]
      have h' : ty = .float ∨ NoReset m ∧ NoResetAll ms := h.imp id fun h => by simpa only [NoResetAll] using h
      rw [bwdT_eq E toff m (h'.imp id (·.1))]
      congr 1; funext q
      exact bwdAllT_eq E toff ms (h'.imp id (·.2)) q t
theorem bwdNthT_eq {ty : NumType} (E : Env K gs) : ∀ (toff : K) (ms : List (TM K)), HarmlessAll ty ms → ∀ i p t,
    TM.bwdNthT ty E toff ms i p t = TM.bwdNth E toff ms i p t
  | _, [], _, i, _, _ => by rw [TM.bwdNthT, TM.bwdNth]
  | toff, m :: ms, h, 0, p, t => by
      rw [TM.bwdNthT, TM.bwdNth]
      have h' : ty = .float ∨ NoReset m ∧ NoResetAll ms := h.imp id fun h => by simpa only [NoResetAll] using h
      exact bwdT_eq E toff m (h'.imp id (·.1)) p t
  | toff, m :: ms, h, i + 1, p, t => by
      rw [TM.bwdNthT, TM.bwdNth]
      have h' : ty = .float ∨ NoReset m ∧ NoResetAll ms := h.imp id fun h => by simpa only [NoResetAll] using h
      exact bwdNthT_eq E toff ms (h'.imp id (·.2)) i p t
end

theorem fwdPassT_eq {ty lty : NumType} (E : Env K gs) {tm : TM K} (h : Harmless ty tm) (al : Bool) (pr : PriorSpec K gs)
    (a : Arr K gs) (liks : List (Idx gs → K)) (ts : List K) :
    fwdPassT ty lty E tm .float al pr a liks ts = fwdPass E tm al pr a liks ts := by
  induction liks generalizing al pr a ts with
  | nil => cases a <;> rw [fwdPassT, fwdPass]
  | cons L Ls ih =>
      rcases a with _ | a
      · rw [fwdPassT, fwdPass]
      · rw [fwdPassT, fwdPass]
        simp only [fwdT_eq _ _ tm h, ih]
        rfl

theorem bwdPassT_eq {ty : NumType} (E : Env K gs) {tm : TM K} (h : Harmless ty tm) (steps : List (Step K gs)) :
    bwdPassT ty E tm steps = bwdPass E tm steps := by
  induction steps with
  | nil => rfl
  | cons s rest ih =>
      rw [bwdPassT, bwdPass]
      simp only [bwdT_eq _ _ tm h, ih]
      rfl

/-- The prior is not a numpy array of integers. -/
def NotIntArray (ty : NumType) : PriorSpec K gs → Prop
  | .array _ => ty = .float
  | _ => True

theorem computePriorT_eq {ty : NumType} (E : Env K gs) (h : NotIntArray ty E.prior) :
    computePriorT ty E = (computePrior E).map fun r => (r.1, r.2, .float) := by
  unfold computePriorT
  rcases hp : E.prior with _ | a | _ | _ | _ | _
  case array =>
    rw [hp] at h
    obtain rfl : ty = .float := h
    rcases a with _ | a
    · simp only [hp]
      cases computePrior E <;> rfl
    · simp only [hp]
      cases computePrior E <;> split_ifs <;> rfl
  all_goals simp only [hp]; cases computePrior E <;> rfl

theorem fitT_eq {ty lty : NumType} (E : Env K gs) (grid : (a : Fin d) → Fin (gs a) → K) {tm : TM K} (h : Harmless ty tm)
    (liks : List (Idx gs → K)) (ts : List K) (fo eo : Bool) (S : FitState K gs) (hp : NotIntArray ty S.prior) :
    fitT ty lty E grid tm liks ts fo eo S = fit E grid tm liks ts fo eo S := by
  unfold fitT fit
  rw [computePriorT_eq _ hp]
  rcases computePrior { E with prior := S.prior } with e | r
  · rfl
  · have hf := fwdPassT_eq (ty := ty) (lty := lty) E h r.2.isArray r.2 r.1 liks ts
    simp only [Except.map, bind, Except.bind, bwdPassT_eq _ h]
    rw [hf]

/-! ## Parameter priors -/

/-- **C116 (fits).**  If the prior is not a numpy array of integers and either nothing is given in integers or the transition model never
returns to the prior, a fit does not depend on the number types: it gives what the rest of this project proves about `fit`. -/
theorem C116_partial (ty lty : NumType) (E : Env K gs) (grid : (a : Fin d) → Fin (gs a) → K) (tm : TM K)
    (liks : List (Idx gs → K)) (ts : List K) (fo eo : Bool) (S : FitState K gs)
    (h : ty = .float ∨ (∀ a, S.prior ≠ .array a) ∧ NoReset tm) :
    fitT ty lty E grid tm liks ts fo eo S = fit E grid tm liks ts fo eo S := by
  refine fitT_eq E grid (h.imp id (·.2)) liks ts fo eo S ?_
  rcases h with rfl | ⟨h, -⟩
  · cases S.prior <;> simp [NotIntArray]
  · cases hp : S.prior <;> simp only [NotIntArray]
    exact absurd hp (h _)

theorem fitT_error {ty lty : NumType} {E : Env K gs} {grid : (a : Fin d) → Fin (gs a) → K} {tm : TM K}
    {liks : List (Idx gs → K)} {ts : List K} {fo eo : Bool} {S : FitState K gs} {a0 pr0 aty} {e : PyErr}
    (h0 : computePriorT ty { E with prior := S.prior } = .ok (a0, pr0, aty))
    (h1 : fwdPassT ty lty E tm aty pr0.isArray pr0 a0 liks ts = .error e) :
    fitT ty lty E grid tm liks ts fo eo S = .error e := by
  unfold fitT
  simp only [h0, bind, Except.bind]
  rw [h1]

/-- **C116 fails for prior arrays of integers:** every fit raises a `TypeError`, whatever the array, the transition model and the data are
(if the likelihoods are integers, too, the failure comes one line later, unless the first data point is impossible). -/
theorem C116_refuted (lty : NumType) (E : Env K gs) (grid : (a : Fin d) → Fin (gs a) → K) (tm : TM K) (L : Idx gs → K)
    (liks : List (Idx gs → K)) (ts : List K) (fo eo : Bool) (S : FitState K gs) (a : Idx gs → K) (hp : S.prior = .array (some a))
    (h : lty = .float ∨ 0 < ∑ x, a x * L x) :
    fitT .int lty E grid tm (L :: liks) ts fo eo S = .error .typeError := by
  by_cases hs : ∑ x, a x = 1
  · refine fitT_error (a0 := some a) (pr0 := .array (some a)) (aty := .int) ?_ ?_
    · simp only [computePriorT, hp, computePrior, hs, ne_eq, not_true_eq_false, if_false]
      rfl
    · rw [fwdPassT]
      cases lty
      · have h : 0 < ∑ x, a x * L x := h.resolve_left (by decide)
        simp only [NumType.join, inPlace, bind, Except.bind, if_pos h]
      · rfl
  · unfold fitT computePriorT
    simp only [hp, ne_eq, hs, not_false_eq_true, if_true]
    rfl

variable [IsStrictOrderedRing K]

theorem cp_pass_error (lty : NumType) (E : Env K gs) [Nonempty (Idx gs)] (ns) (pr) (tc : K) (v : Idx gs → K) :
    ∀ (liks : List (Idx gs → K)) (ts : List K) (a : Idx gs → K), (∀ x, 0 < a x) → (∀ L ∈ liks, ∀ x, 0 < L x) →
      ts.length = liks.length → tc ∈ ts →
      fwdPassT .int lty E (.leaf .changePoint ns [.scalar tc] pr) .float false (.func v) (some a) liks ts = .error .typeError
  | _, [], _, _, _, _, hm => absurd hm (by simp)
  | [], t :: ts, _, _, _, hl, _ => absurd hl (by simp)
  | L :: Ls, t :: ts, a, ha, hL, hl, hm => by
      have hpos : ∀ x, 0 < a x * L x := fun x => mul_pos (ha x) (hL L (by simp) x)
      have hn : 0 < ∑ x, a x * L x := Finset.sum_pos (fun x _ => hpos x) Finset.univ_nonempty
      rw [fwdPassT]
      have hi : inPlace NumType.float (NumType.join .float lty) = .ok () := by cases lty <;> rfl
      have hi2 : inPlace NumType.float NumType.float = .ok () := rfl
      simp only [hi, hi2, bind, Except.bind, if_pos hn, Bool.false_eq_true, if_false, TM.fwdT, leafFwdT, cpHit, List.getElem?_cons_zero,
        Bool.false_and]
      by_cases ht : t = tc
      · simp only [ht, decide_true, if_true, Env.resetCellT, Env.resetArrT, inPlace, bind, Except.bind]
      · simp only [ht, decide_false, Bool.false_eq_true, if_false]
        have hm' : tc ∈ ts := by
          rcases List.mem_cons.1 hm with h | h
          · exact absurd h.symm ht
          · exact h
        rw [cp_pass_error lty E ns pr tc v Ls ts _ (fun x => div_pos (hpos x) hn) (fun L' h' => hL L' (by simp [h'])) (by simpa using hl) hm']

/-- **C116 fails for prior functions with integer values** (like `lambda x: np.where(x > 2, 1, 3)`): together with a change-point
in the data every fit raises a `TypeError`, although the same function works with a static model (`C116_partial`). -/
theorem C116_reset_refuted (lty : NumType) (E : Env K gs) [Nonempty (Idx gs)] (hE : ∀ a, 0 < E.lattice a)
    (grid : (a : Fin d) → Fin (gs a) → K) (ns) (pr) (tc : K) (liks : List (Idx gs → K)) (ts : List K) (fo eo : Bool) (S : FitState K gs)
    (v : Idx gs → K) (hp : S.prior = .func v) (hv : ∀ x, 0 < v x) (hL : ∀ L ∈ liks, ∀ x, 0 < L x) (hl : ts.length = liks.length)
    (ht : tc ∈ ts) :
    fitT .int lty E grid (.leaf .changePoint ns [.scalar tc] pr) liks ts fo eo S = .error .typeError := by
  have hs : 0 < ∑ x, v x := Finset.sum_pos (fun x _ => hv x) Finset.univ_nonempty
  have hc : 0 < E.cell := Finset.prod_pos fun a _ => hE a
  by_cases h1 : ∑ x, v x = 1
  · refine fitT_error (a0 := some v) (pr0 := .func v) (aty := .float) ?_ (cp_pass_error lty E ns pr tc v liks ts v hv hL hl ht)
    simp only [computePriorT, computePrior, hp, h1, ne_eq, not_true_eq_false, if_false]
    rfl
  · refine fitT_error (a0 := some fun x => v x / (∑ y, v y) / E.cell) (pr0 := .func v) (aty := .float) ?_
      (cp_pass_error lty E ns pr tc v liks ts _ (fun x => div_pos (div_pos (hv x) hs) hc) hL hl ht)
    have hc' : ({ E with prior := PriorSpec.func v } : Env K gs).cell = E.cell := rfl
    simp only [computePriorT, computePrior, hp, h1, ne_eq, not_false_eq_true, if_true, BL.normalize, hs.ne', if_false, Option.bind,
      divScalar, hc', hc.ne']
    rfl

omit [IsStrictOrderedRing K]

/-! ## Priors of hyper-parameters -/

theorem hyperPriorAxisT_eq {g : Given} (hg : g ≠ .nums .int) (pr : HPrior K) (v : HVal K) (vals : List K) (c : K) :
    hyperPriorAxisT g pr v vals c = hyperPriorAxis pr v vals c := by
  rcases g with _ | (_ | _)
  · cases pr <;> cases v <;> rfl
  · exact absurd rfl hg
  · cases pr <;> cases v <;> rfl

theorem mapE_zip {α β γ : Type} {f : α × β → Except PyErr γ} {g : β → Except PyErr γ} : ∀ (l : List α) (m : List β), m.length ≤ l.length →
    (∀ a ∈ l, ∀ b, f (a, b) = g b) → mapE f (l.zip m) = mapE g m
  | _, [], _, _ => by simp [mapE]
  | [], b :: m, h, _ => absurd h (by simp)
  | a :: l, b :: m, h, hf => by
      rw [List.zip_cons_cons, mapE, mapE, hf a (by simp) b, mapE_zip l m (by simpa using h) fun a ha b => hf a (by simp [ha]) b]

/-- **C116 (hyper-priors).**  If no hyper-prior is a function with only integer values or a numpy array of integers, the grid of
hyper-parameter values and their prior probabilities do not depend on the number types (a Python list of integers is fine). -/
theorem C116_hyper_partial (how : List Given) (tm : TM K) (ts : List K) (hl : how.length = tm.flatPriors.length)
    (h : ∀ g ∈ how, g ≠ .nums .int) : createHyperGridT how tm ts = createHyperGrid tm ts := by
  have hax : ∀ flat axes hgc names, priorAxesT how tm.flatPriors flat axes hgc names = priorAxes tm.flatPriors flat axes hgc names := by
    intro flat axes hgc names
    unfold priorAxesT priorAxes
    refine mapE_zip _ _ ?_ ?_
    · rw [List.length_zip, hl]; exact min_le_left _ _
    · intro g hg q
      exact hyperPriorAxisT_eq (h g hg) _ _ _ _
  unfold createHyperGridT createHyperGrid
  simp only [hax]

theorem mapE_error {α β : Type} {f : α → Except PyErr β} {l : List α} {x : α} (hx : x ∈ l) {e : PyErr} (he : f x = .error e) :
    ∃ e', mapE f l = .error e' := by
  rcases h : mapE f l with e' | r
  · exact ⟨e', rfl⟩
  · exfalso
    have h2 := mapE_get h
    clear h
    induction h2 with
    | nil => cases hx
    | cons h1 _ ih =>
        rcases List.mem_cons.1 hx with rfl | hx
        · rw [he] at h1; cases h1
        · exact ih hx

/-- **C116 fails for hyper-priors with integer values:** a function like `lambda x: 1` is rejected (also if its values are properly
normalised), and so is a numpy array of integers; whatever the other hyper-parameters are. -/
theorem C116_hyper_refuted (how : List Given) (tm : TM K) (ts : List K) (hl : how.length = tm.flatPriors.length)
    (hn : tm.flatNames.length = tm.flatPriors.length) (hv : tm.flatValues.length = tm.flatPriors.length)
    (i : ℕ) (p : HPrior K) (hp : tm.flatPriors[i]? = some p) (hp' : (∃ f, p = .func f) ∨ ∃ l, p = .arr l)
    (hi : how[i]? = some (.nums .int)) : ∃ e, createHyperGridT how tm ts = .error e := by
  unfold createHyperGridT
  rcases hax : mapE axisValues (tm.flatValues.map (expandAll ts)) with e | axes
  · exact ⟨e, by simp only [hax, bind, Except.bind]⟩
  have hlen : axes.length = tm.flatPriors.length := by
    rw [← (mapE_get hax).length_eq, List.length_map, hv]
  obtain ⟨hil, hpi⟩ := List.getElem?_eq_some_iff.1 hp
  have hmem : (Given.nums .int, p, (tm.flatValues.map (expandAll ts))[i]'(by rw [List.length_map, hv]; exact hil), axes[i]'(by omega),
      (axes.map hyperConst)[i]'(by rw [List.length_map]; omega), tm.flatNames[i]'(by omega)) ∈
      how.zip (tm.flatPriors.zip ((tm.flatValues.map (expandAll ts)).zip (axes.zip ((axes.map hyperConst).zip tm.flatNames)))) := by
    rw [List.mem_iff_getElem?]
    refine ⟨i, ?_⟩
    simp only [List.getElem?_zip_eq_some]
    refine ⟨hi, hp, ?_, ?_, ?_, ?_⟩ <;> exact List.getElem?_eq_getElem _
  have herr : ∀ v vals c, ∃ e, hyperPriorAxisT (.nums .int) p v vals c = .error e := by
    intro v vals c
    rcases hp' with ⟨f, rfl⟩ | ⟨l, rfl⟩
    · cases v <;> exact ⟨_, rfl⟩
    · cases v <;> simp only [hyperPriorAxisT] <;> first | exact ⟨_, rfl⟩ | (split_ifs <;> exact ⟨_, rfl⟩)
  obtain ⟨e, he⟩ := herr ((tm.flatValues.map (expandAll ts))[i]'(by rw [List.length_map, hv]; exact hil)) (axes[i]'(by omega))
    ((axes.map hyperConst)[i]'(by rw [List.length_map]; omega))
  obtain ⟨e', he'⟩ := mapE_error (f := fun q : Given × HPrior K × HVal K × List K × K × String =>
    hyperPriorAxisT q.1 q.2.1 q.2.2.1 q.2.2.2.1 q.2.2.2.2.1) hmem he
  exact ⟨e', by simp only [hax, bind, Except.bind, priorAxesT, he']⟩

/-! ## Priors of transition models -/

/-- **C116 (transition-model priors).**  Floating-point numbers are re-normalised; integers are accepted if they sum to one. -/
theorem C116_models_partial {D : Type} (ty : NumType) (S : OState K D gs) (p : List K) (h : ty = .float ∨ p.sum = 1) :
    S.setTMPriorT ty p = S.setTMPrior p := by
  unfold OState.setTMPriorT
  rcases h with rfl | h
  · unfold OState.setTMPrior
    split_ifs <;> rfl
  · unfold OState.setTMPrior
    simp only [h, if_true]

/-- **C116 fails for transition-model priors in integers** (like `setTransitionModelPrior([9, 1])`): unless they sum to one, a `TypeError`
is raised, where the same numbers as floats are re-normalised without an error; and the numbers are stored as they are. -/
theorem C116_models_refuted {D : Type} (S : OState K D gs) (p : List K) (hl : p.length = S.models.length) (hs : p.sum ≠ 1) :
    (S.setTMPriorT .int p).2 = some .typeError ∧ (S.setTMPriorT .int p).1.tmPrior = some p ∧ (S.setTMPriorT .float p).2 = none ∧
      (p.sum ≠ 0 → (S.setTMPriorT .float p).1.tmPrior = some (p.map (· / p.sum))) := by
  unfold OState.setTMPriorT OState.setTMPrior
  simp only [hl, ne_eq, not_true_eq_false, if_false, hs, inPlace]
  refine ⟨trivial, trivial, ?_, fun h0 => ?_⟩
  · split_ifs <;> rfl
  · rw [if_neg h0]

/-! ## Examples -/

open _root_.Ex

/-- An integer-valued prior function, a random walk: integers do not matter.  The same function, a change-point at time 1: `TypeError`. -/
example : (∃ r, fitT .int .float (env gs3 1) (grid gs3) (grw 1) [v3 (1 / 2) (1 / 4) (1 / 8), v3 (1 / 3) (1 / 2) 1] [0, 1] false false
      (S0 (.func (v3 1 1 3))) = .ok r ∧ r.logEv.exp ≠ 0) ∧
    fitT .int .float (env gs3 1) (grid gs3) (cp 1) [v3 (1 / 2) (1 / 4) (1 / 8), v3 (1 / 3) (1 / 2) 1] [0, 1] false false
      (S0 (.func (v3 1 1 3))) = .error .typeError ∧
    fitT .int .float (env gs3 1) (grid gs3) static [v3 (1 / 2) (1 / 4) (1 / 8)] [0] false false (S0 (.array (some (v3 0 1 0)))) = .error .typeError := by
  refine ⟨?_, ?_, ?_⟩
  · rw [C116_partial _ _ _ _ _ _ _ _ _ _ (.inr ⟨fun a h => (by cases h), (by simp [grw, NoReset])⟩)]
    have h : ((ev (fit (env gs3 1) (grid gs3) (grw 1) [v3 (1 / 2) (1 / 4) (1 / 8), v3 (1 / 3) (1 / 2) 1] [0, 1] false false
      (S0 (.func (v3 1 1 3))))).any fun e => decide (e ≠ 0)) = true := by decide +kernel
    generalize fit (env gs3 1) (grid gs3) (grw 1) [v3 (1 / 2) (1 / 4) (1 / 8), v3 (1 / 3) (1 / 2) 1] [0, 1] false false
      (S0 (.func (v3 1 1 3))) = r at h ⊢
    rcases r with e | r
    · simp [ev] at h
    · exact ⟨r, rfl, by simpa [ev] using h⟩
  · have : Nonempty (Idx gs3) := ⟨fun _ => (0 : Fin 3)⟩
    refine C116_reset_refuted _ _ (fun a => by show (0 : ℚ) < 1; norm_num) _ _ _ _ _ _ _ _ _ (v3 1 1 3) rfl ?_ ?_ rfl (by simp)
    · decide +kernel
    · decide +kernel
  · exact C116_refuted _ _ _ _ _ _ _ _ _ _ _ rfl (.inl rfl)

/-- One hyper-parameter with values 1 and 2 and the hyper-prior `lambda x: 1`: rejected; `lambda x: 1.`: accepted. -/
example : (∃ e, createHyperGridT [.nums .int] (.leaf (.grw "x") ["sigma"] [.array [1, 2]] (some (.item (.func fun _ : ℚ => 1)))) [0, 1] = .error e) ∧
    ∃ g, createHyperGridT [.nums .float] (.leaf (.grw "x") ["sigma"] [.array [1, 2]] (some (.item (.func fun _ : ℚ => 1)))) [0, 1] = .ok g ∧
      g.priors = some [1 / 2, 1 / 2] := by
  refine ⟨C116_hyper_refuted _ _ _ rfl rfl rfl 0 _ rfl (.inl ⟨_, rfl⟩) rfl, ?_⟩
  rw [C116_hyper_partial _ _ _ rfl (by decide)]
  have h : (match createHyperGrid (.leaf (.grw "x") ["sigma"] [.array [1, 2]] (some (.item (.func fun _ : ℚ => 1)))) [0, 1] with
    | .ok g => decide (g.priors = some [1 / 2, 1 / 2])
    | .error _ => false) = true := by decide +kernel
  generalize createHyperGrid (.leaf (.grw "x") ["sigma"] [.array [1, 2]] (some (.item (.func fun _ : ℚ => 1)))) [0, 1] = r at h ⊢
  rcases r with e | g
  · cases h
  · exact ⟨g, rfl, of_decide_eq_true h⟩

/-- Two transition models with the prior `[9, 1]`. -/
example (S : OState ℚ ℚ gs3) (h : S.models.length = 2) : (S.setTMPriorT .int [9, 1]).2 = some .typeError :=
  (C116_models_refuted S [9, 1] h.symm (by norm_num)).1

end Props
