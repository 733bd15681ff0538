import Verif.Model.Heap
import Verif.Props.Ex
import Mathlib.Tactic.Linarith
import Mathlib.Tactic.FieldSimp

/-!
# C113: a fit does not change the arrays of the user

Model/Heap.lean models the fit with arrays as objects.
-/

set_option linter.unusedSectionVars false

namespace Props
open BL

variable {K : Type} [Field K] [LinearOrder K] {d : ℕ} {gs : Fin d → ℕ}

/-- The prior as a value, as in Model/Transition.lean. -/
def priorValue (W : AWorld K gs) (h : AHeap K gs) : PriorSpec K gs :=
  match W.prior with
  | .none => .none
  | .array r => .array (h.cells r)
  | .badArray => .badArray
  | .func v => .func (v (W.gridVals h))
  | .funcConst c => .funcConst c
  | .funcArg a => .func fun x => ((h.cells (W.grid a)).map (· x)).getD 0
  | .funcHeld r => .func fun x => ((h.cells r).map (· x)).getD 0
  | .rvs n ok v => .rvs n ok (v (W.gridVals h))

/-- The prior is not a function that returns an array which exists already. -/
def NewArray : APrior K gs → Prop
  | .funcArg _ => False
  | .funcHeld _ => False
  | _ => True

mutual
/-- The model never falls back to the prior: no ChangePoint, no Independent, no change-points between models in series. -/
def NoReset : TM K → Prop
  | .leaf .changePoint _ _ _ => False
  | .leaf .independent _ _ _ => False
  | .leaf _ _ _ _ => True
  | .combined ms => NoResetAll ms
  | .serial _ _ _ mask ms => (∀ b ∈ mask, b = false) ∧ NoResetAll ms
/-- all sub-models -/
def NoResetAll : List (TM K) → Prop
  | [] => True
  | m :: ms => NoReset m ∧ NoResetAll ms
end

/-- The arrays that the study refers to have numbers below `B`. -/
structure Known (W : AWorld K gs) (B : ℕ) : Prop where
  grid : ∀ a, W.grid a < B
  array : ∀ r, W.prior = .array r → r < B
  held : ∀ r, W.prior = .funcHeld r → r < B

/-- the old arrays are unchanged -/
def Keeps (h h' : AHeap K gs) : Prop := h.next ≤ h'.next ∧ ∀ r < h.next, h'.cells r = h.cells r

theorem Keeps.refl (h : AHeap K gs) : Keeps h h := ⟨le_rfl, fun _ _ => rfl⟩

theorem Keeps.trans {a b c : AHeap K gs} (h1 : Keeps a b) (h2 : Keeps b c) : Keeps a c :=
  ⟨h1.1.trans h2.1, fun r hr => (h2.2 r (hr.trans_le h1.1)).trans (h1.2 r hr)⟩

theorem keeps_alloc (h : AHeap K gs) (a : Arr K gs) : Keeps h (h.alloc a).1 :=
  ⟨Nat.le_succ _, fun r hr => Function.update_of_ne (by omega) _ _⟩

theorem alloc_get (h : AHeap K gs) (a : Arr K gs) : (h.alloc a).1.cells (h.alloc a).2 = a := Function.update_self _ _ _

theorem write_get (h : AHeap K gs) (r : ℕ) (a : Arr K gs) : (h.write r a).cells r = a := Function.update_self _ _ _

/-- writing to a new array -/
theorem Keeps.write {h h' : AHeap K gs} (k : Keeps h h') {r : ℕ} (hr : h.next ≤ r) (a : Arr K gs) : Keeps h (h'.write r a) :=
  ⟨k.1, fun s hs => (Function.update_of_ne (by omega) _ _).trans (k.2 s hs)⟩

theorem priorValue_congr {W : AWorld K gs} {B : ℕ} (hW : Known W B) {h h' : AHeap K gs} (e : ∀ r < B, h'.cells r = h.cells r) : priorValue W h' = priorValue W h := by
  have eg : W.gridVals h' = W.gridVals h := funext fun a => e _ (hW.grid a)
  unfold priorValue
  cases hp : W.prior with
  | array r => simp only [e r (hW.array r hp)]
  | funcArg a => simp only [e _ (hW.grid a)]
  | funcHeld r => simp only [e r (hW.held r hp)]
  | func v => simp only [eg]
  | rvs n ok v => simp only [eg]
  | _ => rfl

/-- the study as in Model/Transition.lean -/
def envAt (W : AWorld K gs) (h : AHeap K gs) : Env K gs := { W.E with prior := priorValue W h }

/-- Both computations fail alike, or the new array has the value `v`, its number satisfies `Q`, and the old arrays are unchanged. -/
def Good (h : AHeap K gs) (Q : ℕ → Prop) : Except PyErr (AHeap K gs × ℕ) → Except PyErr (Arr K gs) → Prop
  | .ok p, .ok v => Keeps h p.1 ∧ p.2 < p.1.next ∧ p.1.cells p.2 = v ∧ Q p.2
  | .error e, .error e' => e = e'
  | _, _ => False

theorem good_alloc (h : AHeap K gs) (v : Arr K gs) : Good h (h.next ≤ ·) (.ok (h.alloc v)) (.ok v) :=
  ⟨keeps_alloc h v, Nat.lt_succ_self _, alloc_get h v, le_rfl⟩

theorem good_reset {W : AWorld K gs} (hn : NewArray W.prior) (h : AHeap K gs) : Good h (h.next ≤ ·) (.ok (W.reset h)) (.ok (envAt W h).resetArr) := by
  have key : ∀ a : Arr K gs, Good h (h.next ≤ ·) (.ok ((h.alloc a).1.normalizeAt (h.alloc a).2, (h.alloc a).2)) (.ok (a.bind normalize)) := fun a => by
    refine ⟨(keeps_alloc h a).write le_rfl _, Nat.lt_succ_self _, ?_, le_rfl⟩
    rw [AHeap.normalizeAt, write_get, alloc_get]
  unfold AWorld.reset AWorld.callPrior envAt Env.resetArr priorValue
  cases hp : W.prior with
  | funcConst c => exact good_alloc h _
  | func v => exact key _
  | array r => exact key _
  | funcArg a => rw [hp] at hn; exact hn.elim
  | funcHeld a => rw [hp] at hn; exact hn.elim
  | _ => exact key (some fun _ => 1)

theorem good_resetCell {W : AWorld K gs} (hn : NewArray W.prior) (h : AHeap K gs) : Good h (h.next ≤ ·) (.ok (W.resetCell h)) (.ok (envAt W h).resetCell) := by
  obtain ⟨k1, k2, k3, k4⟩ := good_reset hn h
  refine ⟨k1.write k4 _, k2, ?_, k4⟩
  rw [AWorld.resetCell, write_get, k3]
  rfl

/-- number of the array that a transition model returns -/
def Returned (h : AHeap K gs) (r : ℕ) (b : Bool) (s : ℕ) : Prop := if b then s = r else h.next ≤ s

theorem good_leaf {W : AWorld K gs} (toff : K) (k : Leaf K) (vals : List (HVal K)) (h : AHeap K gs) (r : ℕ) (t : K) (hr : r < h.next)
    (hok : NewArray W.prior ∨ NoReset (.leaf k [] vals none)) :
    Good h (Returned h r (leafReturnsArg k vals t)) (W.leafFwd toff k vals h r t) (leafFwd (envAt W h) toff k vals (h.cells r) t) := by
  have key : ∀ v : Except PyErr (Arr K gs), Good h (h.next ≤ ·) (do .ok (h.alloc (← v))) v := by
    rintro (e | v)
    · exact rfl
    · exact good_alloc h v
  have hn : k = .changePoint ∨ k = .independent → NewArray W.prior := by
    rintro (rfl | rfl) <;> rcases hok with hok | hok
    · exact hok
    · exact hok.elim
    · exact hok
    · exact hok.elim
  cases k with
  | static => exact ⟨.refl h, hr, rfl, rfl⟩
  | changePoint =>
    unfold AWorld.leafFwd leafFwd leafReturnsArg
    rcases hc : cpHit vals t with e | (_ | _)
    · exact rfl
    · exact ⟨.refl h, hr, rfl, rfl⟩
    · exact good_resetCell (hn (.inl rfl)) h
  | independent => exact good_reset (hn (.inr rfl)) h
  | grw target => exact key _
  | alphaStable target => exact key _
  | regimeSwitch => exact key _
  | notEqual => exact key _
  | deterministic f target => exact key _
  | bivariate => exact key _
  | breakPoint => exact key _

theorem good_leafBwd {W : AWorld K gs} (toff : K) (k : Leaf K) (vals : List (HVal K)) (h : AHeap K gs) (r : ℕ) (t : K) (hr : r < h.next)
    (hok : NewArray W.prior ∨ NoReset (.leaf k [] vals none)) :
    Good h (fun s => s = r ∨ h.next ≤ s) (W.leafBwd toff k vals h r t) (leafBwd (envAt W h) toff k vals (h.cells r) t) := by
  have wk : ∀ {b : Bool} {x : Except PyErr (AHeap K gs × ℕ)} {y : Except PyErr (Arr K gs)}, Good h (Returned h r b) x y → Good h (fun s => s = r ∨ h.next ≤ s) x y := by
    rintro b (e | x) (e' | y) g
    · exact g
    · exact g
    · exact g
    · refine ⟨g.1, g.2.1, g.2.2.1, ?_⟩
      have := g.2.2.2
      cases b
      · exact .inr this
      · exact .inl this
  have key : ∀ v : Except PyErr (Arr K gs), Good h (fun s => s = r ∨ h.next ≤ s) (do .ok (h.alloc (← v))) v := by
    rintro (e | v)
    · exact rfl
    · obtain ⟨a, b, c, e⟩ := good_alloc h v
      exact ⟨a, b, c, .inr e⟩
  cases k with
  | deterministic f target => exact key _
  | _ => exact wk (good_leaf toff _ vals h r (t - 1) hr hok)

theorem cpIn_false {mask : List Bool} (hm : ∀ b ∈ mask, b = false) (vs : List K) (t : K) : cpIn vs mask t = false := by
  unfold cpIn
  rw [List.any_eq_false]
  rintro ⟨v, b⟩ hvb
  have := hm b (List.of_mem_zip hvb).2
  simp [this]

theorem envAt_keeps {W : AWorld K gs} {h h' : AHeap K gs} (hW : Known W h.next) (k : Keeps h h') : envAt W h' = envAt W h := by
  rw [envAt, priorValue_congr hW k.2]; rfl

theorem Known.mono {W : AWorld K gs} {B C : ℕ} (hW : Known W B) (h : B ≤ C) : Known W C :=
  ⟨fun a => (hW.grid a).trans_le h, fun r e => (hW.array r e).trans_le h, fun r e => (hW.held r e).trans_le h⟩

/-- the check for change-points after a model of a series -/
theorem good_cpCheck {W : AWorld K gs} {h : AHeap K gs} (hW : Known W h.next) {vs : List K} {mask : List Bool} {t : K} (hok : NewArray W.prior ∨ ∀ b ∈ mask, b = false) {Q : ℕ → Prop}
    {x : Except PyErr (AHeap K gs × ℕ)} {y : Except PyErr (Arr K gs)} (g : Good h Q x y) :
    Good h (fun s => if cpIn vs mask t then h.next ≤ s else Q s) (do let q ← x; .ok (W.cpCheck vs mask q t)) (do let q ← y; .ok (cpCheck (envAt W h) vs mask q t)) := by
  rcases x with e | x <;> rcases y with e' | y
  · exact g
  · exact g.elim
  · exact g.elim
  · obtain ⟨g1, g2, g3, g4⟩ := g
    change Good h _ (.ok (W.cpCheck vs mask x t)) (.ok (cpCheck (envAt W h) vs mask y t))
    unfold AWorld.cpCheck cpCheck
    by_cases hc : cpIn vs mask t = true
    · have hn : NewArray W.prior := by
        rcases hok with hok | hok
        · exact hok
        · rw [cpIn_false hok] at hc; exact absurd hc (by decide)
      simp only [hc, if_true]
      obtain ⟨k1, k2, k3, k4⟩ := good_resetCell hn x.1
      exact ⟨g1.trans k1, k2, by rw [k3, envAt_keeps hW g1], g1.1.trans k4⟩
    · simp only [hc]
      exact ⟨g1, g2, g3, g4⟩

mutual
theorem good_fwd {W : AWorld K gs} : ∀ (tm : TM K) (toff : K) (h : AHeap K gs) (r : ℕ) (t : K), Known W h.next → r < h.next → (NewArray W.prior ∨ NoReset tm) →
    Good h (Returned h r (tm.returnsArg t)) (W.fwd toff tm h r t) (tm.fwd (envAt W h) toff (h.cells r) t)
  | .leaf k names vals pr, toff, h, r, t, _, hr, hok => by
      simp only [AWorld.fwd, TM.fwd, TM.returnsArg]
      refine good_leaf toff k vals h r t hr (hok.imp_right fun hk => ?_)
      cases k <;> exact hk
  | .combined ms, toff, h, r, t, hW, hr, hok => by
      simp only [AWorld.fwd, TM.fwd, TM.returnsArg]
      have k0 := keeps_alloc h (h.cells r)
      have g := good_fwdAll ms toff (h.alloc (h.cells r)).1 (h.alloc (h.cells r)).2 t (hW.mono k0.1) (Nat.lt_succ_self _) (hok.imp_right id)
      rw [alloc_get, envAt_keeps hW k0] at g
      generalize AWorld.fwdAll W toff ms (h.alloc (h.cells r)).1 (h.alloc (h.cells r)).2 t = x at g ⊢
      generalize TM.fwdAll (envAt W h) toff ms (h.cells r) t = y at g ⊢
      rcases x with e | x <;> rcases y with e' | y
      · exact g
      · exact g
      · exact g
      · refine ⟨k0.trans g.1, g.2.1, g.2.2.1, ?_⟩
        change h.next ≤ x.2
        rcases g.2.2.2 with e | e
        · rw [e]; exact le_rfl
        · exact (Nat.le_succ _).trans e
  | .serial names vals pr mask ms, toff, h, r, t, hW, hr, hok => by
      simp only [AWorld.fwd, TM.fwd, TM.returnsArg]
      rcases scalars vals with e | vs
      · exact rfl
      · have g := good_fwdNth ms (modelIndex vs t) (breakOffset vs (modelIndex vs t)) h r t hW hr (hok.imp_right And.right)
        have g' := good_cpCheck (vs := vs) (mask := mask) (t := t) hW (hok.imp_right And.left) g
        have : (fun s => if cpIn vs mask t = true then h.next ≤ s else Returned h r (TM.returnsArgNth ms (modelIndex vs t) t) s) =
            Returned h r (TM.returnsArgNth ms (modelIndex vs t) t && !cpIn vs mask t) := by
          funext s
          unfold Returned
          cases cpIn vs mask t <;> simp
        rw [this] at g'
        exact g'
theorem good_fwdAll {W : AWorld K gs} : ∀ (ms : List (TM K)) (toff : K) (h : AHeap K gs) (r : ℕ) (t : K), Known W h.next → r < h.next → (NewArray W.prior ∨ NoResetAll ms) →
    Good h (fun s => s = r ∨ h.next ≤ s) (AWorld.fwdAll W toff ms h r t) (TM.fwdAll (envAt W h) toff ms (h.cells r) t)
  | [], toff, h, r, t, _, hr, _ => ⟨.refl h, hr, rfl, .inl rfl⟩
  | m :: ms, toff, h, r, t, hW, hr, hok => by
      have g := good_fwd m toff h r t hW hr (hok.imp_right And.left)
      simp only [AWorld.fwdAll, TM.fwdAll]
      generalize AWorld.fwd W toff m h r t = x at g ⊢
      generalize TM.fwd (envAt W h) toff m (h.cells r) t = y at g ⊢
      rcases x with e | x <;> rcases y with e' | y
      · exact g
      · exact g.elim
      · exact g.elim
      · obtain ⟨g1, g2, g3, g4⟩ := g
        have i := good_fwdAll ms toff x.1 x.2 t (hW.mono g1.1) g2 (hok.imp_right And.right)
        rw [g3, envAt_keeps hW g1] at i
        change Good h _ (AWorld.fwdAll W toff ms x.1 x.2 t) (TM.fwdAll (envAt W h) toff ms y t)
        generalize AWorld.fwdAll W toff ms x.1 x.2 t = u at i ⊢
        generalize TM.fwdAll (envAt W h) toff ms y t = v at i ⊢
        rcases u with e | u <;> rcases v with e' | v
        · exact i
        · exact i
        · exact i
        · refine ⟨g1.trans i.1, i.2.1, i.2.2.1, ?_⟩
          have hx : x.2 = r ∨ h.next ≤ x.2 := by
            unfold Returned at g4
            split at g4
            · exact .inl g4
            · exact .inr g4
          rcases i.2.2.2 with e | e
          · rw [e]; exact hx
          · exact .inr (g1.1.trans e)
theorem good_fwdNth {W : AWorld K gs} : ∀ (ms : List (TM K)) (i : ℕ) (toff : K) (h : AHeap K gs) (r : ℕ) (t : K), Known W h.next → r < h.next → (NewArray W.prior ∨ NoResetAll ms) →
    Good h (Returned h r (TM.returnsArgNth ms i t)) (AWorld.fwdNth W toff ms i h r t) (TM.fwdNth (envAt W h) toff ms i (h.cells r) t)
  | [], _, _, _, _, _, _, _, _ => rfl
  | m :: _, 0, toff, h, r, t, hW, hr, hok => good_fwd m toff h r t hW hr (hok.imp_right And.left)
  | _ :: ms, i + 1, toff, h, r, t, hW, hr, hok => good_fwdNth ms i toff h r t hW hr (hok.imp_right And.right)
end

/-- weaker conclusions -/
theorem Good.imp {h h' : AHeap K gs} {Q Q' : ℕ → Prop} {x : Except PyErr (AHeap K gs × ℕ)} {y : Except PyErr (Arr K gs)} (g : Good h' Q x y) (k : Keeps h h') (q : ∀ s, Q s → Q' s) :
    Good h Q' x y := by
  rcases x with e | x <;> rcases y with e' | y
  · exact g
  · exact g
  · exact g
  · exact ⟨k.trans g.1, g.2.1, g.2.2.1, q _ g.2.2.2⟩

mutual
theorem good_bwd {W : AWorld K gs} : ∀ (tm : TM K) (toff : K) (h : AHeap K gs) (r : ℕ) (t : K), Known W h.next → r < h.next → (NewArray W.prior ∨ NoReset tm) →
    Good h (fun s => s = r ∨ h.next ≤ s) (W.bwd toff tm h r t) (tm.bwd (envAt W h) toff (h.cells r) t)
  | .leaf k names vals pr, toff, h, r, t, _, hr, hok => by
      simp only [AWorld.bwd, TM.bwd]
      refine good_leafBwd toff k vals h r t hr (hok.imp_right fun hk => ?_)
      cases k <;> exact hk
  | .combined ms, toff, h, r, t, hW, hr, hok => by
      simp only [AWorld.bwd, TM.bwd]
      have k0 := keeps_alloc h (h.cells r)
      have g := good_bwdAll ms toff (h.alloc (h.cells r)).1 (h.alloc (h.cells r)).2 t (hW.mono k0.1) (Nat.lt_succ_self _) (hok.imp_right id)
      rw [alloc_get, envAt_keeps hW k0] at g
      refine g.imp k0 fun s hs => .inr ?_
      rcases hs with e | e
      · rw [e]; exact le_rfl
      · exact (Nat.le_succ _).trans e
  | .serial names vals pr mask ms, toff, h, r, t, hW, hr, hok => by
      simp only [AWorld.bwd, TM.bwd]
      rcases scalars vals with e | vs
      · exact rfl
      · have g := good_bwdNth ms (modelIndex vs (t - 1)) (breakOffset vs (modelIndex vs (t - 1))) h r t hW hr (hok.imp_right And.right)
        refine (good_cpCheck (vs := vs) (mask := mask) (t := t - 1) hW (hok.imp_right And.left) g).imp (.refl h) fun s hs => ?_
        split at hs
        · exact .inr hs
        · exact hs
theorem good_bwdAll {W : AWorld K gs} : ∀ (ms : List (TM K)) (toff : K) (h : AHeap K gs) (r : ℕ) (t : K), Known W h.next → r < h.next → (NewArray W.prior ∨ NoResetAll ms) →
    Good h (fun s => s = r ∨ h.next ≤ s) (AWorld.bwdAll W toff ms h r t) (TM.bwdAll (envAt W h) toff ms (h.cells r) t)
  | [], toff, h, r, t, _, hr, _ => ⟨.refl h, hr, rfl, .inl rfl⟩
  | m :: ms, toff, h, r, t, hW, hr, hok => by
      have g := good_bwd m toff h r t hW hr (hok.imp_right And.left)
      simp only [AWorld.bwdAll, TM.bwdAll]
      generalize AWorld.bwd W toff m h r t = x at g ⊢
      generalize TM.bwd (envAt W h) toff m (h.cells r) t = y at g ⊢
      rcases x with e | x <;> rcases y with e' | y
      · exact g
      · exact g.elim
      · exact g.elim
      · obtain ⟨g1, g2, g3, g4⟩ := g
        have i := good_bwdAll ms toff x.1 x.2 t (hW.mono g1.1) g2 (hok.imp_right And.right)
        rw [g3, envAt_keeps hW g1] at i
        refine i.imp g1 fun s hs => ?_
        rcases hs with e | e
        · rw [e]; exact g4
        · exact .inr (g1.1.trans e)
theorem good_bwdNth {W : AWorld K gs} : ∀ (ms : List (TM K)) (i : ℕ) (toff : K) (h : AHeap K gs) (r : ℕ) (t : K), Known W h.next → r < h.next → (NewArray W.prior ∨ NoResetAll ms) →
    Good h (fun s => s = r ∨ h.next ≤ s) (AWorld.bwdNth W toff ms i h r t) (TM.bwdNth (envAt W h) toff ms i (h.cells r) t)
  | [], _, _, _, _, _, _, _, _ => rfl
  | m :: _, 0, toff, h, r, t, hW, hr, hok => good_bwd m toff h r t hW hr (hok.imp_right And.left)
  | _ :: ms, i + 1, toff, h, r, t, hW, hr, hok => good_bwdNth ms i toff h r t hW hr (hok.imp_right And.right)
end

/-- A prior that is an array is not one of the arrays of the grid. -/
def Apart (W : AWorld K gs) : Prop := ∀ r, W.prior = .array r → ∀ a, W.grid a ≠ r

/-- all arrays below `B` other than the prior array are unchanged -/
def Frame (W : AWorld K gs) (B : ℕ) (h h' : AHeap K gs) : Prop := ∀ r < B, W.prior ≠ .array r → h'.cells r = h.cells r

theorem Frame.trans {W : AWorld K gs} {B : ℕ} {a b c : AHeap K gs} (h1 : Frame W B a b) (h2 : Frame W B b c) : Frame W B a c :=
  fun r hr hp => (h2 r hr hp).trans (h1 r hr hp)

theorem Frame.gridVals {W : AWorld K gs} {B : ℕ} {h h' : AHeap K gs} (hW : Known W B) (ha : Apart W) (f : Frame W B h h') : W.gridVals h' = W.gridVals h :=
  funext fun a => f _ (hW.grid a) fun hp => ha _ hp a rfl

theorem Keeps.frame {W : AWorld K gs} {B : ℕ} {h h' : AHeap K gs} (k : Keeps h h') (hB : B ≤ h.next) : Frame W B h h' := fun r hr _ => k.2 r (hr.trans_le hB)

/-- `al`: the array `r` is the prior array; otherwise it was created by the fit. -/
def Owner (W : AWorld K gs) (B r : ℕ) (al : Bool) : Prop := if al then W.prior = .array r else B ≤ r

theorem write_frame {W : AWorld K gs} {B r : ℕ} {al : Bool} (ho : Owner W B r al) (h : AHeap K gs) (a : Arr K gs) : Frame W B h (h.write r a) := fun s hs hp => by
  refine Function.update_of_ne ?_ _ _
  rintro rfl
  cases al
  · exact absurd (show B ≤ s from ho) (by omega)
  · exact hp ho

theorem write_prior {W : AWorld K gs} {B r : ℕ} {al : Bool} (hW : Known W B) (ho : Owner W B r al) (h : AHeap K gs) (a : Arr K gs) :
    priorValue W (h.write r a) = if al then .array a else priorValue W h := by
  cases al
  · exact priorValue_congr hW fun s hs => Function.update_of_ne (by have : B ≤ r := ho; omega) _ _
  · have hp : W.prior = .array r := ho
    rw [if_pos rfl]
    unfold priorValue
    simp only [hp, write_get]

/-- the step as in Model/Fit.lean -/
def stepValue (g : Fin d → Arr K gs) (s : HStep K gs) : Step K gs := ⟨s.alpha, s.norm, s.lik g, s.t⟩

/-- both forward loops agree -/
def GoodPass (W : AWorld K gs) (B : ℕ) (h : AHeap K gs) : Except PyErr (List (HStep K gs) × Bool × AHeap K gs) → Except PyErr (FwdOut K gs) → Prop
  | .ok p, .ok o => o = ⟨p.1.map (stepValue (W.gridVals h)), p.2.1, priorValue W p.2.2⟩ ∧ h.next ≤ p.2.2.next ∧ Frame W B h p.2.2
  | .error e, .error e' => e = e'
  | _, _ => False

theorem good_pass {W : AWorld K gs} {tm : TM K} (hok : NewArray W.prior ∨ NoReset tm) {B : ℕ} (hW : Known W B) (ha : Apart W) : ∀ (Ls : List (Lik K gs)) (ts : List K) (h : AHeap K gs) (r : ℕ) (al : Bool),
    B ≤ h.next → r < h.next → Owner W B r al →
    GoodPass W B h (W.fwdPass tm h r Ls ts) (fwdPass W.E tm al (priorValue W h) (h.cells r) (Ls.map (· (W.gridVals h))) ts) := by
  intro Ls
  induction Ls with
  | nil =>
    intro ts h r al hB hr ho
    simp only [AWorld.fwdPass, fwdPass, List.map_nil]
    exact ⟨rfl, le_rfl, fun _ _ _ => rfl⟩
  | cons L Ls ih =>
    intro ts h r al hB hr ho
    rw [List.map_cons]
    rcases hc : h.cells r with _ | a
    · simp only [AWorld.fwdPass, fwdPass, hc]
      exact ⟨rfl, le_rfl, fun _ _ _ => rfl⟩
    · simp only [AWorld.fwdPass, fwdPass, hc]
      set a' : Idx gs → K := fun x => a x * L (W.gridVals h) x with ha'
      have f1 := write_frame ho h (some a')
      by_cases hn : 0 < ∑ x, a' x
      · simp only [hn, if_true]
        cases ts with
        | nil => exact rfl
        | cons t ts =>
          set h2 := (h.write r (some a')).write r (some fun x => a' x / ∑ x, a' x) with hh2
          have f2 : Frame W B h h2 := f1.trans (write_frame ho _ _)
          have e2 : h2.cells r = some fun x => a' x / ∑ x, a' x := write_get _ _ _
          have p2 : priorValue W h2 = if al then .array (some fun x => a' x / ∑ x, a' x) else priorValue W h := by
            rw [hh2, write_prior hW ho, write_prior hW ho]
            cases al <;> rfl
          have g := good_fwd (W := W) tm 0 h2 r t (hW.mono hB) hr hok
          rw [envAt, p2, e2] at g
          dsimp only
          generalize AWorld.fwd W 0 tm h2 r t = x at g ⊢
          generalize hy : TM.fwd _ 0 tm (some fun x => a' x / ∑ x, a' x) t = y at g ⊢
          rcases x with e | x <;> rcases y with e' | y
          · exact g
          · exact g.elim
          · exact g.elim
          · obtain ⟨g1, g2, g3, g4⟩ := g
            have hf : Frame W B h x.1 := f2.trans (g1.frame hB)
            have ho' : Owner W B x.2 (al && tm.returnsArg t) := by
              unfold Returned at g4
              cases hra : tm.returnsArg t <;> rw [hra] at g4
              · rw [Bool.and_false]
                exact hB.trans g4
              · rw [if_pos rfl] at g4
                rw [Bool.and_true, g4]; exact ho
            have i := ih ts x.1 x.2 (al && tm.returnsArg t) (hB.trans g1.1) g2 ho'
            rw [g3, hf.gridVals hW ha, priorValue_congr (hW.mono hB) g1.2, p2] at i
            change GoodPass W B h (do let o ← W.fwdPass tm x.1 x.2 Ls ts; _) (do let o ← fwdPass W.E tm _ _ y _ ts; _)
            generalize W.fwdPass tm x.1 x.2 Ls ts = u at i ⊢
            generalize fwdPass W.E tm _ _ y (Ls.map (· (W.gridVals h))) ts = v at i ⊢
            rcases u with e | u <;> rcases v with e' | v
            · exact i
            · exact i.elim
            · exact i.elim
            · obtain ⟨i1, i2, i3⟩ := i
              rw [hf.gridVals hW ha] at i1
              refine ⟨?_, g1.1.trans i2, hf.trans i3⟩
              rw [i1]
              rfl
      · simp only [hn, if_false]
        refine ⟨?_, le_rfl, f1⟩
        rw [write_prior hW ho]
        cases al <;> rfl

theorem norm_new (h : AHeap K gs) (a : Arr K gs) : ((h.alloc a).1.normalizeAt (h.alloc a).2).cells (h.alloc a).2 = a.bind normalize := by
  rw [AHeap.normalizeAt, write_get, alloc_get]

/-- both backward loops agree -/
def GoodBwd (h : AHeap K gs) : Except PyErr (HBwd K gs) → Except PyErr (BwdOut K gs) → Prop
  | .ok p, .ok o => o = ⟨p.posts, p.locals, p.heap.cells p.beta, p.stopped⟩ ∧ Keeps h p.heap ∧ h.next ≤ p.beta ∧ p.beta < p.heap.next
  | .error e, .error e' => e = e'
  | _, _ => False

theorem good_bwdPass {W : AWorld K gs} {tm : TM K} (hok : NewArray W.prior ∨ NoReset tm) (h : AHeap K gs) (hW : Known W h.next) : ∀ steps : List (HStep K gs),
    GoodBwd h (W.bwdPass tm h steps) (bwdPass (envAt W h) tm (steps.map (stepValue (W.gridVals h)))) := by
  intro steps
  induction steps with
  | nil =>
    refine ⟨?_, (keeps_alloc h _).write le_rfl _, le_rfl, Nat.lt_succ_self _⟩
    exact congrArg (fun b => BwdOut.mk [] [] b false) (norm_new h (some fun _ => 1)).symm
  | cons s rest ih =>
    simp only [AWorld.bwdPass, bwdPass, List.map_cons]
    generalize W.bwdPass tm h rest = u at ih ⊢
    generalize bwdPass (envAt W h) tm (rest.map (stepValue (W.gridVals h))) = v at ih ⊢
    rcases u with e | u <;> rcases v with e' | v
    · exact ih
    · exact ih.elim
    · exact ih.elim
    · obtain ⟨rfl, i2, i3, i4⟩ := ih
      obtain ⟨up, ul, uh, ub, us⟩ := u
      dsimp only at i2 i3 i4
      change GoodBwd h (if us then _ else _) (if us then _ else _)
      cases us
      · simp only [Bool.false_eq_true, if_false]
        rcases hc : uh.cells ub with _ | b
        · simp only
          exact ⟨by rw [hc]; rfl, i2, i3, i4⟩
        · simp only [stepValue]
          by_cases hn : 0 < ∑ x, s.alpha x * b x
          · simp only [hn, if_true]
            have eg : W.gridVals uh = W.gridVals h := funext fun a => i2.2 _ (hW.grid a)
            rw [eg]
            set q : Idx gs → K := fun x => b x * s.lik (W.gridVals h) x with hq
            have k1 := keeps_alloc uh (some q)
            have g := good_bwd (W := W) tm 0 (uh.alloc (some q)).1 (uh.alloc (some q)).2 s.t (hW.mono (i2.1.trans k1.1)) (Nat.lt_succ_self _) hok
            rw [alloc_get, envAt_keeps hW (i2.trans k1)] at g
            generalize AWorld.bwd W 0 tm (uh.alloc (some q)).1 (uh.alloc (some q)).2 s.t = x at g ⊢
            generalize TM.bwd (envAt W h) 0 tm (some q) s.t = y at g ⊢
            rcases x with e | x <;> rcases y with e' | y
            · exact g
            · exact g.elim
            · exact g.elim
            · obtain ⟨g1, g2, g3, g4⟩ := g
              have hx : h.next ≤ x.2 := by
                rcases g4 with e | e
                · rw [e]; exact i2.1
                · exact (i2.1.trans k1.1).trans e
              refine ⟨?_, (i2.trans (k1.trans g1)).write hx _, hx, g2⟩
              simp only [AHeap.normalizeAt, write_get, g3]
              rfl
          · simp only [hn, if_false]
            exact ⟨by rw [hc]; rfl, i2, i3, i4⟩
      · simp only [if_true]
        exact ⟨rfl, i2, i3, i4⟩

/-- The results as values. -/
def SameResults (S : HFit K gs) (pr : PriorSpec K gs) (V : FitState K gs) : Prop :=
  V.prior = pr ∧ V.posts = S.posts ∧ (∀ a, S.means a = (V.means a).map Cell.val) ∧ V.logEv = S.logEv ∧ V.locals = S.locals

/-- The two fits agree. -/
def GoodFit (W : AWorld K gs) (h : AHeap K gs) : Except PyErr (AHeap K gs × HFit K gs) → Except PyErr (FitState K gs) → Prop
  | .ok p, .ok V => SameResults p.2 (priorValue W p.1) V ∧ h.next ≤ p.1.next ∧ Frame W h.next h p.1
  | .error e, .error e' => e = e'
  | _, _ => False

theorem priorValue_array {W : AWorld K gs} (h : AHeap K gs) : (priorValue W h).isArray = true ↔ ∃ r, W.prior = .array r := by
  unfold priorValue
  cases hp : W.prior <;> simp [PriorSpec.isArray]

/-- a prior that is held by the user is defined -/
def HeldOk (W : AWorld K gs) (h : AHeap K gs) : Prop := (∀ r, W.prior = .funcHeld r → h.cells r ≠ none) ∧ ∀ a, h.cells (W.grid a) ≠ none

/-- the value of the prior array after normalisation -/
def renormValue (c : K) : Arr K gs → Arr K gs
  | none => none
  | some a => if ∑ x, a x ≠ 1 then (normalize a).bind (divScalar · c) else some a

theorem renorm_get (W : AWorld K gs) (h : AHeap K gs) (r : ℕ) : (W.renorm h r).cells r = renormValue W.E.cell (h.cells r) := by
  unfold AWorld.renorm renormValue
  rcases hc : h.cells r with _ | a
  · exact hc
  · simp only
    split_ifs with h1
    · rw [write_get, AHeap.normalizeAt, write_get, hc]; rfl
    · exact hc

theorem renorm_next (W : AWorld K gs) (h : AHeap K gs) (r : ℕ) : (W.renorm h r).next = h.next := by
  unfold AWorld.renorm
  rcases h.cells r with _ | a
  · rfl
  · simp only
    split_ifs <;> rfl

theorem renorm_other (W : AWorld K gs) (h : AHeap K gs) {r s : ℕ} (hs : s ≠ r) : (W.renorm h r).cells s = h.cells s := by
  unfold AWorld.renorm
  rcases h.cells r with _ | a
  · rfl
  · simp only
    split_ifs with h1
    · exact (Function.update_of_ne hs _ _).trans (Function.update_of_ne hs _ _)
    · rfl

/-- both priors agree -/
def GoodPrior (W : AWorld K gs) (h : AHeap K gs) : Except PyErr (AHeap K gs × ℕ) → Except PyErr (Arr K gs × PriorSpec K gs) → Prop
  | .ok p, .ok v => p.1.cells p.2 = v.1 ∧ v.2 = priorValue W p.1 ∧ h.next ≤ p.1.next ∧ p.2 < p.1.next ∧ Owner W h.next p.2 v.2.isArray ∧ Frame W h.next h p.1
  | .error e, .error e' => e = e'
  | _, _ => False

theorem good_prior {W : AWorld K gs} (h : AHeap K gs) (hW : Known W h.next) (hh : HeldOk W h) : GoodPrior W h (W.computePrior h) (computePrior (envAt W h)) := by
  have new : ∀ (p : AHeap K gs × ℕ) (v : Arr K gs), (¬ ∃ r, W.prior = .array r) → Keeps h p.1 → h.next ≤ p.2 → p.2 < p.1.next → p.1.cells p.2 = v →
      GoodPrior W h (.ok p) (.ok (v, priorValue W h)) := fun p v hna k hp hp' hv => by
    have e := priorValue_congr hW k.2
    refine ⟨hv, e.symm, k.1, hp', ?_, k.frame le_rfl⟩
    have : (priorValue W h).isArray = false := by
      rw [Bool.eq_false_iff]
      exact fun hx => hna ((priorValue_array h).1 hx)
    dsimp only
    rw [this]
    exact hp
  have call : ∀ (h1 : AHeap K gs) (r : ℕ) (v : Idx gs → K), (¬ ∃ r, W.prior = .array r) → Keeps h h1 → h1.cells r = some v →
      GoodPrior W h (.ok (W.renorm (h1.alloc (h1.cells r)).1 (h1.alloc (h1.cells r)).2, (h1.alloc (h1.cells r)).2))
        (if ∑ x, v x ≠ 1 then .ok ((normalize v).bind (divScalar · W.E.cell), priorValue W h) else .ok (some v, priorValue W h)) := fun h1 r v hna k hv => by
    have e : (if ∑ x, v x ≠ 1 then .ok ((normalize v).bind (divScalar · W.E.cell), priorValue W h) else .ok (some v, priorValue W h) : Except PyErr (Arr K gs × PriorSpec K gs)) =
        .ok (renormValue W.E.cell (some v), priorValue W h) := by
      unfold renormValue
      simp only
      split_ifs <;> rfl
    rw [e]
    refine new _ _ hna ⟨?_, fun s hs => ?_⟩ k.1 ?_ ?_
    · rw [renorm_next]; exact k.1.trans (Nat.le_succ _)
    · rw [renorm_other _ _ (by have := k.1; change s ≠ h1.next; omega), (keeps_alloc h1 _).2 s (hs.trans_le k.1), k.2 s hs]
    · rw [renorm_next]; exact Nat.lt_succ_self _
    · rw [renorm_get, alloc_get, hv]
  have hcell : (envAt W h).cell = W.E.cell := rfl
  cases hp : W.prior with
  | none =>
    have e1 : priorValue W h = .none := by unfold priorValue; rw [hp]
    unfold AWorld.computePrior computePrior
    simp only [hp, envAt, e1]
    rw [← e1]
    refine new _ _ (by rw [hp]; rintro ⟨r, hr⟩; cases hr) (((keeps_alloc h _).write le_rfl _).write le_rfl _) le_rfl (Nat.lt_succ_self _) ?_
    rw [write_get, AHeap.normalizeAt, write_get, alloc_get]
    rfl
  | array r =>
    have e1 : priorValue W h = .array (h.cells r) := by unfold priorValue; rw [hp]
    have e2 : priorValue W (W.renorm h r) = .array (renormValue W.E.cell (h.cells r)) := by unfold priorValue; rw [hp]; simp only [renorm_get]
    have e3 : computePrior (envAt W h) = .ok (renormValue W.E.cell (h.cells r), .array (renormValue W.E.cell (h.cells r))) := by
      unfold computePrior renormValue
      simp only [envAt, e1]
      rcases h.cells r with _ | a
      · rfl
      · simp only
        split_ifs <;> rfl
    rw [e3]
    unfold AWorld.computePrior
    simp only [hp]
    exact ⟨renorm_get W h r, e2.symm, (renorm_next W h r).ge, by rw [renorm_next]; exact hW.array r hp, hp,
      fun s hs hne => renorm_other W h fun e => hne (e ▸ hp)⟩
  | badArray =>
    unfold AWorld.computePrior computePrior envAt priorValue
    simp only [hp]
    exact rfl
  | func v =>
    have e1 : priorValue W h = .func (v (W.gridVals h)) := by unfold priorValue; rw [hp]
    unfold AWorld.computePrior computePrior AWorld.callPrior
    simp only [hp, envAt, e1]
    rw [← e1]
    exact call _ _ _ (by rw [hp]; rintro ⟨r, hr⟩; cases hr) (keeps_alloc h _) (alloc_get _ _)
  | funcConst c =>
    have e1 : priorValue W h = .funcConst c := by unfold priorValue; rw [hp]
    unfold AWorld.computePrior computePrior AWorld.callPrior
    simp only [hp, envAt, e1]
    rw [← e1]
    exact call _ _ _ (by rw [hp]; rintro ⟨r, hr⟩; cases hr) (keeps_alloc h _) (alloc_get _ _)
  | funcArg a =>
    obtain ⟨v, hv⟩ := Option.ne_none_iff_exists'.1 (hh.2 a)
    have e1 : priorValue W h = .func v := by unfold priorValue; rw [hp]; simp only [hv]; rfl
    unfold AWorld.computePrior computePrior AWorld.callPrior
    simp only [hp, envAt, e1]
    rw [← e1]
    exact call _ _ _ (by rw [hp]; rintro ⟨r, hr⟩; cases hr) (.refl h) hv
  | funcHeld r =>
    obtain ⟨v, hv⟩ := Option.ne_none_iff_exists'.1 (hh.1 r hp)
    have e1 : priorValue W h = .func v := by unfold priorValue; rw [hp]; simp only [hv]; rfl
    unfold AWorld.computePrior computePrior AWorld.callPrior
    simp only [hp, envAt, e1]
    rw [← e1]
    exact call _ _ _ (by rw [hp]; rintro ⟨r, hr⟩; cases hr) (.refl h) hv
  | rvs n ok v =>
    have e1 : priorValue W h = .rvs n ok (v (W.gridVals h)) := by unfold priorValue; rw [hp]
    unfold AWorld.computePrior computePrior
    simp only [hp, envAt, e1]
    split_ifs
    · exact rfl
    · rw [← e1]
      exact new _ _ (by rw [hp]; rintro ⟨r, hr⟩; cases hr) (keeps_alloc h _) le_rfl (Nat.lt_succ_self _) (alloc_get _ _)
    · exact rfl

theorem mean_val {W : AWorld K gs} {h : AHeap K gs} {grid : (a : Fin d) → Fin (gs a) → K} (hg : ∀ a, h.cells (W.grid a) = some fun x => grid a (x a)) (a : Fin d) (p : Idx gs → K) :
    W.mean h a p = Cell.val (mean grid a p) := by
  simp only [AWorld.mean, hg a, mean]

theorem good_fit (W : AWorld K gs) (tm : TM K) (liks : List (Lik K gs)) (ts : List K) (fo eo : Bool) (h : AHeap K gs) (S : HFit K gs) (grid : (a : Fin d) → Fin (gs a) → K)
    (V : FitState K gs) (hW : Known W h.next) (ha : Apart W) (hheld : ∀ r, W.prior = .funcHeld r → h.cells r ≠ none)
    (hg : ∀ a, h.cells (W.grid a) = some fun x => grid a (x a)) (hok : NewArray W.prior ∨ NoReset tm) (hS : SameResults S (priorValue W h) V) :
    GoodFit W h (W.fit tm liks ts fo eo h S) (fit W.E grid tm (liks.map (· (W.gridVals h))) ts fo eo V) := by
  obtain ⟨s1, s2, s3, s4, s5⟩ := hS
  have g := good_prior h hW ⟨hheld, fun a => by rw [hg a]; exact Option.some_ne_none _⟩
  unfold AWorld.fit fit
  rw [s1]
  change GoodPrior W h (W.computePrior h) (computePrior { W.E with prior := priorValue W h }) at g
  generalize W.computePrior h = x at g ⊢
  generalize computePrior { W.E with prior := priorValue W h } = y at g ⊢
  rcases x with e | x <;> rcases y with e' | y
  · exact g
  · exact g.elim
  · exact g.elim
  · obtain ⟨g1, g2, g3, g4, g5, g6⟩ := g
    have p := good_pass hok hW ha liks ts x.1 x.2 y.2.isArray g3 g4 g5
    rw [g1, ← g2, g6.gridVals hW ha] at p
    change GoodFit W h (do let f ← W.fwdPass tm x.1 x.2 liks ts; _) (do let f ← fwdPass W.E tm y.2.isArray y.2 y.1 (liks.map (· (W.gridVals h))) ts; _)
    generalize W.fwdPass tm x.1 x.2 liks ts = u at p ⊢
    generalize fwdPass W.E tm y.2.isArray y.2 y.1 (liks.map (· (W.gridVals h))) ts = v at p ⊢
    rcases u with e | ⟨st, b, h'⟩ <;> rcases v with e' | v
    · exact p
    · exact p.elim
    · exact p.elim
    · obtain ⟨rfl, p2, p3⟩ := p
      dsimp only at p2 p3
      have hf : Frame W h.next h h' := g6.trans p3
      have hn : h.next ≤ h'.next := g3.trans p2
      have hg' : ∀ a, h'.cells (W.grid a) = some fun x => grid a (x a) := fun a => (hf _ (hW.grid a) fun hp => ha _ hp a rfl).trans (hg a)
      rw [g6.gridVals hW ha]
      change GoodFit W h (if b then _ else _) (if b then _ else _)
      cases b
      · simp only [Bool.false_eq_true, if_false]
        have hle : sumLog W.E (st.map (stepValue (W.gridVals h))) = st.foldl (fun l s => l + LogV.log s.norm) 0 + LogV.log W.E.cell := by
          unfold sumLog
          rw [List.foldl_map]; rfl
        cases eo
        · cases fo
          · simp only [Bool.false_eq_true, if_false]
            have k := good_bwdPass hok h' (hW.mono hn) st
            rw [hf.gridVals hW ha] at k
            change GoodBwd h' (W.bwdPass tm h' st) (bwdPass { W.E with prior := priorValue W h' } tm (st.map (stepValue (W.gridVals h)))) at k
            generalize W.bwdPass tm h' st = m at k ⊢
            generalize bwdPass { W.E with prior := priorValue W h' } tm (st.map (stepValue (W.gridVals h))) = w at k ⊢
            rcases m with e | m <;> rcases w with e' | w
            · exact k
            · exact k.elim
            · exact k.elim
            · obtain ⟨rfl, k2, k3, k4⟩ := k
              obtain ⟨mp, ml, mh, mb, ms⟩ := m
              dsimp only at k2 k3 k4
              have hpv : priorValue W mh = priorValue W h' := priorValue_congr (hW.mono hn) k2.2
              have hff : Frame W h.next h mh := hf.trans (k2.frame hn)
              change GoodFit W h (if ms then _ else _) (if ms then _ else _)
              cases ms
              · simp only [Bool.false_eq_true, if_false]
                refine ⟨⟨hpv.symm, rfl, fun a => ?_, hle, rfl⟩, hn.trans k2.1, hff⟩
                have e : (W.mean mh a) = fun p => Cell.val (mean grid a p) := funext fun p => by
                  refine mean_val (fun a => ?_) a p
                  rw [k2.2 _ ((hW.mono hn).grid a)]; exact hg' a
                dsimp only
                rw [e, List.map_filterMap]
                congr 1
                funext c
                cases c <;> rfl
              · simp only [if_true]
                exact ⟨⟨hpv.symm, rfl, s3, rfl, rfl⟩, hn.trans k2.1, hff⟩
          · simp only [Bool.false_eq_true, if_false, if_true]
            refine ⟨⟨rfl, ?_, fun a => ?_, hle, ?_⟩, hn, hf⟩
            · simp only [List.map_map]; rfl
            · simp only [List.map_map]
              refine List.map_congr_left fun s _ => ?_
              exact mean_val hg' a s.alpha
            · simp only [List.map_map]; rfl
        · simp only [if_true]
          refine ⟨⟨rfl, s2, fun a => rfl, hle, ?_⟩, hn, hf⟩
          simp only [List.map_map]; rfl
      · simp only [if_true]
        refine ⟨⟨rfl, ?_, s3, rfl, ?_⟩, hn, hf⟩
        · cases eo
          · simp only [List.map_map, List.length_map, Bool.false_eq_true, if_false]; rfl
          · exact s2
        · simp only [List.map_map, List.length_map]; rfl

/-- **C113**, for prior functions that return new arrays and for models that never fall back to the prior: `fit` changes no array that existed before, except a prior given as array.  In particular the
parameter grid stays as it is.  All results are those of Model/Fit.lean, where arrays are values. -/
theorem C113_partial (W : AWorld K gs) (tm : TM K) (liks : List (Lik K gs)) (ts : List K) (fo eo : Bool) (h : AHeap K gs) (S : HFit K gs) (grid : (a : Fin d) → Fin (gs a) → K)
    (V : FitState K gs) (hW : Known W h.next) (ha : Apart W) (hheld : ∀ r, W.prior = .funcHeld r → h.cells r ≠ none)
    (hg : ∀ a, h.cells (W.grid a) = some fun x => grid a (x a)) (hok : NewArray W.prior ∨ NoReset tm) (hS : SameResults S (priorValue W h) V) :
    (∀ e, W.fit tm liks ts fo eo h S = .error e ↔ fit W.E grid tm (liks.map (· (W.gridVals h))) ts fo eo V = .error e) ∧
    ∀ h' S', W.fit tm liks ts fo eo h S = .ok (h', S') →
      (∀ r < h.next, W.prior ≠ .array r → h'.cells r = h.cells r) ∧ (∀ a, h'.cells (W.grid a) = h.cells (W.grid a)) ∧
      ∃ V', fit W.E grid tm (liks.map (· (W.gridVals h))) ts fo eo V = .ok V' ∧ SameResults S' (priorValue W h') V' := by
  have g := good_fit W tm liks ts fo eo h S grid V hW ha hheld hg hok hS
  generalize W.fit tm liks ts fo eo h S = x at g ⊢
  generalize fit W.E grid tm (liks.map (· (W.gridVals h))) ts fo eo V = y at g ⊢
  rcases x with e | x <;> rcases y with e' | y
  · have : e = e' := g
    subst this
    exact ⟨fun _ => Iff.rfl.trans (by simp), fun _ _ hc => by cases hc⟩
  · exact g.elim
  · exact g.elim
  · refine ⟨fun e => ⟨fun hc => (by cases hc), fun hc => (by cases hc)⟩, fun h' S' hc => ?_⟩
    cases hc
    exact ⟨g.2.2, fun a => g.2.2 _ (hW.grid a) fun hp => ha _ hp a rfl, y, rfl, g.1⟩

end Props

namespace Ex
open BL

/-- success probabilities 1/4 and 1/2 -/
def coinGrid : (a : Fin 1) → Fin (gs2 a) → ℚ := fun _ i => (1 + i.val) / 4
/-- Array 0 is the grid, array 1 belongs to the user. -/
def coinHeap : AHeap ℚ gs2 := ⟨fun r => if r = 0 then some fun x => coinGrid 0 (x 0) else if r = 1 then some fun _ => 5 else none, 2⟩
/-- a study of a coin with prior `p` -/
def coinWorld (p : APrior ℚ gs2) : AWorld ℚ gs2 := ⟨env gs2 (1 / 4), fun _ => 0, p⟩
/-- likelihood of success: the parameter itself -/
def coinOne : Lik ℚ gs2 := fun g x => ((g 0).map (· x)).getD 0
/-- likelihood of failure -/
def coinZero : Lik ℚ gs2 := fun g x => 1 - coinOne g x
/-- change-point after the first data point -/
def coinModel : TM ℚ := .leaf .changePoint ["t"] [.scalar 1] (some (.item .none))
/-- three tosses -/
def coinData : List (Lik ℚ gs2) := [coinOne, coinZero, coinOne]
/-- no results yet -/
def coinStart : HFit ℚ gs2 := ⟨[], fun _ => [], LogV.ninf, []⟩
/-- the same as value -/
def coinValue (pr : PriorSpec ℚ gs2) : FitState ℚ gs2 := ⟨pr, [], fun _ => [], LogV.ninf, []⟩

/-- the result of a computation that may fail -/
def okAnd {α : Type} : Except PyErr α → (α → Bool) → Bool
  | .ok a, p => p a
  | .error _, _ => false

theorem okAnd_iff {α : Type} {x : Except PyErr α} {p : α → Bool} (h : okAnd x p = true) : ∃ a, x = .ok a ∧ p a = true := by
  rcases x with e | a
  · cases h
  · exact ⟨a, rfl, h⟩

end Ex

namespace Props
open BL

/-- Concrete case: a coin with the prior function `lambda x: 1 - x`, change-point model, full fit. -/
example : ∃ h' S', (Ex.coinWorld (.func Ex.coinZero)).fit Ex.coinModel Ex.coinData [1, 2, 3] false false Ex.coinHeap Ex.coinStart = .ok (h', S') ∧
    h'.cells 0 = Ex.coinHeap.cells 0 ∧ h'.cells 1 = Ex.coinHeap.cells 1 ∧ S'.logEv ≠ LogV.ninf := by
  obtain ⟨⟨h', S'⟩, h1, h2⟩ := Ex.okAnd_iff (show Ex.okAnd ((Ex.coinWorld (.func Ex.coinZero)).fit Ex.coinModel Ex.coinData [1, 2, 3] false false Ex.coinHeap Ex.coinStart)
    (fun p => decide (p.2.logEv.exp ≠ 0)) = true by decide +kernel)
  obtain ⟨-, h3⟩ := C113_partial (Ex.coinWorld (.func Ex.coinZero)) Ex.coinModel Ex.coinData [1, 2, 3] false false Ex.coinHeap Ex.coinStart Ex.coinGrid
    (Ex.coinValue (.func (Ex.coinZero ((Ex.coinWorld (.func Ex.coinZero)).gridVals Ex.coinHeap)))) ⟨fun _ => Nat.zero_lt_two, fun r hr => (by cases hr), fun r hr => (by cases hr)⟩
    (fun r hr => by cases hr) (fun r hr => by cases hr) (fun a => by rw [Subsingleton.elim a 0]; rfl) (.inl trivial) ⟨rfl, rfl, fun _ => rfl, rfl, rfl⟩
  obtain ⟨h4, h5, -⟩ := h3 h' S' h1
  refine ⟨h', S', h1, h5 0, h4 1 (by decide) (fun hc => by cases hc), fun h0 => (of_decide_eq_true h2) ?_⟩
  change S'.logEv.exp = 0
  rw [h0]; rfl

/-- Concrete case: a prior given as array, whose content does change. -/
example : ∃ h' S', (Ex.coinWorld (.array 1)).fit Ex.coinModel Ex.coinData [1, 2, 3] true false Ex.coinHeap Ex.coinStart = .ok (h', S') ∧
    h'.cells 0 = Ex.coinHeap.cells 0 ∧ h'.cells 1 ≠ Ex.coinHeap.cells 1 := by
  obtain ⟨⟨h', S'⟩, h1, h2⟩ := Ex.okAnd_iff (show Ex.okAnd ((Ex.coinWorld (.array 1)).fit Ex.coinModel Ex.coinData [1, 2, 3] true false Ex.coinHeap Ex.coinStart)
    (fun p => decide (p.1.cells 1 ≠ Ex.coinHeap.cells 1)) = true by decide +kernel)
  obtain ⟨-, h3⟩ := C113_partial (Ex.coinWorld (.array 1)) Ex.coinModel Ex.coinData [1, 2, 3] true false Ex.coinHeap Ex.coinStart Ex.coinGrid
    (Ex.coinValue (.array (Ex.coinHeap.cells 1))) ⟨fun _ => Nat.zero_lt_two, fun r hr => (by cases hr; decide), fun r hr => (by cases hr)⟩
    (fun r hr a => by cases hr; exact Nat.zero_ne_one) (fun r hr => by cases hr) (fun a => by rw [Subsingleton.elim a 0]; rfl) (.inl trivial) ⟨rfl, rfl, fun _ => rfl, rfl, rfl⟩
  exact ⟨h', S', h1, (h3 h' S' h1).2.1 0, of_decide_eq_true h2⟩

/-- **C113 refuted** for prior functions that return their argument: with the prior function `lambda x: x` and a change-point, the fit overwrites the parameter grid.  The evidence is not the one
for the prior values of this function, and a second fit reports yet another one. -/
theorem C113_refuted : ∃ h₁ S₁ h₂ S₂ V, (Ex.coinWorld (.funcArg 0)).fit Ex.coinModel Ex.coinData [1, 2, 3] false true Ex.coinHeap Ex.coinStart = .ok (h₁, S₁) ∧
    h₁.cells ((Ex.coinWorld (.funcArg 0)).grid 0) ≠ Ex.coinHeap.cells ((Ex.coinWorld (.funcArg 0)).grid 0) ∧
    (Ex.coinWorld (.funcArg 0)).fit Ex.coinModel Ex.coinData [1, 2, 3] false true h₁ S₁ = .ok (h₂, S₂) ∧ S₂.logEv ≠ S₁.logEv ∧
    fit (Ex.env Ex.gs2 (1 / 4)) Ex.coinGrid Ex.coinModel (Ex.coinData.map (· ((Ex.coinWorld (.funcArg 0)).gridVals Ex.coinHeap))) [1, 2, 3] false true
      (Ex.coinValue (.func fun x => Ex.coinGrid 0 (x 0))) = .ok V ∧ V.logEv ≠ S₁.logEv := by
  obtain ⟨⟨h₁, S₁⟩, e1, h2⟩ := Ex.okAnd_iff (show Ex.okAnd ((Ex.coinWorld (.funcArg 0)).fit Ex.coinModel Ex.coinData [1, 2, 3] false true Ex.coinHeap Ex.coinStart)
    (fun p => decide (p.1.cells 0 ≠ Ex.coinHeap.cells 0) && Ex.okAnd ((Ex.coinWorld (.funcArg 0)).fit Ex.coinModel Ex.coinData [1, 2, 3] false true p.1 p.2) (fun q => decide (q.2.logEv.exp ≠ p.2.logEv.exp)) &&
      Ex.okAnd (fit (Ex.env Ex.gs2 (1 / 4)) Ex.coinGrid Ex.coinModel (Ex.coinData.map (· ((Ex.coinWorld (.funcArg 0)).gridVals Ex.coinHeap))) [1, 2, 3] false true
      (Ex.coinValue (.func fun x => Ex.coinGrid 0 (x 0)))) (fun V => decide (V.logEv.exp ≠ p.2.logEv.exp))) = true by decide +kernel)
  rw [Bool.and_eq_true, Bool.and_eq_true] at h2
  obtain ⟨⟨a, b⟩, c⟩ := h2
  obtain ⟨⟨h₂, S₂⟩, e2, b⟩ := Ex.okAnd_iff b
  obtain ⟨V, e3, c⟩ := Ex.okAnd_iff c
  exact ⟨h₁, S₁, h₂, S₂, V, e1, of_decide_eq_true a, e2, fun h => of_decide_eq_true b (congrArg LogV.exp h), e3, fun h => of_decide_eq_true c (congrArg LogV.exp h)⟩

/-- **C113 refuted** for prior functions that return an array of the user: the fit overwrites this array. -/
theorem C113_held_refuted : ∃ h' S', (Ex.coinWorld (.funcHeld 1)).fit Ex.coinModel Ex.coinData [1, 2, 3] false false Ex.coinHeap Ex.coinStart = .ok (h', S') ∧
    h'.cells 1 ≠ Ex.coinHeap.cells 1 := by
  obtain ⟨⟨h', S'⟩, h1, h2⟩ := Ex.okAnd_iff (show Ex.okAnd ((Ex.coinWorld (.funcHeld 1)).fit Ex.coinModel Ex.coinData [1, 2, 3] false false Ex.coinHeap Ex.coinStart)
    (fun p => decide (p.1.cells 1 ≠ Ex.coinHeap.cells 1)) = true by decide +kernel)
  exact ⟨h', S', h1, of_decide_eq_true h2⟩

/-- **C113 refuted** if the prior array is an array of the grid (`prior=S.grid[0]`), even for a static model. -/
theorem C113_grid_refuted : ∃ h' S', (Ex.coinWorld (.array 0)).fit Ex.static Ex.coinData [1, 2, 3] false false Ex.coinHeap Ex.coinStart = .ok (h', S') ∧
    h'.cells ((Ex.coinWorld (.array 0)).grid 0) ≠ Ex.coinHeap.cells ((Ex.coinWorld (.array 0)).grid 0) := by
  obtain ⟨⟨h', S'⟩, h1, h2⟩ := Ex.okAnd_iff (show Ex.okAnd ((Ex.coinWorld (.array 0)).fit Ex.static Ex.coinData [1, 2, 3] false false Ex.coinHeap Ex.coinStart)
    (fun p => decide (p.1.cells 0 ≠ Ex.coinHeap.cells 0)) = true by decide +kernel)
  exact ⟨h', S', h1, of_decide_eq_true h2⟩

end Props
