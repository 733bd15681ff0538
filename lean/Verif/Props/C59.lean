import Verif.Model.Cache
import Verif.Props.Ex

/-! # C59: cached convolution kernels -/

set_option linter.unusedSectionVars false

namespace Spec
open BL
variable {K : Type} [Field K] [LinearOrder K] {d : ℕ}

/-- the elementary transition model (without cache) -/
def uncached (m : KernelModel) : Leaf K :=
  match m with
  | .alphaStable target => .alphaStable target
  | .bivariate => .bivariate

/-- no replacement of the observation model in the history -/
def NoGrid (evs : List (KEvent K d)) : Prop := ∀ g, .grid g ∉ evs

/-- no transition computed in the history -/
def NoForward (evs : List (KEvent K d)) : Prop := .forward ∉ evs

end Spec

namespace BL
open Spec
variable {K : Type} [Field K] [LinearOrder K] {d : ℕ}

theorem uncached_eq {gs : Fin d → ℕ} (m : KernelModel) (E : Env K gs) (toff : K) (vals : List (HVal K)) (p : Arr K gs) (t : K) :
    leafFwd E toff (uncached m) vals p t = (makeKernel E m vals).map fun k => applyKernel k p := by
  cases m with
  | alphaStable target =>
      simp only [leafFwd, uncached, alphaFwd, makeKernel, bind, Except.bind]
      cases scalarAt vals 0 with
      | error e => rfl
      | ok c =>
          cases scalarAt vals 1 with
          | error e => rfl
          | ok al =>
              cases E.axis target with
              | error e => rfl
              | ok a =>
                  simp only
                  split
                  · split <;> rfl
                  · split <;> rfl
  | bivariate =>
      simp only [leafFwd, uncached, bivFwd, makeKernel, bind, Except.bind]
      cases numberAt vals 0 with
      | error e => rfl
      | ok c =>
          cases numberAt vals 1 with
          | error e => rfl
          | ok al =>
              cases numberAt vals 2 with
              | error e => rfl
              | ok a =>
                  simp only
                  split
                  · split
                    · rfl
                    · split <;> rfl
                  · rfl

/-- the cached kernel belongs to the values it is stored with and to the grid `g` -/
def Belongs (m : KernelModel) (g : GridEnv K d) (c : Option (List (HVal K) × Kernel K d)) : Prop := ∀ v k, c = some (v, k) → makeKernel g.2 m v = .ok k

theorem kernel_belongs {m : KernelModel} {s : KState K d} (h : Belongs m s.grid s.cache) :
    (s.kernel m).2 = makeKernel s.grid.2 m s.vals ∧ Belongs m s.grid (s.kernel m).1.cache ∧ (s.kernel m).1.grid = s.grid ∧ (s.kernel m).1.vals = s.vals := by
  unfold KState.kernel
  cases hc : s.cache with
  | none =>
      simp only
      cases hk : makeKernel s.grid.2 m s.vals with
      | error e => exact ⟨rfl, h, rfl, rfl⟩
      | ok k =>
          refine ⟨rfl, ?_, rfl, rfl⟩
          intro v k' he
          simp only [Option.some.injEq, Prod.mk.injEq] at he
          obtain ⟨rfl, rfl⟩ := he
          exact hk
  | some c =>
      obtain ⟨v, k⟩ := c
      simp only
      split
      · rename_i hv
        subst hv
        exact ⟨(h _ _ hc).symm, h, rfl, rfl⟩
      · cases hk : makeKernel s.grid.2 m s.vals with
        | error e => exact ⟨rfl, h, rfl, rfl⟩
        | ok k =>
            refine ⟨rfl, ?_, rfl, rfl⟩
            intro v k' he
            simp only [Option.some.injEq, Prod.mk.injEq] at he
            obtain ⟨rfl, rfl⟩ := he
            exact hk

theorem run_belongs {m : KernelModel} : ∀ (evs : List (KEvent K d)) (s : KState K d), NoGrid evs → Belongs m s.grid s.cache →
    Belongs m (s.run m evs).grid (s.run m evs).cache
  | [], s, _, h => h
  | e :: evs, s, hn, h => by
      have hn' : NoGrid evs := fun g hg => hn g (List.mem_cons_of_mem _ hg)
      rw [KState.run, List.foldl_cons]
      refine run_belongs evs _ hn' ?_
      cases e with
      | grid g => exact absurd List.mem_cons_self (hn g)
      | vals v => exact h
      | forward =>
          obtain ⟨-, h2, h3, -⟩ := kernel_belongs h
          change Belongs m (s.kernel m).1.grid (s.kernel m).1.cache
          rw [h3]; exact h2

theorem run_noForward {m : KernelModel} : ∀ (evs : List (KEvent K d)) (s : KState K d), NoForward evs → s.cache = none → (s.run m evs).cache = none
  | [], s, _, h => h
  | e :: evs, s, hn, h => by
      have hn' : NoForward evs := fun hg => hn (List.mem_cons_of_mem _ hg)
      rw [KState.run, List.foldl_cons]
      refine run_noForward evs _ hn' ?_
      cases e with
      | grid g => exact h
      | vals v => exact h
      | forward => exact absurd List.mem_cons_self hn

end BL

namespace Props
open BL Spec
variable {K : Type} [Field K] [LinearOrder K] [IsStrictOrderedRing K] {d : ℕ}

/-- **C59 (partial).** For every history of an AlphaStableRandomWalk or BivariateRandomWalk object in which the observation model is not replaced after the first transition
(hyper-parameter values may be set at any time, to values used before or not): every transition is the one of the model with the current
hyper-parameter values and the current grid.  The full claim allows the observation model to be replaced at any time; it is false (`C59_refuted`). -/
theorem C59_partial (m : KernelModel) (g : GridEnv K d) (vals : List (HVal K)) (evs1 evs2 : List (KEvent K d)) (h1 : NoForward evs1) (h2 : NoGrid evs2) (toff t : K) :
    ∀ s, s = (KState.new g vals).run m (evs1 ++ evs2) → ∀ p : Arr K s.grid.1, (s.forward m p).2 = leafFwd s.grid.2 toff (uncached m) s.vals p t := by
  rintro s rfl p
  rw [uncached_eq]
  unfold KState.forward
  simp only
  have hb : Belongs m ((KState.new g vals).run m evs1).grid ((KState.new g vals).run m evs1).cache := by
    rw [run_noForward evs1 _ h1 rfl]
    intro v k he; simp at he
  have := run_belongs evs2 _ h2 hb
  rw [show ((KState.new g vals).run m evs1).run m evs2 = (KState.new g vals).run m (evs1 ++ evs2) from (List.foldl_append ..).symm] at this
  rw [(kernel_belongs this).1]

/-- **C59 (after a change of values).** In every state, whatever happened to the observation model: if a transition is computed with values `v0` without an exception and afterwards the observation model is replaced and values other than
`v0` are set, the next transition is again the one of the model with the current values and grid. -/
theorem C59_rebuilt (m : KernelModel) (s0 : KState K d) (g : GridEnv K d) (v : List (HVal K)) (k : Kernel K d) (hk : (s0.kernel m).2 = .ok k) (hv : v ≠ s0.vals) (toff t : K)
    (p : Arr K g.1) : ((s0.run m [.forward, .grid g, .vals v]).forward m p).2 = leafFwd g.2 toff (uncached m) v p t := by
  rw [uncached_eq]
  have hc : ∃ k, (s0.kernel m).1.cache = some (s0.vals, k) := by
    revert hk
    unfold KState.kernel
    cases hc : s0.cache with
    | none =>
        simp only
        cases makeKernel s0.grid.2 m s0.vals with
        | error e => intro h; cases h
        | ok k => intro _; exact ⟨_, rfl⟩
    | some c =>
        obtain ⟨v, k⟩ := c
        simp only
        split
        · rename_i hv; subst hv; intro _; exact ⟨_, hc⟩
        · cases makeKernel s0.grid.2 m s0.vals with
          | error e => intro h; cases h
          | ok k => intro _; exact ⟨_, rfl⟩
  obtain ⟨k', hc⟩ := hc
  simp only [KState.forward, KState.run, List.foldl_cons, List.foldl_nil, KState.event]
  unfold KState.kernel at hc ⊢
  simp only at hc ⊢
  rw [hc]
  simp only [if_neg (Ne.symm hv)]
  cases makeKernel g.2 m v <;> rfl

/-- current grid and values of the object are those set last -/
theorem C59_current (m : KernelModel) (s : KState K d) (evs : List (KEvent K d)) (e : KEvent K d) :
    (s.run m (evs ++ [e])).grid = (match e with | .grid g => g | _ => (s.run m evs).grid) ∧
    (s.run m (evs ++ [e])).vals = (match e with | .vals v => v | _ => (s.run m evs).vals) := by
  simp only [KState.run, List.foldl_append, List.foldl_cons, List.foldl_nil]
  cases e with
  | grid g => exact ⟨rfl, rfl⟩
  | vals v => exact ⟨rfl, rfl⟩
  | forward =>
      simp only [KState.event]
      unfold KState.kernel
      generalize List.foldl (KState.event m) s evs = s
      cases s.cache with
      | none =>
          simp only
          cases makeKernel s.grid.2 m s.vals <;> exact ⟨rfl, rfl⟩
      | some c =>
          simp only
          split
          · exact ⟨rfl, rfl⟩
          · cases makeKernel s.grid.2 m s.vals <;> exact ⟨rfl, rfl⟩

/-- external functions with a kernel whose width depends on the scale -/
def _root_.Ex.extK : Ext ℚ Ex.gs2 := { Ex.ext Ex.gs2 with stableKer := fun c _ k => if k = 0 then 1 else c }

/-- a grid with lattice constant `lat` -/
def _root_.Ex.envK (lat : ℚ) : GridEnv ℚ 1 := ⟨Ex.gs2, ⟨fun _ => "x", fun _ => lat, .none, Ex.extK⟩⟩

/-- a history for `C59_partial`: values set between transitions -/
example : NoForward ([.grid (Ex.envK 1), .vals [.scalar 3, .scalar 1]] : List (KEvent ℚ 1)) ∧
    NoGrid ([.forward, .vals [.scalar 1, .scalar 2], .forward, .vals [.scalar 3, .scalar 1]] : List (KEvent ℚ 1)) := by
  constructor
  · simp [NoForward]
  · intro g; simp

/-- a case of `C59_rebuilt`: the first transition succeeds and the values differ -/
example : (∃ k, ((KState.new (Ex.envK 2) [.scalar 1, .scalar 1]).kernel (.alphaStable "x")).2 = .ok k) ∧ ([.scalar 2, .scalar 1] : List (HVal ℚ)) ≠ [.scalar 1, .scalar 1] :=
  ⟨⟨_, rfl⟩, by decide⟩

/-- result as a list -/
def _root_.Ex.tab {gs : Fin 1 → ℕ} (h : gs = Ex.gs2) (r : Except PyErr (Arr ℚ gs)) : Option (List ℚ) :=
  match r with
  | .ok (some p) => some ((List.finRange 2).map fun i => p fun _ => Fin.cast (by rw [h]; rfl) i)
  | _ => none

/-- **C59 (refuted).** One transition, then the observation model is replaced by one with half the lattice constant and as many values: the second transition uses the old
kernel. -/
theorem C59_refuted :
    let s : KState ℚ 1 := (KState.new (Ex.envK 2) [.scalar 1, .scalar 1]).run (.alphaStable "x") [.forward, .grid (Ex.envK 1)]
    let p : Arr ℚ Ex.gs2 := some (Ex.v2 1 0)
    s.grid = Ex.envK 1 ∧ s.vals = [.scalar 1, .scalar 1] ∧
    Ex.tab rfl (s.forward (.alphaStable "x") p).2 = some [2 / 3, 1 / 3] ∧
    Ex.tab rfl (leafFwd s.grid.2 0 (uncached (.alphaStable "x")) s.vals p 0) = some [1 / 2, 1 / 2] := by
  refine ⟨rfl, rfl, ?_, ?_⟩ <;> decide +kernel

/-- a grid of two by two values with lattice constants `lat`, and a kernel that depends on the scale -/
def _root_.Ex.envB (lat : ℚ) : GridEnv ℚ 2 :=
  ⟨fun _ => 2, ⟨fun a => if a = 0 then "x" else "y", fun _ => lat, .none, { Ex.ext _ with bivKer := fun s1 s2 _ k l => (if k = 0 then 1 else s1) * (if l = 0 then 1 else s2) }⟩⟩

/-- result as a list of the four entries -/
def _root_.Ex.tabB (r : Except PyErr (Arr ℚ (fun _ : Fin 2 => 2))) : Option (List ℚ) :=
  match r with
  | .ok (some p) => some [p ![0, 0], p ![0, 1], p ![1, 0], p ![1, 1]]
  | _ => none

/-- **C59 (refuted).** The same for BivariateRandomWalk. -/
theorem C59_bivariate_refuted :
    let s : KState ℚ 2 := (KState.new (Ex.envB 2) [.scalar 1, .scalar 1, .scalar 0]).run .bivariate [.forward, .grid (Ex.envB 1)]
    let p : Arr ℚ (fun _ : Fin 2 => 2) := some fun i => if i 0 = 0 ∧ i 1 = 0 then 1 else 0
    s.grid = Ex.envB 1 ∧ s.vals = [.scalar 1, .scalar 1, .scalar 0] ∧
    Ex.tabB (s.forward .bivariate p).2 = some [4 / 9, 2 / 9, 2 / 9, 1 / 9] ∧
    Ex.tabB (leafFwd s.grid.2 0 (uncached .bivariate) s.vals p 0) = some [1 / 4, 1 / 4, 1 / 4, 1 / 4] := by
  refine ⟨rfl, ?_, ?_, ?_⟩ <;> decide +kernel

end Props
