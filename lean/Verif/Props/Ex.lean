import Verif.Lemmas.FitMain
import Mathlib.Algebra.Order.Ring.Rat
import Mathlib.Algebra.Field.Rat
import Mathlib.Tactic.NormNum

/-!
# Concrete objects used to show that hypotheses can be met and to refute claims

One parameter `x` on two (`gs2`) or three (`gs3`) grid points, rational numbers.
-/

namespace Ex
open BL Spec

/-- two grid points -/
def gs2 : Fin 1 → ℕ := fun _ => 2
/-- three grid points -/
def gs3 : Fin 1 → ℕ := fun _ => 3

/-- external functions: a filter with weights 1/4, 1/2, 1/4 -/
def ext {d : ℕ} (gs : Fin d → ℕ) : Ext ℚ gs where
  pow10 := fun x => 1 / (1 + x * x)
  gaussR := fun _ => 1
  gaussW := fun _ k => if k = 0 then 1 / 2 else 1 / 4
  shift := fun _ _ p => p
  stableKer := fun _ _ k => if k = 0 then 1 / 2 else 1 / 4
  bivKer := fun _ _ _ k l => if k = 0 ∧ l = 0 then 1 / 2 else 0

/-- a study with one parameter and lattice constant `lat` -/
def env (gs : Fin 1 → ℕ) (lat : ℚ) : Env ℚ gs := ⟨fun _ => "x", fun _ => lat, .none, ext gs⟩

theorem gaussOK {d : ℕ} (gs : Fin d → ℕ) : GaussOK (ext gs) where
  even := by intro s k; simp [ext]
  nonneg := by intro s k; simp only [ext]; split <;> norm_num
  sum_one := by intro s _; simp only [ext]; decide +kernel

theorem regular2 {lat : ℚ} (h : 0 < lat) : Regular (env gs2 lat) where
  lattice_pos := fun _ => h
  nonempty := ⟨fun _ => ⟨0, by simp [gs2]⟩⟩
  gauss := gaussOK gs2

theorem regular3 {lat : ℚ} (h : 0 < lat) : Regular (env gs3 lat) where
  lattice_pos := fun _ => h
  nonempty := ⟨fun _ => ⟨0, by simp [gs3]⟩⟩
  gauss := gaussOK gs3

/-- study without results -/
def S0 {d : ℕ} {gs : Fin d → ℕ} (pr : PriorSpec ℚ gs) : FitState ℚ gs := ⟨pr, [], fun _ => [], 0, []⟩

/-- arrays -/
def v2 (a b : ℚ) : Idx gs2 → ℚ := fun x => if (x 0).val = 0 then a else b
/-- arrays -/
def v3 (a b c : ℚ) : Idx gs3 → ℚ := fun x => if (x 0).val = 0 then a else if (x 0).val = 1 then b else c

/-- grid values -/
def grid (gs : Fin 1 → ℕ) : (a : Fin 1) → Fin (gs a) → ℚ := fun _ i => i.val

/-- Static -/
def static : TM ℚ := .leaf .static [] [] none
/-- GaussianRandomWalk -/
def grw (σ : ℚ) : TM ℚ := .leaf (.grw "x") ["sigma"] [.scalar σ] none
/-- ChangePoint -/
def cp (t : ℚ) : TM ℚ := .leaf .changePoint ["t_change"] [.scalar t] none
/-- Independent -/
def indep : TM ℚ := .leaf .independent [] [] none
/-- RegimeSwitch with `log10pMin = 1` -/
def regime : TM ℚ := .leaf .regimeSwitch ["log10pMin"] [.scalar 1] none
/-- serial model with one break-point (`b = false`) or change-point (`b = true`) -/
def ser (b : Bool) (t : ℚ) (m1 m2 : TM ℚ) : TM ℚ := .serial ["t_break"] [.scalar t] [] [b] [m1, m2]

/-- a nested model: walk, then walk combined with static -/
def nested : TM ℚ := ser false 1 (grw 1) (.combined [grw 2, static])

theorem axis_x (gs : Fin 1 → ℕ) (lat : ℚ) : (env gs lat).axis "x" = .ok 0 := by
  simp [Env.axis, env, List.finRange_succ]

theorem nested_linear (gs : Fin 1 → ℕ) (lat : ℚ) : Linear (env gs lat) nested := by
  simp [nested, ser, grw, static, Linear, LinearAll, axis_x]

theorem nested_resetFree : ResetFree nested := by
  simp [nested, ser, grw, static, ResetFree, ResetFreeAll]

/-- evidence reported by a fit; `none` if an exception was raised -/
def ev {K : Type} {d : ℕ} {gs : Fin d → ℕ} (r : Except PyErr (FitState K gs)) : Option K :=
  match r with
  | .ok s => some s.logEv.exp
  | .error _ => none

theorem ok_of_ev {d : ℕ} {gs : Fin d → ℕ} {r : Except PyErr (FitState ℚ gs)} (h : (ev r).any (· ≠ 0) = true) :
    ∃ S, r = .ok S ∧ S.logEv ≠ LogV.ninf := by
  cases r with
  | error e => simp [ev] at h
  | ok S =>
      refine ⟨S, rfl, fun h0 => ?_⟩
      simp [ev, h0] at h

/-- stored posteriors (values at all grid points, in order) -/
def postTable {gs : Fin 1 → ℕ} (r : Except PyErr (FitState ℚ gs)) : Option (List (Cell (List ℚ))) :=
  match r with
  | .ok s => some (s.posts.map fun c => match c with
      | .val p => .val ((List.finRange (gs 0)).map fun i => p (fun a => (Fin.fin_one_eq_zero a) ▸ i))
      | .nan => .nan
      | .uninit => .uninit)
  | .error _ => none

end Ex
