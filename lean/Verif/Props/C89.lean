import Verif.Lemmas.Sessions
import Verif.Props.Ex

/-! # C89: studies do not influence each other -/

set_option linter.unusedSectionVars false

namespace Props
open BL Spec
variable {K D : Type} [Field K] [LinearOrder K] [IsStrictOrderedRing K] {d : ℕ} {gs : Fin d → ℕ}

/-- **C89 (partial).** Every session with any number of studies, in any order of calls (loading data, setting observation and transition models, fitting): if study `i` shares no transition model, no random walk with a kernel and no
observation model with an array as prior with the other studies, then everything the user sees of study `i` after each of its calls (exceptions, evidence, posteriors, means, local evidences, prior) is the same as in a session in which the calls
of all other studies are left out.  (Elementary models without a kernel may be shared as parts of combined and serial models.)  The full claim has no condition; it is false (`C89_refuted`, `C89_part_refuted`, `C89_prior_refuted`). -/
theorem C89_partial (tab : ℕ → LeafObj K) (ext : Ext K gs) (oms : ℕ → OMObj K D gs) (ops : List (WOp K D)) (i : ℕ) (h : Unshared tab oms i ops) :
    ((World.init oms).trace tab ext ops).filter (fun e => e.1 = i) = (World.init oms).trace tab ext (ops.filter fun op => op.study = i) :=
  trace_own h ops _ _ (fun _ h => h) (SimW.init oms i ops)

/-- elementary models: 0 and 3 are Gaussian random walks, 2 a quadratic deterministic model, 4 an alpha-stable random walk, the others static models -/
def _root_.Ex.tabW : ℕ → LeafObj ℚ
  | 0 => ⟨.grw "x", ["sigma"], [.scalar 1], none⟩
  | 2 => ⟨.deterministic (fun t _ => t * t) "x", [], [], none⟩
  | 3 => ⟨.grw "x", ["sigma2"], [.scalar 2], none⟩
  | 4 => ⟨.alphaStable "x", ["c", "alpha"], [.scalar 1, .scalar 1], none⟩
  | _ => ⟨.static, [], [], none⟩

/-- external functions that depend on the normalised widths and distances -/
def _root_.Ex.extW : Ext ℚ Ex.gs2 :=
  { Ex.ext Ex.gs2 with
    gaussW := fun s k => if s ≤ 1 / 2 then (if k = 0 then 1 else 0) else if k = 0 then 1 / 2 else 1 / 4
    shift := fun _ δ p => if δ ≤ 1 then p else fun _ => p fun _ => ⟨0, by simp [Ex.gs2]⟩
    stableKer := fun c _ k => if k = 0 then 1 else c }

/-- observation models: parameter values `0, lat` with lattice constant 2 (number 0) or 1 (all others); number 2 has an array as prior -/
def _root_.Ex.omW (o : ℕ) : OMObj ℚ ℚ Ex.gs2 :=
  let lat : ℚ := if o = 0 then 2 else 1
  ⟨fun _ => "x", fun _ i => i.val * lat, fun _ => lat, if o = 2 then .array (some (Ex.v2 (1 / 4) (3 / 4))) else .none, 1, fun s => Ex.v2 s.sum 1⟩

/-- evidences seen -/
def _root_.Ex.evW (l : List (ℕ × Seen ℚ Ex.gs2)) : List ℚ := l.map fun e => e.2.logEv.lin

/-- a session that meets the hypotheses: two studies with a common observation model and a common static part of their combined models -/
example : Unshared Ex.tabW Ex.omW 0 [.load 0 [2, 3] [0, 1], .load 1 [1, 5] [0, 1], .setOM 0 0, .setOM 1 0, .setTM 0 (.combined 7 [.leaf 1, .leaf 0]), .setTM 1 (.combined 8 [.leaf 1, .leaf 3]), .fit 1 false false,
    .fit 0 false false] where
  model := by
    intro m hm j m' hm' hj
    simp only [List.mem_cons, reduceCtorEq, WOp.setTM.injEq, List.not_mem_nil, or_false, false_or] at hm hm'
    rcases hm with ⟨-, rfl⟩ | ⟨h, -⟩
    · rcases hm' with ⟨h, -⟩ | ⟨-, rfl⟩
      · exact absurd h hj
      · decide
    · cases h
  kernel := by
    intro m hm j m' hm' hj r hr hk
    simp only [List.mem_cons, reduceCtorEq, WOp.setTM.injEq, List.not_mem_nil, or_false, false_or] at hm
    rcases hm with ⟨-, rfl⟩ | ⟨h, -⟩
    · simp only [objects, parts, partsL, OTM.ref, List.mem_cons, List.mem_append, List.not_mem_nil, or_false, false_or, List.nil_append, List.append_nil] at hr
      rcases hr with rfl | rfl | rfl <;> exact hk.elim
    · cases h
  prior := by
    intro o ho j hj _
    simp only [List.mem_cons, reduceCtorEq, WOp.setOM.injEq, List.not_mem_nil, or_false, false_or] at ho
    rcases ho with ⟨-, rfl⟩ | ⟨h, -⟩
    · rfl
    · cases h

/-- the evidences in this session -/
example : Ex.evW ((World.init Ex.omW).trace Ex.tabW Ex.extW [.load 0 [2, 3] [0, 1], .load 1 [1, 5] [0, 1], .setOM 0 0, .setOM 1 0, .setTM 0 (.combined 7 [.leaf 1, .leaf 0]),
    .setTM 1 (.combined 8 [.leaf 1, .leaf 3]), .fit 1 false false, .fit 0 false false]) = [1, 1, 1, 1, 1, 1, 3, 7 / 2] := by decide +kernel

/-- **C89 (refuted).** Two studies are given the same Gaussian random walk; the grids have different lattice constants.  The study that was set up first is fitted: its evidence is not the one it has without the other study. -/
theorem C89_refuted :
    let ops : List (WOp ℚ ℚ) := [.load 0 [2, 3] [0, 1], .setOM 0 0, .setTM 0 (.leaf 0), .setOM 1 1, .setTM 1 (.leaf 0), .fit 0 false false]
    Ex.evW (((World.init Ex.omW).trace Ex.tabW Ex.extW ops).filter (fun e => e.1 = 0)) = [1, 1, 1, 13 / 4] ∧
    Ex.evW ((World.init Ex.omW).trace Ex.tabW Ex.extW (ops.filter fun op => op.study = 0)) = [1, 1, 1, 7 / 2] := by
  constructor <;> decide +kernel

/-- **C89 (refuted).** A deterministic model is the second part of a serial model of study 0, with a break-point at time 1, and the transition model of study 1 (as in the serial model: the object has the wrong time
offset after the fit of study 0). -/
theorem C89_part_refuted :
    let ops : List (WOp ℚ ℚ) := [.load 0 [2, 3, 1] [0, 1, 2], .setOM 0 1, .setTM 0 (.serial 5 ["t"] [.scalar 1] [] [false] [.leaf 1, .leaf 2]), .fit 0 false false,
      .load 1 [2, 3, 5] [0, 1, 2], .setOM 1 1, .setTM 1 (.leaf 2), .fit 1 false true]
    Ex.evW (((World.init Ex.omW).trace Ex.tabW Ex.extW ops).filter (fun e => e.1 = 1)) = [1, 1, 1, 31 / 2] ∧
    Ex.evW ((World.init Ex.omW).trace Ex.tabW Ex.extW (ops.filter fun op => op.study = 1)) = [1, 1, 1, 21 / 2] := by
  constructor <;> decide +kernel

/-- **C89 (refuted).** Two studies are given the same observation model with an array as prior: the second fit starts with the posterior of the first. -/
theorem C89_prior_refuted :
    let ops : List (WOp ℚ ℚ) := [.load 0 [2, 3] [0, 1], .setOM 0 2, .setTM 0 (.leaf 1), .fit 0 false false, .load 1 [2] [0], .setOM 1 2, .setTM 1 (.leaf 6), .fit 1 false false]
    Ex.evW (((World.init Ex.omW).trace Ex.tabW Ex.extW ops).filter (fun e => e.1 = 1)) = [1, 1, 1, 5 / 3] ∧
    Ex.evW ((World.init Ex.omW).trace Ex.tabW Ex.extW (ops.filter fun op => op.study = 1)) = [1, 1, 1, 5 / 4] := by
  constructor <;> decide +kernel

end Props
