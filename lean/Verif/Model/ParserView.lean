import Verif.Model.HyperStudy
import Verif.Model.Online
import Verif.Model.Parser

/-! # What the parser reads from a fitted `Study` -/

set_option linter.unusedSectionVars false

namespace BL

variable {K : Type} [Field K] [LinearOrder K] [IsStrictOrderedRing K]

/-- The grid points in the order of `np.ravel` (C order: the index of the last parameter changes fastest), parser.py 269-270, 280-281, 293-294. -/
def ravelIdx : {d : ℕ} → (gs : Fin d → ℕ) → List (Idx gs)
  | 0, _ => [fun a => a.elim0]
  | _ + 1, gs => (List.finRange (gs 0)).flatMap fun i => (ravelIdx fun a => gs a.succ).map fun x => Fin.cons (α := fun a => Fin (gs a)) i x

/-- `posteriorSequence` if every row was assigned a number -/
def cellsVal {α : Type} : List (Cell α) → Option (List α)
  | [] => some []
  | .val a :: l => (cellsVal l).map (a :: ·)
  | _ :: _ => none

/-- A fitted `Study` as the parser sees it, parser.py 66-73, 258-298: parameter names, `np.ravel(study.grid[index])` (`study.grid` is the meshgrid of the marginal grids, core.py 163),
`formattedTimestamps` and `np.ravel(post)` for each entry of the posterior sequence.  A `Study` has no attribute `storeHistory` and no hyper-parameter names, so it is read like
a study with history and without hyper-parameters.  Simplification: no view if a posterior is nan. -/
def parserView {d : ℕ} {gs : Fin d → ℕ} (names : Fin d → String) (grid : (a : Fin d) → Fin (gs a) → K) (ts : List K) (S : FitState K gs) : Option (PStudy K) :=
  (cellsVal S.posts).map fun ps =>
    ⟨List.ofFn names, List.ofFn fun a => (ravelIdx gs).map fun x => grid a (x a), ts, true, ps.map fun p => (ravelIdx gs).map p, [], .none⟩

/-- A fitted `HyperStudy` with hyper-grid `g` and hyper-parameter distribution `D` as the parser sees it, parser.py 76-84, 350-369: in addition the columns of `hyperGridValues`, looked up by name
(`_getHyperParameterIndex`; the names in the transition model are not changed by `fit`, C33), with `hyperParameterDistribution`. -/
def hyperView {d : ℕ} {gs : Fin d → ℕ} (tm : TM K) (names : Fin d → String) (grid : (a : Fin d) → Fin (gs a) → K) (ts : List K) (g : HyperGrid K) (S : FitState K gs) (D : List K) : Option (PStudy K) :=
  (parserView names grid ts S).map fun s => { s with hyper := .static (g.names.map fun nm => (nm, g.rows.map fun r => r.getD (tm.flatNames.idxOf nm) 0)) D }

/-- An `OnlineStudy` as the parser sees it, parser.py 74-79, 258-347: with its flag `storeHistory`, the sequence of parameter distributions and the current one (`marginalizedPosterior`), and for each transition
model the columns of `hyperParameterValues`, looked up by name, with their distributions (`hyperParameterSequence` and the current one).  Simplification: no view if a distribution is nan. -/
def onlineView {D : Type} {d : ℕ} {gs : Fin d → ℕ} (c : OConf K D gs) (S : OState K D gs) : Option (PStudy K) :=
  S.marg.bind fun Q => (allSome S.posts.entries).bind fun ps => (allSome (S.models.map OModelSt.hpd)).bind fun cur => (allSome (S.hpds.map allSome)).map fun hist =>
    ⟨List.ofFn c.E.names, List.ofFn fun a => (ravelIdx gs).map fun x => c.grid a (x a), (S.fts.map PySeq.entries).getD [], S.store, ps.map fun p => (ravelIdx gs).map p, (ravelIdx gs).map Q,
      .online (S.models.map fun m => m.grid.names.map fun nm => (nm, m.grid.rows.map fun r => r.getD (m.tm.flatNames.idxOf nm) 0)) hist cur⟩

end BL
