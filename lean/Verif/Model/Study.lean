import Verif.Model.Config
import Verif.Model.Fit

/-!
# A study from configuration to fit (core.py 130-176, 330-486)

Model/Config.lean contains the configuration methods, Model/Fit.lean the algorithm for given grid, prior and likelihoods; here the two are put together.
-/

set_option linter.unusedSectionVars false

namespace BL
variable {K D : Type} [Field K] [LinearOrder K]

/-- `gridSize`, core.py 157 -/
def Cfg.shape (S : Cfg K D) : Fin S.grid.length → ℕ := fun a => (S.grid[a]).length

/-- `grid`, core.py 169: the value of parameter `a` depends on index `a` only (`indexing='ij'`) -/
def Cfg.axes (S : Cfg K D) : (a : Fin S.grid.length) → Fin (S.shape a) → K := fun a i => (S.grid[a])[i]'i.isLt

/-- what the transition models see of the study.  The lattice constants stored in the transition model are those of the study (property C54). -/
def Cfg.env (S : Cfg K D) (names : List String) (ext : Ext K S.shape) : Env K S.shape :=
  ⟨fun a => names.getD a "", fun a => S.lattice.getD a 1, .none, ext⟩

/-- the results of a study before the first fit, core.py 60-63, with the attribute `prior` of its observation model -/
def FitState.init {d : ℕ} {gs : Fin d → ℕ} (prior : PriorSpec K gs) : FitState K gs := ⟨prior, [], fun _ => [], 0, []⟩

/-- The first call of `Study.fit`, core.py 330-486.  `pdf` is `processedPdf` for one data segment, `prior` the attribute of the observation model. -/
def Cfg.fit (S : Cfg K D) (ext : Ext K S.shape) (pdf : List D → Idx S.shape → K) (prior : PriorSpec K S.shape) (forwardOnly evidenceOnly : Bool) :
    Except PyErr (FitState K S.shape) :=
  match S.fitStart, S.om, S.tm with
  | .error e, _, _ => .error e
  | .ok r, some om, some tm => BL.fit (S.env om.names ext) S.axes tm.1 (r.1.map pdf) r.2 forwardOnly evidenceOnly (FitState.init prior)
  | .ok _, _, _ => .error .attributeError

end BL
