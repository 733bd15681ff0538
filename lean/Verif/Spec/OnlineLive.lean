import Verif.Props.C26
import Verif.Spec.Online
import Verif.Spec.Positive

/-! # Specification: online studies that cannot fail -/

set_option linter.unusedSectionVars false

namespace Spec
open BL
variable {K : Type} [Field K] [LinearOrder K] {d : ℕ} {gs : Fin d → ℕ}

/-- Transition models built with the constructors, at least one value for every hyper-parameter, all hyper-prior probabilities positive, the cells of the hyper-parameter grid have a volume, and for all values of
the hyper-parameters the model keeps all parameter values possible (`Spreading`). -/
def LiveModels (E : Env K gs) (ms : List (String × TM K)) : Prop :=
  ∀ q ∈ ms, Built q.2 ∧ " " ∉ (entries q.2).map (·.1) ∧ ∀ g, createHyperGrid q.2 [] = .ok g →
    0 < g.hgc.prod ∧ (∃ ps, g.priors = some ps ∧ ps ≠ [] ∧ ∀ p ∈ ps, 0 < p) ∧ ∀ M ∈ hypotheses q.2 g, Spreading E M

/-- a list of positive probabilities that sum up to one -/
def Distribution (n : ℕ) (w : Option (List K)) : Prop := ∃ l, w = some l ∧ l.length = n ∧ (∀ x ∈ l, 0 < x) ∧ l.sum = 1

end Spec
