import Verif.Model.Objects

/-! # Which objects are used where in a session -/

namespace Spec
open BL
variable {K D : Type} [Field K] [LinearOrder K] {d : ℕ} {gs : Fin d → ℕ}

mutual
/-- the parts of a model, at any depth (identities) -/
def parts : OTM K → List ℕ
  | .leaf _ => []
  | .combined _ ms => partsL ms
  | .serial _ _ _ _ _ ms => partsL ms
/-- the objects of a list of models -/
def partsL : List (OTM K) → List ℕ
  | [] => []
  | m :: ms => m.ref :: (parts m ++ partsL ms)
end

/-- all objects of a model: itself and its parts -/
def objects (m : OTM K) : List ℕ := m.ref :: parts m

mutual
/-- no object is a part of itself -/
def Acyclic : OTM K → Prop
  | .leaf _ => True
  | .combined r ms => r ∉ partsL ms ∧ AcyclicL ms
  | .serial r _ _ _ _ ms => r ∉ partsL ms ∧ AcyclicL ms
/-- the same for the models of a list -/
def AcyclicL : List (OTM K) → Prop
  | [] => True
  | m :: ms => Acyclic m ∧ AcyclicL ms
end

/-- is the object a random walk with a kernel (AlphaStableRandomWalk, BivariateRandomWalk)? -/
def HasKernel (tab : ℕ → LeafObj K) (r : ℕ) : Prop :=
  match (tab r).kind with
  | .alphaStable _ => True
  | .bivariate => True
  | _ => False

/-- Study `i` shares nothing critical with other studies in the session `ops`: the transition models it is given, and the random walks with a kernel inside them, are not used in models given to other studies; observation models
it is given are not given to other studies, unless their prior is not an array.  (Other parts of the transition models may be shared.) -/
structure Unshared (tab : ℕ → LeafObj K) (oms : ℕ → OMObj K D gs) (i : ℕ) (ops : List (WOp K D)) : Prop where
  model : ∀ m, .setTM i m ∈ ops → ∀ j m', .setTM j m' ∈ ops → j ≠ i → m.ref ∉ objects m'
  kernel : ∀ m, .setTM i m ∈ ops → ∀ j m', .setTM j m' ∈ ops → j ≠ i → ∀ r ∈ objects m, HasKernel tab r → r ∉ objects m'
  prior : ∀ o, .setOM i o ∈ ops → ∀ j, .setOM j o ∈ ops → j ≠ i → (oms o).prior.isArray = false

end Spec
