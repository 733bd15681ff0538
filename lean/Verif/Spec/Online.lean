import Verif.Model.Online
import Verif.Spec.Hyper

/-! # Specification: online studies -/

set_option linter.unusedSectionVars false

namespace Spec
open BL
variable {K D : Type} [Field K] [LinearOrder K] {d : ℕ} {gs : Fin d → ℕ}

mutual
/-- Models whose transition does not depend on time: no ChangePoint, no Deterministic, no serial model. -/
def Timeless : TM K → Prop
  | .leaf .changePoint _ _ _ => False
  | .leaf (.deterministic _ _) _ _ _ => False
  | .leaf _ _ _ _ => True
  | .combined ms => TimelessAll ms
  | .serial _ _ _ _ _ => False
/-- all members -/
def TimelessAll : List (TM K) → Prop
  | [] => True
  | m :: ms => Timeless m ∧ TimelessAll ms
end

/-- The hypotheses of one transition model: one model with fixed values for every row of the hyper-grid, the model itself if it has no
hyper-parameters. -/
def hypotheses (tm : TM K) (g : HyperGrid K) : List (TM K) :=
  if g.rows.length = 0 then [tm] else g.rows.map (modelAt tm)

/-- Calling `addTransitionModel` for all models, without exception. -/
def addAll : OState K D gs → List (String × TM K) → Except PyErr (OState K D gs)
  | S, [] => .ok S
  | S, q :: qs => match S.add q.1 q.2 with
      | (_, some e) => .error e
      | (S', none) => addAll S' qs

/-- A new study with the given models and, if given, prior probabilities of the models. -/
def setup (store : Bool) (prior : PriorSpec K gs) (ms : List (String × TM K)) (p : Option (List K)) : Except PyErr (OState K D gs) :=
  match addAll (OState.new store prior) ms with
  | .error e => .error e
  | .ok S => match p with
      | none => .ok S
      | some p => match S.setTMPrior p with
          | (_, some e) => .error e
          | (S', none) => .ok S'

/-- Calling `step` for all data points, without exception. -/
def runSteps (c : OConf K D gs) : OState K D gs → List D → Except PyErr (OState K D gs)
  | S, [] => .ok S
  | S, x :: xs => match S.step (some c) x with
      | (_, some e) => .error e
      | (S', none) => runSteps c S' xs

/-- The likelihoods of all complete data segments. -/
def segLiks (c : OConf K D gs) (xs : List D) : List (Idx gs → K) := (movingWindow xs c.seg).map c.pdf

/-- weights divided by their sum -/
def normalised (ws : List K) : List K := ws.map (· / ws.sum)

/-- mixture of distributions with weights -/
def mix (ws : List K) (ps : List (Idx gs → K)) : Idx gs → K := fun x => (List.zipWith (fun w p => w * p x) ws ps).sum

/-- The evidences `es` accumulated for the hyper-parameter values of a model and the (discretised) prior densities `ps` of these values. -/
def Weighted (m : OModelSt K gs) (es ps : List K) : Prop :=
  m.hyps.map (fun h => h.ev.map LogV.exp) = es.map some ∧ m.grid.priors = some ps

/-- hyper-priors take no negative values -/
def NonnegPriors (ms : List (String × TM K)) : Prop :=
  ∀ q ∈ ms, ∀ g ps, createHyperGrid q.2 [] = .ok g → g.priors = some ps → ∀ p ∈ ps, 0 ≤ p

end Spec
