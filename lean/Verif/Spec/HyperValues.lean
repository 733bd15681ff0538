import Verif.Props.C28

/-! # Specification: the values a hyper-study ranges over -/

namespace Spec
open BL
variable {K : Type}

mutual
/-- Two transition models of the same make: the same kinds of models with the same names, nested in the same way.  The values entered for the
hyper-parameters, and the hyper-priors, may be different. -/
inductive Alike : TM K → TM K → Prop
  | leaf (k : Leaf K) (names : List String) (vals vals' : List (HVal K)) (pr pr' : Option (Nest (HPrior K))) : vals.length = vals'.length →
      Alike (.leaf k names vals pr) (.leaf k names vals' pr')
  | combined {ms ms' : List (TM K)} : AlikeAll ms ms' → Alike (.combined ms) (.combined ms')
  | serial (names : List String) (vals vals' : List (HVal K)) (pr pr' : List (Nest (HPrior K))) (mask : List Bool) {ms ms' : List (TM K)} :
      vals.length = vals'.length → AlikeAll ms ms' → Alike (.serial names vals pr mask ms) (.serial names vals' pr' mask ms')
/-- sub-model by sub-model -/
inductive AlikeAll : List (TM K) → List (TM K) → Prop
  | nil : AlikeAll [] []
  | cons {m m' : TM K} {ms ms' : List (TM K)} : Alike m m' → AlikeAll ms ms' → AlikeAll (m :: ms) (m' :: ms')
end

/-- For every hyper-parameter, in the order of the model: the values it can take, each with its prior probability. -/
def options [Field K] [LinearOrder K] (tm : TM K) (ts : List K) : List (List (K × K)) :=
  List.zipWith List.zip (axes tm ts) (weightsAll tm ts ((axes tm ts).map hyperConst))

/-- what remains if everything that has probability zero is dropped -/
def possible {α : Type} [Field K] [DecidableEq K] (l : List (α × K)) : List (α × K) := l.filter fun q => q.2 ≠ 0

/-- Two hyper-studies with the same hyper-parameters whose values have the same probabilities: the order in which the values are listed, and values of
probability zero, may be different. -/
def SameOptions [Field K] [LinearOrder K] (tm tm' : TM K) (ts : List K) : Prop :=
  List.Forall₂ (fun o o' => (possible o).Perm (possible o')) (options tm ts) (options tm' ts)

end Spec
