import Verif.Spec.Retime

/-! # Specification: parts of a transition model that have no effect -/

namespace Spec
open BL

variable {K : Type} [Field K] [LinearOrder K] {d : ℕ} {gs : Fin d → ℕ}

/-- `Idle E P m m'`: at the times `P`, the model `m` differs from `m'` only in parts that have no effect there: a change-point at another time; a random walk of width zero; a serial model that stays
in one segment.  This may happen at any depth of the nesting, several times and in both directions. -/
inductive Idle (E : Env K gs) (P : K → Prop) : TM K → TM K → Prop
  /-- a change-point at a time that does not occur -/
  | changePoint (name : String) (v : K) (pr pr' : Option (Nest (HPrior K))) : ¬ P v → Idle E P (.leaf .changePoint [name] [.scalar v] pr) (.leaf .static [] [] pr')
  /-- a random walk of an existing parameter with width zero -/
  | walk (target name : String) (pr pr' : Option (Nest (HPrior K))) : (∃ a, E.names a = target) →
      Idle E P (.leaf (.grw target) [name] [.scalar 0] pr) (.leaf .static [] [] pr')
  /-- a serial model of which only the sub-model with number `i` is used: at all times `i` of the change-points and break-points lie in the past, and none is now -/
  | segment (names : List String) (vs : List K) (pr : List (Nest (HPrior K))) (mask : List Bool) (ms : List (TM K)) (i : ℕ) (m : TM K) :
      (∀ t, P t → (vs.filter (· ≤ t)).length = i ∧ t ∉ vs) → ms[i]? = some m → NoClock m → Idle E P (.serial names (vs.map .scalar) pr mask ms) m
  | refl (m : TM K) : Idle E P m m
  | symm {m m' : TM K} : Idle E P m m' → Idle E P m' m
  | trans {m m' m'' : TM K} : Idle E P m m' → Idle E P m' m'' → Idle E P m m''
  | inCombined (l r : List (TM K)) {m m' : TM K} : Idle E P m m' → Idle E P (.combined (l ++ m :: r)) (.combined (l ++ m' :: r))
  | inSerial (names : List String) (vs : List (HVal K)) (pr : List (Nest (HPrior K))) (mask : List Bool) (l r : List (TM K)) {m m' : TM K} :
      Idle E P m m' → Idle E P (.serial names vs pr mask (l ++ m :: r)) (.serial names vs pr mask (l ++ m' :: r))

end Spec
