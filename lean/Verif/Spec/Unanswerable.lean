import Verif.Spec.Parser

/-! # Specification: parameters in a query which have no meaning -/

set_option linter.unusedSectionVars false

namespace Spec
open BL
variable {K : Type} [Field K] [LinearOrder K]

/-- The study has several transition models whose hyper-parameter distributions change in time (an online study). -/
def Moving (s : PStudy K) : Prop := ∃ ms hist cur, s.hyper = .online ms hist cur

/-- A parameter `r` of a query (with the time step behind `@`, if any) which has no meaning for the studies `ss` and the time argument `t`:
* `unknown`: no study has a parameter or hyper-parameter of that name;
* `noTime`: the study has a distribution for each time step and no time step is given;
* `noTimeHyper`: the same for a hyper-parameter which changes in time;
* `wrongTime`: the time step behind `@` is not among the time stamps of the study;
* `fixed`: a time step behind `@` for a hyper-parameter which has a single distribution: it does not change in time, or its history is not stored, or the time argument of the query has already selected one. -/
inductive Unanswerable (ss : List (PStudy K)) (t : Option K) : String × Option K → Prop
  | unknown {name : String} {τ : Option K} : (∀ s ∈ ss, name ∉ s.names ∧ name ∉ s.hyper.names) → Unanswerable ss t (name, τ)
  | noTime {s : PStudy K} {name : String} : t = none → s ∈ ss → s.store = true → name ∈ s.names → Unanswerable ss t (name, none)
  | noTimeHyper {s : PStudy K} {name : String} : t = none → s ∈ ss → s.store = true → Moving s → name ∈ s.hyper.names → Unanswerable ss t (name, none)
  | wrongTime {s : PStudy K} {name : String} {τ : K} : s ∈ ss → (name ∈ s.names ∨ name ∈ s.hyper.names) → τ ∉ s.ts → Unanswerable ss t (name, some τ)
  | fixed {s : PStudy K} {name : String} {τ : K} : s ∈ ss → name ∈ s.hyper.names → (t ≠ none ∨ s.store = false ∨ ¬ Moving s) → Unanswerable ss t (name, some τ)

end Spec
