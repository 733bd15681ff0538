import Verif.Spec.Kernel

/-!
# Specification: which transition models are "linear", which contain resets
-/

namespace Spec
open BL

variable {K : Type} [Field K] [LinearOrder K] {d : ℕ} {gs : Fin d → ℕ}

mutual
/-- Well-formed models assembled from Static, GaussianRandomWalk, ChangePoint, Independent, Combined and Serial
(with scalar hyper-parameter values, existing target parameters and one more sub-model than
break times, as enforced by the constructor). -/
def Linear (E : Env K gs) : TM K → Prop
  | .leaf .static _ _ _ => True
  | .leaf (.grw target) _ vs _ => (∃ a, E.axis target = .ok a) ∧ ∃ σ, vs = [.scalar σ]
  | .leaf .changePoint _ vs _ => ∃ v, vs = [.scalar v]
  | .leaf .independent _ _ _ => True
  | .leaf _ _ _ _ => False
  | .combined ms => LinearAll E ms
  | .serial _ vs _ _ ms => (∀ v ∈ vs, ∃ c, v = .scalar c) ∧ ms.length = vs.length + 1 ∧ LinearAll E ms
/-- all members are linear -/
def LinearAll (E : Env K gs) : List (TM K) → Prop
  | [] => True
  | m :: ms => Linear E m ∧ LinearAll E ms
end

mutual
/-- No ChangePoint, no Independent, no change-point inside a serial model. -/
def ResetFree : TM K → Prop
  | .leaf .changePoint _ _ _ => False
  | .leaf .independent _ _ _ => False
  | .leaf _ _ _ _ => True
  | .combined ms => ResetFreeAll ms
  | .serial _ _ _ mask ms => true ∉ mask ∧ ResetFreeAll ms
/-- all members are reset-free -/
def ResetFreeAll : List (TM K) → Prop
  | [] => True
  | m :: ms => ResetFree m ∧ ResetFreeAll ms
end

/-- A reset assigns the distribution `ρ`, multiplied with a total mass `R`. -/
structure ResetOK (E : Env K gs) (R : K) (ρ : Idx gs → K) : Prop where
  eq : E.resetArr = some fun x => R * ρ x
  pos : 0 < R
  nonneg : ∀ x, 0 ≤ ρ x
  sum_one : ∑ x, ρ x = 1

mutual
/-- Total mass after the transition at time `t` of a distribution with total mass `s`: preserved by random walks,
set to `R` (Independent) or `R × cell volume` (change-points) by resets. -/
def massOut (E : Env K gs) (R : K) : TM K → K → K → K
  | .leaf .changePoint _ vs _, t, s => if t = val0 vs then R * ∏ a, E.lattice a else s
  | .leaf .independent _ _ _, _, _ => R
  | .leaf _ _ _ _, _, s => s
  | .combined ms, t, s => massOutAll E R ms t s
  | .serial _ vs _ mask ms, t, s =>
      if IsChange (vals vs) mask t then R * ∏ a, E.lattice a
      else massOutNth E R ms (breaksUpTo (vals vs) t) t s
/-- one after the other -/
def massOutAll (E : Env K gs) (R : K) : List (TM K) → K → K → K
  | [], _, s => s
  | m :: ms, t, s => massOutAll E R ms t (massOut E R m t s)
/-- only the `i`-th -/
def massOutNth (E : Env K gs) (R : K) : List (TM K) → ℕ → K → K → K
  | [], _, _, s => s
  | m :: _, 0, t, s => massOut E R m t s
  | _ :: ms, i + 1, t, s => massOutNth E R ms i t s
end

mutual
/-- No ChangePoint and no change-point inside a serial model (Independent is allowed). -/
def NoChangePoint : TM K → Prop
  | .leaf .changePoint _ _ _ => False
  | .leaf _ _ _ _ => True
  | .combined ms => NoChangePointAll ms
  | .serial _ _ _ mask ms => true ∉ mask ∧ NoChangePointAll ms
/-- all members are free of change-points -/
def NoChangePointAll : List (TM K) → Prop
  | [] => True
  | m :: ms => NoChangePoint m ∧ NoChangePointAll ms
end

mutual
/-- Built from Static, GaussianRandomWalk, Independent and Combined: the transition does not depend on time. -/
def TimeIndependent : TM K → Prop
  | .leaf .static _ _ _ => True
  | .leaf (.grw _) _ _ _ => True
  | .leaf .independent _ _ _ => True
  | .leaf _ _ _ _ => False
  | .combined ms => TimeIndependentAll ms
  | .serial _ _ _ _ _ => False
/-- all members are time-independent -/
def TimeIndependentAll : List (TM K) → Prop
  | [] => True
  | m :: ms => TimeIndependent m ∧ TimeIndependentAll ms
end

/-- A study with a proper parameter grid: positive lattice constants, at least one grid point, and a Gaussian
filter whose weights form a symmetric probability distribution. -/
structure Regular (E : Env K gs) : Prop where
  lattice_pos : ∀ a, 0 < E.lattice a
  nonempty : Nonempty (Idx gs)
  gauss : GaussOK E.ext

end Spec
