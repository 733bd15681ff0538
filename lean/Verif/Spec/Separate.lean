import Verif.Model.Fit
import Mathlib.Data.Fin.Tuple.Basic

/-! # Two groups of parameters that have nothing to do with each other (specification for C77) -/

set_option linter.unusedSectionVars false

namespace Spec
open BL

variable {K : Type} [Field K] [LinearOrder K] {d₁ d₂ : ℕ} {gs : Fin (d₁ + d₂) → ℕ}

/-- grid of the first group of parameters -/
abbrev gs₁ (gs : Fin (d₁ + d₂) → ℕ) : Fin d₁ → ℕ := fun a => gs (Fin.castAdd d₂ a)

/-- grid of the second group of parameters -/
abbrev gs₂ (gs : Fin (d₁ + d₂) → ℕ) : Fin d₂ → ℕ := fun b => gs (Fin.natAdd d₁ b)

/-- values of the parameters of the first group -/
def first (z : Idx gs) : Idx (gs₁ gs) := fun a => z (Fin.castAdd d₂ a)

/-- values of the parameters of the second group -/
def second (z : Idx gs) : Idx (gs₂ gs) := fun b => z (Fin.natAdd d₁ b)

/-- product of a function of the first group and a function of the second group -/
def times (p : Idx (gs₁ gs) → K) (q : Idx (gs₂ gs) → K) : Idx gs → K := fun z => p (first z) * q (second z)

/-- A study of both groups and studies of the groups: the same names and lattice constants. -/
structure EnvSeparate (E : Env K gs) (E₁ : Env K (gs₁ gs)) (E₂ : Env K (gs₂ gs)) : Prop where
  names₁ : ∀ a, E₁.names a = E.names (Fin.castAdd d₂ a)
  names₂ : ∀ b, E₂.names b = E.names (Fin.natAdd d₁ b)
  distinct : Function.Injective E.names
  lattice₁ : ∀ a, E₁.lattice a = E.lattice (Fin.castAdd d₂ a)
  lattice₂ : ∀ b, E₂.lattice b = E.lattice (Fin.natAdd d₁ b)
  gaussR₁ : E₁.ext.gaussR = E.ext.gaussR
  gaussR₂ : E₂.ext.gaussR = E.ext.gaussR
  gaussW₁ : E₁.ext.gaussW = E.ext.gaussW
  gaussW₂ : E₂.ext.gaussW = E.ext.gaussW

/-- independent priors of the two groups: flat, given by functions (which are normalised by the study) or by random variables -/
inductive PriorSeparate : PriorSpec K gs → PriorSpec K (gs₁ gs) → PriorSpec K (gs₂ gs) → Prop
  | flat : PriorSeparate .none .none .none
  | func (p : Idx (gs₁ gs) → K) (q : Idx (gs₂ gs) → K) (hp : ∑ x, p x ≠ 1) (hq : ∑ y, q y ≠ 1) (h : (∑ x, p x) * ∑ y, q y ≠ 1) : PriorSeparate (.func (times p q)) (.func p) (.func q)
  | rvs (p : Idx (gs₁ gs) → K) (q : Idx (gs₂ gs) → K) : PriorSeparate (.rvs (d₁ + d₂) true (times p q)) (.rvs d₁ true p) (.rvs d₂ true q)

/-- elementary models of two groups: a random walk concerns one of them, change-points and Independent both -/
inductive LeafSeparate : Leaf K → List (HVal K) → Leaf K → List (HVal K) → Leaf K → List (HVal K) → Prop
  | static (v v₁ v₂ : List (HVal K)) : LeafSeparate .static v .static v₁ .static v₂
  | walk₁ (n : String) (v w : List (HVal K)) : LeafSeparate (.grw n) v (.grw n) v .static w
  | walk₂ (n : String) (v w : List (HVal K)) : LeafSeparate (.grw n) v .static w (.grw n) v
  | changePoint (v : List (HVal K)) : LeafSeparate .changePoint v .changePoint v .changePoint v
  | independent (v v₁ v₂ : List (HVal K)) : LeafSeparate .independent v .independent v₁ .independent v₂

mutual
/-- `tm` describes the dynamics `tm₁` of the first group and, independently, the dynamics `tm₂` of the second group.  The groups have change-points and break-points in common. -/
def Apart : TM K → TM K → TM K → Prop
  | .leaf k _ v _, .leaf k₁ _ v₁ _, .leaf k₂ _ v₂ _ => LeafSeparate k v k₁ v₁ k₂ v₂
  | .combined ms, .combined ms₁, .combined ms₂ => ApartAll ms ms₁ ms₂
  | .serial _ v _ mask ms, .serial _ v₁ _ mask₁ ms₁, .serial _ v₂ _ mask₂ ms₂ => v₁ = v ∧ v₂ = v ∧ mask₁ = mask ∧ mask₂ = mask ∧ ApartAll ms ms₁ ms₂
  | _, _, _ => False
/-- the same for all members of a list -/
def ApartAll : List (TM K) → List (TM K) → List (TM K) → Prop
  | [], [], [] => True
  | m :: ms, m₁ :: ms₁, m₂ :: ms₂ => Apart m m₁ m₂ ∧ ApartAll ms ms₁ ms₂
  | _, _, _ => False
end

end Spec
