import Verif.Spec.Continuum
import Verif.Model.Config
import Verif.Model.Fit
import Verif.Model.RealExt

/-!
# Finer and finer parameter grids

The parameter values of the `n`-th study are made with `cint` (interval including its ends) or `oint` (without its ends), with more and more values.
-/

set_option linter.unusedSectionVars false

namespace Spec
open BL Filter Topology

variable {d : ℕ}

/-- Axis `k` of the `n`-th grid has `N n k` values, made with `cint(a, b, N)` (`closed`) or `oint(a, b, N)`; `lattice` is the spacing that the library stores for these values. -/
structure FinerGrids (closed : Fin d → Bool) (a b : Fin d → ℝ) (N : ℕ → Fin d → ℕ) (grid : (n : ℕ) → (k : Fin d) → Fin (N n k) → ℝ) (lattice : ℕ → Fin d → ℝ) : Prop where
  lt : ∀ k, a k < b k
  two : ∀ n k, 2 ≤ N n k
  more : ∀ k, Tendsto (fun n => N n k) atTop atTop
  values : ∀ n k, List.ofFn (grid n k) = if closed k then cint (a k) (b k) (N n k) else oint (a k) (b k) (N n k)
  spacing : ∀ n k, gridLoop (D := Unit) (fun _ _ => none) [] [(some (List.ofFn (grid n k)), "")] [] [] = (([List.ofFn (grid n k)], [lattice n k]), none)

variable {gs : Fin d → ℕ}

/-- parameter values of a grid point -/
def gridValue (grid : (k : Fin d) → Fin (gs k) → ℝ) (x : Idx gs) : Fin d → ℝ := fun k => grid k (x k)

/-- the prior on a grid -/
def UserPrior.onGrid (grid : (k : Fin d) → Fin (gs k) → ℝ) : UserPrior d → PriorSpec ℝ gs
  | .none => .none
  | .func π => .func fun x => π (gridValue grid x)
  | .randomVars π => .rvs d true fun x => π (gridValue grid x)

/-- the likelihoods on a grid -/
def likOn (grid : (k : Fin d) → Fin (gs k) → ℝ) (data : List (Dens d × ℝ)) : List (Idx gs → ℝ) := data.map fun D x => D.1 (gridValue grid x)

/-- a study on a grid -/
noncomputable def studyOn (names : Fin d → String) (U : UserPrior d) (grid : (k : Fin d) → Fin (gs k) → ℝ) (lattice : Fin d → ℝ) (l : ℕ) (shift : Fin d → ℝ → (Idx gs → ℝ) → (Idx gs → ℝ)) : Env ℝ gs :=
  ⟨names, lattice, U.onGrid grid, realExt l shift⟩

/-- Stored arrays, divided by the volume of a grid cell, converge uniformly to the densities. -/
def PostsTo {N : ℕ → Fin d → ℕ} (grid : (n : ℕ) → (k : Fin d) → Fin (N n k) → ℝ) (lattice : ℕ → Fin d → ℝ) (posts : (n : ℕ) → List (Cell (Idx (N n) → ℝ))) (ρs : List (Dens d)) : Prop :=
  (∀ᶠ n in atTop, (posts n).length = ρs.length) ∧
    ∀ (i : ℕ) (ρ : Dens d), ρs[i]? = some ρ → ∀ ε > 0, ∀ᶠ n in atTop, ∃ f : Idx (N n) → ℝ, (posts n)[i]? = some (Cell.val f) ∧ ∀ x, |f x / (∏ k, lattice n k) - ρ (gridValue (grid n) x)| ≤ ε

/-- Stored mean values converge to the mean values of the densities. -/
def MeansTo (a b : Fin d → ℝ) (means : (n : ℕ) → Fin d → List ℝ) (ρs : List (Dens d)) : Prop :=
  ∀ k, (∀ᶠ n in atTop, (means n k).length = ρs.length) ∧
    ∀ (i : ℕ) (ρ : Dens d), ρs[i]? = some ρ → ∀ ε > 0, ∀ᶠ n in atTop, ∃ m, (means n k)[i]? = some m ∧ |m - boxMass a b fun y => ρ y * y k| ≤ ε

end Spec
