import Mathlib.Algebra.BigOperators.Fin
import Mathlib.Data.Fintype.BigOperators
import Mathlib.Algebra.Field.Basic

/-!
# Specification: hidden-path model (no reference to the implementation)

A parameter path assigns one grid point to every data segment `0..n`.  Its weight is
initial probability × transition probabilities × likelihoods.
-/

namespace Spec

variable {ι K : Type} [Fintype ι] [DecidableEq ι] [Field K]

/-- weight of one parameter path -/
def pathWeight {n : ℕ} (π : ι → K) (T : Fin n → ι → ι → K) (L : Fin (n + 1) → ι → K)
    (z : Fin (n + 1) → ι) : K :=
  π (z 0) * (∏ i : Fin n, T i (z i.castSucc) (z i.succ)) * ∏ i, L i (z i)

/-- marginal likelihood: sum over all paths -/
def evidence {n : ℕ} (π : ι → K) (T : Fin n → ι → ι → K) (L : Fin (n + 1) → ι → K) : K :=
  ∑ z : Fin (n + 1) → ι, pathWeight π T L z

/-- total weight of the paths that visit `x` at time `i` -/
def marginal {n : ℕ} (π : ι → K) (T : Fin n → ι → ι → K) (L : Fin (n + 1) → ι → K)
    (i : Fin (n + 1)) (x : ι) : K :=
  ∑ z : Fin (n + 1) → ι with z i = x, pathWeight π T L z

/-- conditional probability of `x` at time `i` given all data -/
def posterior {n : ℕ} (π : ι → K) (T : Fin n → ι → ι → K) (L : Fin (n + 1) → ι → K)
    (i : Fin (n + 1)) (x : ι) : K :=
  marginal π T L i x / evidence π T L

/-- conditional probability of `x` at the last time step, given the data (filtering) -/
def filtering {n : ℕ} (π : ι → K) (T : Fin n → ι → ι → K) (L : Fin (n + 1) → ι → K) (x : ι) : K :=
  posterior π T L (Fin.last n) x

/-- restriction of a sequence to the time steps `0..i` -/
def upTo {α : Type} {n : ℕ} (i : Fin (n + 1)) (f : Fin (n + 1) → α) : Fin (i.val + 1) → α :=
  fun j => f (Fin.castLE i.isLt j)

end Spec
