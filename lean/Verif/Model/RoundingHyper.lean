import Verif.Model.Rounding
import Mathlib.Analysis.SpecialFunctions.Log.Basic

/-!
# Averaging of `HyperStudy.fit` in floating-point arithmetic (core.py 1291-1410)

The averages of a hyper-study are computed in log-space.  As in Model/Rounding.lean, a run of the program is any sequence of intermediate results with the stated accuracy.  A log-space number is
`none` for `-inf` and a real number otherwise.  Operations on log-space numbers (`np.log`, `np.logaddexp`, sums) have an error of at most `κ (1 + |result|)`; `np.exp` and quotients have a relative error
of at most `κ`, or an absolute error of at most `τ` if the result is so small that it underflows.  For `float64`, `κ` is a small multiple of `2^-53` and `τ = 2^-1022`.
-/

namespace BL

variable {d : ℕ} {gs : Fin d → ℕ}

/-- `b` is the floating-point result of an operation on log-space numbers with exact result `a`. -/
def Near (κ a b : ℝ) : Prop := |b - a| ≤ κ * (1 + |a|)

/-- `b` is the floating-point result of an operation with exact non-negative result `a`; underflow is possible. -/
def RTiny (κ τ a b : ℝ) : Prop := 0 ≤ b ∧ |b - a| ≤ κ * a + τ

/-- One summand of the average, core.py 1358-1366 (1481-1489 in `_parallelFit`): nothing is added if the log-evidence `le` is not finite; posterior values below `ε` (`10.**-300`) are replaced by `ε`;
`np.log(posterior) + logEvidence + np.log(flatHyperPriorValues[i])`; a combination with prior `0` contributes `-inf`. -/
def RAvgTerm (κ ε p hp : ℝ) : Option ℝ → Option ℝ → Prop
  | none, r => r = none
  | some le, r => if hp = 0 then r = none else
      ∃ a b c l, Near κ (Real.log (max ε p)) a ∧ Near κ (a + le) b ∧ Near κ (Real.log hp) c ∧ Near κ (b + c) l ∧ r = some l

/-- Repeated `np.logaddexp`, beginning with `-inf` (core.py 1298, 1338-1340, 1362): the terms are combined in some order and grouping (`nJobs` processes form partial averages); `-inf` is neutral. -/
inductive RLogAdd (κ : ℝ) : Multiset (Option ℝ) → Option ℝ → Prop
  | start : RLogAdd κ 0 none
  | single (a : Option ℝ) : RLogAdd κ {a} a
  | left {l l' : Multiset (Option ℝ)} {r : Option ℝ} : RLogAdd κ l none → RLogAdd κ l' r → RLogAdd κ (l + l') r
  | right {l l' : Multiset (Option ℝ)} {r : Option ℝ} : RLogAdd κ l r → RLogAdd κ l' none → RLogAdd κ (l + l') r
  | add {l l' : Multiset (Option ℝ)} {s s' r : ℝ} : RLogAdd κ l (some s) → RLogAdd κ l' (some s') → Near κ (Real.log (Real.exp s + Real.exp s')) r → RLogAdd κ (l + l') (some r)

/-- `np.exp(l - m)` for a log-space number: core.py 1373-1374, 1396-1397 -/
def RShift (κ τ m : ℝ) : Option ℝ → ℝ → Prop
  | none, v => v = 0
  | some a, v => ∃ D, Near κ (a - m) D ∧ RTiny κ τ (Real.exp D) v

/-- The common part of core.py 1373-1382 (average posterior at one time step) and 1396-1398 (hyper-parameter distribution): `v = np.exp(l - m)`, `s = np.sum(v)`, `q = v/s`. -/
structure RSoft (κ τ m : ℝ) {ι : Type} [Fintype ι] (l : ι → Option ℝ) (v : ι → ℝ) (s : ℝ) (q : ι → ℝ) : Prop where
  shift : ∀ x, RShift κ τ m (l x) (v x)
  sum : RSum κ (Finset.univ.val.map v) s
  quot : ∀ x, RTiny κ τ (v x / s) (q x)

/-- Average posterior sequence, core.py 1291-1382, from the computed single posteriors `post i t x`, log-evidences `le i` and prior values `hp i` of `n` combinations: log-space averages `lg`, their
maximum `m` over all time steps and grid points (`np.amax`), shifted values `v`, sums `s`, result `q`. -/
structure RAverage (κ τ ε : ℝ) (n T : ℕ) (post : Fin n → ℕ → Idx gs → ℝ) (le : Fin n → Option ℝ) (hp : Fin n → ℝ)
    (lg : ℕ → Idx gs → Option ℝ) (m : ℝ) (v : ℕ → Idx gs → ℝ) (s : ℕ → ℝ) (q : ℕ → Idx gs → ℝ) : Prop where
  log : ∀ t < T, ∀ x, ∃ term : Fin n → Option ℝ, (∀ i, RAvgTerm κ ε (post i t x) (hp i) (le i) (term i)) ∧ RLogAdd κ (Finset.univ.val.map term) (lg t x)
  max : IsGreatest {y | ∃ t < T, ∃ x, lg t x = some y} m
  soft : ∀ t < T, RSoft κ τ m (lg t) (v t) (s t) (q t)

/-- One entry of `logEvidenceList + np.log(flatHyperPriorValues) + np.sum(np.log(hyperGridConstant))`, core.py 1391-1392; `lc` is the computed sum of the logarithms of the grid constants. -/
def RLogHyper (κ lc hp : ℝ) : Option ℝ → Option ℝ → Prop
  | none, r => r = none
  | some le, r => if hp = 0 then r = none else ∃ a b l, Near κ (Real.log hp) a ∧ Near κ (le + a) b ∧ Near κ (b + lc) l ∧ r = some l

/-- Hyper-parameter distribution, core.py 1391-1399, and log-evidence of the average model (`logsumexp`, 1405: `np.log(np.sum(np.exp(a - amax))) + amax`): entries `l` in log-space, maximum `m`, shifted
values `v`, sum `s`, probabilities `q`, density `D`, log-evidence `L` (from scipy's own shifted values and their sum).  `c` is the computed product of the grid constants. -/
structure RHyper (κ τ : ℝ) (n : ℕ) (le : Fin n → Option ℝ) (hp : Fin n → ℝ) (lc c : ℝ) (l : Fin n → Option ℝ) (m : ℝ) (v : Fin n → ℝ) (s : ℝ) (q D : Fin n → ℝ) (L : ℝ) : Prop where
  log : ∀ i, RLogHyper κ lc (hp i) (le i) (l i)
  max : IsGreatest {y | ∃ i, l i = some y} m
  soft : RSoft κ τ m l v s q
  dens : ∀ i, RTiny κ τ (q i / c) (D i)
  lse : ∃ (v' : Fin n → ℝ) (s' a : ℝ), (∀ i, RShift κ τ m (l i) (v' i)) ∧ RSum κ (Finset.univ.val.map v') s' ∧ Near κ (Real.log s') a ∧ Near κ (a + m) L

/-- `Study.fit` for one combination (core.py 1353) in floating-point arithmetic, see Model/Rounding.lean: computed posterior distributions (`post t` at time index `t`), normalisation constants and
log-evidence; `none` if the forward loop was left early (line 399). -/
inductive RStudy (E : Env ℝ gs) (tm : TM ℝ) (u : ℝ) (e : ℕ) (a : Idx gs → ℝ) (liks : List (Idx gs → ℝ)) (ts : List ℝ) (forwardOnly : Bool) (c : ℝ) : (ℕ → Idx gs → ℝ) → List ℝ → Option ℝ → Prop
  | stop {post : ℕ → Idx gs → ℝ} {steps : List (Step ℝ gs)} {norms : List ℝ} : RFwd E tm u e a liks ts steps true → RStudy E tm u e a liks ts forwardOnly c post norms none
  | run {post : ℕ → Idx gs → ℝ} {posts : List (Idx gs → ℝ)} {norms : List ℝ} {l : ℝ} : RFit E tm u e a liks ts forwardOnly posts norms → RLogEv Real.log u norms c l →
      (∀ t p, posts[t]? = some p → post t = p) → RStudy E tm u e a liks ts forwardOnly c post norms (some l)

end BL
