import Verif.Model.Fit

/-!
# `Study.fit` in floating-point arithmetic (core.py 354-486)

The other files compute with exact numbers.  Here the loops of `fit` are described with rounding errors: every arithmetic operation may return any number whose relative error is at most `u` (the standard
model of floating-point arithmetic, without underflow and overflow; `u = 2^-53` for numpy's `float64`).  A run of the program is any sequence of intermediate results with this property, so that the
description covers all rounding modes and all orders of summation (numpy sums in blocks).
-/

namespace BL

variable {K : Type} [Field K] [LinearOrder K] {d : ℕ} {gs : Fin d → ℕ}

/-- `b` is the floating-point result of an operation with exact result `a`. -/
def Rounded (u a b : K) : Prop := |b - a| ≤ u * |a|

/-- `np.sum`: the numbers are added in some order and grouping, each addition is rounded. -/
inductive RSum (u : K) : Multiset K → K → Prop
  | single (a : K) : RSum u {a} a
  | add {l l' : Multiset K} {s s' r : K} : RSum u l s → RSum u l' s' → Rounded u (s + s') r → RSum u (l + l') r

/-- `np.sum` of an array on the parameter grid -/
def RSumGrid (u : K) (p : Idx gs → K) (s : K) : Prop := RSum u (Finset.univ.val.map p) s

/-- Equal up to `N` roundings with relative error `u`: the ratio of the two non-negative numbers lies between `(1-u)^N` and `1/(1-u)^N`. -/
structure Acc (u : K) (N : ℕ) (a b : K) : Prop where
  left : 0 ≤ a
  right : 0 ≤ b
  lower : (1 - u) ^ N * a ≤ b
  upper : (1 - u) ^ N * b ≤ a

mutual
/-- `computeForwardPrior` in floating-point arithmetic: the elementary models (a call of `gaussian_filter1d`, transitionModels.py 111; computation of the reset distribution, 302-312, 351-359, 803-813)
are computed with the accuracy of `e` roundings in every component; models without effect return the array.  Combined: transitionModels.py 643-651.  Serial: 767-775.
Simplification: scipy's filter is not modelled operation by operation, its accuracy `e` is a parameter. -/
def TM.rounded (E : Env K gs) (u : K) (e : ℕ) : TM K → (Idx gs → K) → K → (Idx gs → K) → Prop
  | .leaf k _ vals _, p, t, q => ∃ r, leafFwd E 0 k vals (some p) t = .ok (some r) ∧ ∀ x, Acc u e (r x) (q x)
  | .combined ms, p, t, q => TM.roundedAll E u e ms p t q
  | .serial _ vals _ mask ms, p, t, q => ∃ vs q', scalars vals = .ok vs ∧ TM.roundedNth E u e ms (modelIndex vs t) p t q' ∧
      if cpIn vs mask t then ∃ r, E.resetCell = some r ∧ ∀ x, Acc u e (r x) (q x) else q = q'
/-- sub-models of a combination -/
def TM.roundedAll (E : Env K gs) (u : K) (e : ℕ) : List (TM K) → (Idx gs → K) → K → (Idx gs → K) → Prop
  | [], p, _, q => q = p
  | m :: ms, p, t, q => ∃ q', TM.rounded E u e m p t q' ∧ TM.roundedAll E u e ms q' t q
/-- active sub-model of a serial model -/
def TM.roundedNth (E : Env K gs) (u : K) (e : ℕ) : List (TM K) → ℕ → (Idx gs → K) → K → (Idx gs → K) → Prop
  | [], _, _, _, _ => False
  | m :: _, 0, p, t, q => TM.rounded E u e m p t q
  | _ :: ms, i + 1, p, t, q => TM.roundedNth E u e ms i p t q
end

/-- Forward loop, core.py 372-411, in floating-point arithmetic: `alpha *= likelihood` (382), `norm = np.sum(alpha)` (385), `alpha /= norm` (389), transition (411).  The last argument tells whether the
loop was left early (400). -/
inductive RFwd (E : Env K gs) (tm : TM K) (u : K) (e : ℕ) : (Idx gs → K) → List (Idx gs → K) → List K → List (Step K gs) → Bool → Prop
  | done (a : Idx gs → K) (ts : List K) : RFwd E tm u e a [] ts [] false
  | stop {a a' : Idx gs → K} {L : Idx gs → K} {Ls : List (Idx gs → K)} {ts : List K} {norm : K} :
      (∀ x, Rounded u (a x * L x) (a' x)) → RSumGrid u a' norm → ¬ 0 < norm → RFwd E tm u e a (L :: Ls) ts [] true
  | step {a a' α b : Idx gs → K} {L : Idx gs → K} {Ls : List (Idx gs → K)} {t : K} {ts : List K} {norm : K} {ss : List (Step K gs)} {stopped : Bool} :
      (∀ x, Rounded u (a x * L x) (a' x)) → RSumGrid u a' norm → 0 < norm → (∀ x, Rounded u (a' x / norm) (α x)) → tm.rounded E u e α t b →
      RFwd E tm u e b Ls ts ss stopped → RFwd E tm u e a (L :: Ls) (t :: ts) (⟨α, norm, L, t⟩ :: ss) stopped

/-- Backward loop, core.py 424-470, in floating-point arithmetic, as far as the posterior distributions are concerned and as long as it is not left early: `beta = np.ones; beta /= np.sum(beta)` (424-425),
`posterior *= beta` (436), `posterior /= np.sum(posterior)` (439-441), `beta*likelihood` and transition (467; all models considered here call the forward transition for `t - 1`), `beta /= np.sum(beta)` (470). -/
inductive RBwd (E : Env K gs) (tm : TM K) (u : K) (e : ℕ) : List (Step K gs) → List (Idx gs → K) → (Idx gs → K) → Prop
  | start {β : Idx gs → K} {s : K} : RSumGrid u (fun _ : Idx gs => (1 : K)) s → (∀ x, Rounded u (1 / s) (β x)) → RBwd E tm u e [] [] β
  | step {β q post l b β' : Idx gs → K} {s : Step K gs} {ss : List (Step K gs)} {posts : List (Idx gs → K)} {norm norm' : K} :
      RBwd E tm u e ss posts β → (∀ x, Rounded u (s.alpha x * β x) (q x)) → RSumGrid u q norm → 0 < norm → (∀ x, Rounded u (q x / norm) (post x)) →
      (∀ x, Rounded u (β x * s.lik x) (l x)) → tm.rounded E u e l (s.t - 1) b → RSumGrid u b norm' → (∀ x, Rounded u (b x / norm') (β' x)) →
      RBwd E tm u e (s :: ss) (post :: posts) β'

/-- Posterior distributions and normalisation constants of a complete run: forward-only or full. -/
def RFit (E : Env K gs) (tm : TM K) (u : K) (e : ℕ) (a : Idx gs → K) (liks : List (Idx gs → K)) (ts : List K) (forwardOnly : Bool) (posts : List (Idx gs → K)) (norms : List K) : Prop :=
  ∃ ss, RFwd E tm u e a liks ts ss false ∧ norms = ss.map Step.norm ∧ if forwardOnly then posts = ss.map Step.alpha else ∃ β, RBwd E tm u e ss posts β

/-- `np.sum(p*self.grid[i])`, core.py 483, in floating-point arithmetic -/
def RMean (u : K) (grid : (a : Fin d) → Fin (gs a) → K) (a : Fin d) (p : Idx gs → K) (m : K) : Prop :=
  ∃ q : Idx gs → K, (∀ x, Rounded u (p x * grid a (x a)) (q x)) ∧ RSumGrid u q m

/-- `logEvidence += np.log(norm)` for all time steps (core.py 403), `logEvidence += np.log(np.prod(latticeConstant))` (417), in floating-point arithmetic; `c` is the computed product of the lattice
constants, `log` the logarithm. -/
def RLogEv (log : K → K) (u : K) (norms : List K) (c l : K) : Prop :=
  ∃ ls : List K, List.Forall₂ (fun n x => Rounded u (log n) x) (norms ++ [c]) ls ∧ RSum u ↑ls l

end BL
