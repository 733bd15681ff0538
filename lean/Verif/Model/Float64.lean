import Verif.Model.Rounding

/-!
# `Study.fit` with numbers of type `float64` (core.py 354-486)

Model/Rounding.lean describes rounding errors by their size and leaves out underflow.  Here the numbers are those of numpy's type `float64` (IEEE 754, binary64), with a smallest positive number, and every
operation returns a number of this type that is nearest to the exact result.  Results beyond the largest number (`inf`) and undefined results (`nan`) are not described: a run is a sequence of finite
intermediate results.
-/

namespace BL

variable {K : Type} [Field K] [LinearOrder K] {d : ℕ} {gs : Fin d → ℕ}

/-- The finite numbers of type `float64`: 53 binary digits, exponents from -1074 to 971. -/
def float64 (K : Type) [Field K] : Set K := {x | ∃ m e : ℤ, |m| < 2 ^ 53 ∧ -1074 ≤ e ∧ e ≤ 971 ∧ x = m * 2 ^ e}

/-- The smallest number with full precision, `2^-1022` (`np.finfo(float).tiny`). -/
def tiny64 (K : Type) [Field K] : K := 1 / 2 ^ 1022

/-- Half of the distance of one to the next number, `2^-53`: the relative error of a rounded number with full precision. -/
def u64 (K : Type) [Field K] : K := 1 / 2 ^ 53

/-- `b` is the result of an arithmetic operation with exact result `a`: nearest number of type `float64` (any of the two, if there are two), if `a` is not beyond the largest number. -/
def Fl (a b : K) : Prop := b ∈ float64 K ∧ (∀ c ∈ float64 K, |b - a| ≤ |c - a|) ∧ |a| ≤ (2 ^ 53 - 1) * 2 ^ 971

/-- `np.sum`: the numbers are added in some order and grouping. -/
inductive FSum : Multiset K → K → Prop
  | single (a : K) : FSum {a} a
  | add {l l' : Multiset K} {s s' r : K} : FSum l s → FSum l' s' → Fl (s + s') r → FSum (l + l') r

/-- `np.sum` of an array on the parameter grid -/
def FSumGrid (p : Idx gs → K) (s : K) : Prop := FSum (Finset.univ.val.map p) s

/-- Result `b` of an elementary transition with exact result `a`: accurate to `e` roundings if `a` is at least `low`; a smaller result may be wrong, but it is not negative, and zero stays zero.
Simplification: scipy's filter is not modelled operation by operation; `e` and `low` are parameters. -/
structure FAcc (e : ℕ) (low a b : K) : Prop where
  mem : b ∈ float64 K
  nonneg : 0 ≤ b
  zero : a = 0 → b = 0
  acc : low ≤ a → Acc (u64 K) e a b

mutual
/-- `computeForwardPrior` with numbers of type `float64`, see `TM.rounded`; `Static` returns its argument (transitionModels.py 60). -/
def TM.floated (E : Env K gs) (e : ℕ) (low : K) : TM K → (Idx gs → K) → K → (Idx gs → K) → Prop
  | .leaf .static _ _ _, p, _, q => q = p
  | .leaf k _ vals _, p, t, q => ∃ r, leafFwd E 0 k vals (some p) t = .ok (some r) ∧ ∀ x, FAcc e low (r x) (q x)
  | .combined ms, p, t, q => TM.floatedAll E e low ms p t q
  | .serial _ vals _ mask ms, p, t, q => ∃ vs q', scalars vals = .ok vs ∧ TM.floatedNth E e low ms (modelIndex vs t) p t q' ∧
      if cpIn vs mask t then ∃ r, E.resetCell = some r ∧ ∀ x, FAcc e low (r x) (q x) else q = q'
/-- sub-models of a combination -/
def TM.floatedAll (E : Env K gs) (e : ℕ) (low : K) : List (TM K) → (Idx gs → K) → K → (Idx gs → K) → Prop
  | [], p, _, q => q = p
  | m :: ms, p, t, q => ∃ q', TM.floated E e low m p t q' ∧ TM.floatedAll E e low ms q' t q
/-- active sub-model of a serial model -/
def TM.floatedNth (E : Env K gs) (e : ℕ) (low : K) : List (TM K) → ℕ → (Idx gs → K) → K → (Idx gs → K) → Prop
  | [], _, _, _, _ => False
  | m :: _, 0, p, t, q => TM.floated E e low m p t q
  | _ :: ms, i + 1, p, t, q => TM.floatedNth E e low ms i p t q
end

/-- Forward loop, core.py 372-411: `alpha *= likelihood` (382), `norm = np.sum(alpha)` (385), `alpha /= norm` (389), transition (411).  The last argument tells whether the loop was left early (400). -/
inductive FFwd (E : Env K gs) (tm : TM K) (e : ℕ) (low : K) : (Idx gs → K) → List (Idx gs → K) → List K → List (Step K gs) → Bool → Prop
  | done (a : Idx gs → K) (ts : List K) : FFwd E tm e low a [] ts [] false
  | stop {a a' : Idx gs → K} {L : Idx gs → K} {Ls : List (Idx gs → K)} {ts : List K} {norm : K} :
      (∀ x, Fl (a x * L x) (a' x)) → FSumGrid a' norm → ¬ 0 < norm → FFwd E tm e low a (L :: Ls) ts [] true
  | step {a a' α b : Idx gs → K} {L : Idx gs → K} {Ls : List (Idx gs → K)} {t : K} {ts : List K} {norm : K} {ss : List (Step K gs)} {stopped : Bool} :
      (∀ x, Fl (a x * L x) (a' x)) → FSumGrid a' norm → 0 < norm → (∀ x, Fl (a' x / norm) (α x)) → tm.floated E e low α t b →
      FFwd E tm e low b Ls ts ss stopped → FFwd E tm e low a (L :: Ls) (t :: ts) (⟨α, norm, L, t⟩ :: ss) stopped

/-- Backward loop, core.py 424-470, as far as the posterior distributions are concerned and as long as it is not left early, see `RBwd`. -/
inductive FBwd (E : Env K gs) (tm : TM K) (e : ℕ) (low : K) : List (Step K gs) → List (Idx gs → K) → (Idx gs → K) → Prop
  | start {β : Idx gs → K} {s : K} : FSumGrid (fun _ : Idx gs => (1 : K)) s → (∀ x, Fl (1 / s) (β x)) → FBwd E tm e low [] [] β
  | step {β q post l b β' : Idx gs → K} {s : Step K gs} {ss : List (Step K gs)} {posts : List (Idx gs → K)} {norm norm' : K} :
      FBwd E tm e low ss posts β → (∀ x, Fl (s.alpha x * β x) (q x)) → FSumGrid q norm → 0 < norm → (∀ x, Fl (q x / norm) (post x)) →
      (∀ x, Fl (β x * s.lik x) (l x)) → tm.floated E e low l (s.t - 1) b → FSumGrid b norm' → 0 < norm' → (∀ x, Fl (b x / norm') (β' x)) →
      FBwd E tm e low (s :: ss) (post :: posts) β'

/-- Posterior distributions and normalisation constants of a complete run: forward-only or full. -/
def FFit (E : Env K gs) (tm : TM K) (e : ℕ) (low : K) (a : Idx gs → K) (liks : List (Idx gs → K)) (ts : List K) (forwardOnly : Bool) (posts : List (Idx gs → K)) (norms : List K) : Prop :=
  ∃ ss, FFwd E tm e low a liks ts ss false ∧ norms = ss.map Step.norm ∧ if forwardOnly then posts = ss.map Step.alpha else ∃ β, FBwd E tm e low ss posts β

end BL
