import Verif.Model.TM
import Mathlib.Order.Interval.Finset.Defs
import Mathlib.Data.Int.Interval
import Mathlib.Data.Finset.Max

/-!
# `computeForwardPrior` / `computeBackwardPrior` of all transition models (transitionModels.py)
-/

namespace BL

variable {K : Type} [Field K] [LinearOrder K] {d : ℕ} {gs : Fin d → ℕ}

/-- The attribute `observationModel.prior`, evaluated on the current parameter grid
(core.py 196-265; transitionModels.py 302-307, 351-356, 803-808). -/
inductive PriorSpec (K : Type) {d : ℕ} (gs : Fin d → ℕ)
  /-- `None` -/
  | none
  /-- numpy array with the shape of the grid (current content) -/
  | array (a : Arr K gs)
  /-- numpy array of another shape -/
  | badArray
  /-- callable; `v` = its values on the grid -/
  | func (v : Idx gs → K)
  /-- callable that returns a scalar, like `lambda x: 1.` -/
  | funcConst (c : K)
  /-- `n` sympy random variables; `ok`: all are random variables without free symbols;
  `v` = product density on the grid -/
  | rvs (n : ℕ) (ok : Bool) (v : Idx gs → K)

/-- External numerical functions. -/
structure Ext (K : Type) {d : ℕ} (gs : Fin d → ℕ) where
  /-- `10.**x` -/
  pow10 : K → K
  /-- radius of the kernel that `scipy.ndimage.gaussian_filter1d` uses for a given sigma -/
  gaussR : K → ℕ
  /-- weights of that kernel (index 0 is the centre) -/
  gaussW : K → ℤ → K
  /-- `scipy.ndimage.shift(p, d, order=3, mode='nearest')` along one axis -/
  shift : Fin d → K → (Idx gs → K) → (Idx gs → K)
  /-- alpha-stable kernel `createKernel(c, alpha)` (transitionModels.py 196-235), centred -/
  stableKer : K → K → ℤ → K
  /-- bivariate Gaussian kernel `createKernel(s1, s2, rho)` (transitionModels.py 899-911), centred -/
  bivKer : K → K → K → ℤ → ℤ → K

/-- What the transition models see of the study: parameter names, lattice constants, prior and the
external functions.  `study.latticeConstant` and `self.latticeConstant` are the same list
(core.py 173, 282; modelled in Model/Config.lean). -/
structure Env (K : Type) {d : ℕ} (gs : Fin d → ℕ) where
  names : Fin d → String
  lattice : Fin d → K
  prior : PriorSpec K gs
  ext : Ext K gs

/-- `np.prod(latticeConstant)` -/
def Env.cell (E : Env K gs) : K := ∏ a, E.lattice a

/-- `parameterNames.index(target)`: first position, `ValueError` if absent
(transitionModels.py 107, 177, 560, 585). -/
def Env.axis (E : Env K gs) (target : String) : Except PyErr (Fin d) :=
  match (List.finRange d).find? (fun a => E.names a = target) with
  | some a => .ok a
  | none => .error .valueError

/-- Index reflection of scipy's boundary mode `reflect` (d c b a | a b c d | d c b a):
element of the extended array at position `i + k`. -/
def reflIdx (n : ℕ) (i : Fin n) (k : ℤ) : Fin n :=
  let m := (((i : ℕ) : ℤ) + k) % (2 * n)
  if h : m < n then ⟨m.toNat, by have := i.pos; omega⟩
  else ⟨(2 * n - 1 - m).toNat, by
    have := i.pos
    have h1 : m < 2 * n := Int.emod_lt_of_pos _ (by omega)
    omega⟩

/-- `gaussian_filter1d(p, sigma, axis=a)`: correlation with the (reversed) weights, boundary mode
`reflect` (scipy default).  transitionModels.py 111. -/
def filterAxis (r : ℕ) (w : ℤ → K) (a : Fin d) (p : Idx gs → K) : Idx gs → K :=
  fun x => ∑ k ∈ Finset.Icc (-(r : ℤ)) r, w (-k) * p (Function.update x a (reflIdx (gs a) (x a) k))

/-- The "reset" distribution before multiplication with the lattice constants:
transitionModels.py 302-310, 351-359, 803-811.  A scalar-valued callable gives the scalar
`c / np.sum(c) = 1.0`, which numpy broadcasts in all later uses. -/
def Env.resetArr (E : Env K gs) : Arr K gs :=
  match E.prior with
  | .func v => normalize v
  | .funcConst c => if c = 0 then none else some fun _ => 1
  | .array a => a.bind normalize
  | _ => normalize fun _ => 1

/-- transitionModels.py 302-312 / 803-813: reset distribution times product of lattice constants. -/
def Env.resetCell (E : Env K gs) : Arr K gs :=
  E.resetArr.map fun p x => p x * E.cell

/-- `np.amax`; `none` for an empty array. -/
def amax (p : Idx gs → K) : Option K := (Finset.univ.image p).max

/-- `a[a < limit] = limit` -/
def floorAt (limit : K) (p : Idx gs → K) : Idx gs → K := fun x => if p x < limit then limit else p x

/-- The number stored as `i`-th hyper-parameter.  An array with one element acts like this number in the arithmetic of GaussianRandomWalk,
AlphaStableRandomWalk, RegimeSwitch and NotEqual (transitionModels.py 107-110, 171-185, 409-411, 462-467).  Longer arrays, `None` and `'all'` cannot be used in the
arithmetic of the compute functions; simplification: all these failures are `TypeError`. -/
def scalarAt (vals : List (HVal K)) (i : ℕ) : Except PyErr K :=
  match (vals[i]? : Option (HVal K)) with
  | some (.scalar v) => .ok v
  | some (.array [v]) => .ok v
  | some _ => .error .typeError
  | none => .error .indexError

/-- The same for BivariateRandomWalk, whose covariance matrix (transitionModels.py 900-901) cannot be built from arrays of any length; simplification: `TypeError`. -/
def numberAt (vals : List (HVal K)) (i : ℕ) : Except PyErr K :=
  match (vals[i]? : Option (HVal K)) with
  | some (.scalar v) => .ok v
  | some _ => .error .typeError
  | none => .error .indexError

/-- Convolution with a centred kernel, zero outside the grid, result cropped to the grid
(`convolve2d(..., mode='same')`, transitionModels.py 892, and the padded `fftconvolve`
of 237-260). -/
def convSame (ker : (Fin d → ℤ) → K) (p : Idx gs → K) : Idx gs → K :=
  fun y => ∑ x, p x * ker (fun a => ((y a : ℕ) : ℤ) - ((x a : ℕ) : ℤ))

/-- `computeForwardPrior` of GaussianRandomWalk, transitionModels.py 96-115. -/
def grwFwd (E : Env K gs) (target : String) (vals : List (HVal K)) (p : Arr K gs) :
    Except PyErr (Arr K gs) := do
  let a ← E.axis target
  let σ ← scalarAt vals 0
  if E.lattice a = 0 then
    -- sigma / 0.0 is inf (kernel radius overflows), nan or -inf (comparison is False)
    if 0 < σ then .error .overflow else .ok p
  else
    let s := σ / E.lattice a
    if 0 < s then .ok (p.map (filterAxis (E.ext.gaussR s) (E.ext.gaussW s) a)) else .ok p

/-- `computeForwardPrior` of AlphaStableRandomWalk, transitionModels.py 158-191, 237-260
(kernel cache: see Model/Cache.lean).  The kernel along the other axis is the unit impulse
(`normedC = 0`).  On two-dimensional grids the kernels of the two axes have shapes `(3*g1, 2*(3*g0//2))` and `(2*(3*g1//2), 3*g0)` before they are
multiplied (225-235, 183-184), which raises a ValueError if one of the sizes is odd. -/
def alphaFwd (E : Env K gs) (target : String) (vals : List (HVal K)) (p : Arr K gs) :
    Except PyErr (Arr K gs) := do
  let c ← scalarAt vals 0
  let al ← scalarAt vals 1
  let a ← E.axis target
  if d = 1 ∨ (d = 2 ∧ ∀ b, gs b % 2 = 0) then
    if E.lattice a = 0 then .error .overflow else
    let ker : (Fin d → ℤ) → K := fun v =>
      if ∀ b, b ≠ a → v b = 0 then E.ext.stableKer (c / E.lattice a) al (v a) else 0
    .ok (p.bind fun q => normalize (convSame ker q))
  else if d = 2 then .error .valueError
  else .error .configuration

/-- `t == hyperParameterValues[0]`, transitionModels.py 300.  `None` and `'all'` compare unequal;
an array with more than one element has no truth value. -/
def cpHit (vals : List (HVal K)) (t : K) : Except PyErr Bool :=
  match (vals[0]? : Option (HVal K)) with
  | some (.scalar v) => .ok (decide (t = v))
  | some (.array [v]) => .ok (decide (t = v))
  | some (.array []) => .ok false
  | some (.array _) => .error .valueError
  | some .none => .ok false
  | some .all => .ok false
  | some (.pylist _) => .ok false                                -- not created by the constructor (276-277)
  | none => .error .indexError

/-- `computeForwardPrior` of RegimeSwitch, transitionModels.py 394-412. -/
def regimeFwd (E : Env K gs) (vals : List (HVal K)) (p : Arr K gs) : Except PyErr (Arr K gs) := do
  let v ← scalarAt vals 0
  .ok (p.bind fun q => normalize (floorAt (E.ext.pow10 v * E.cell) q))

/-- `computeForwardPrior` of NotEqual, transitionModels.py 450-471. -/
def notEqualFwd (E : Env K gs) (vals : List (HVal K)) (p : Arr K gs) : Except PyErr (Arr K gs) := do
  let v ← scalarAt vals 0
  match p with
  | none => .ok none
  | some q =>
    match amax q with
    | none => .error .valueError
    | some m => .ok ((normalize fun x => m - q x).bind fun q' =>
        normalize (floorAt (E.ext.pow10 v * E.cell) q'))

/-- Deterministic: shift by `d / latticeConstant` along the target axis and re-normalise,
transitionModels.py 568-581 and 593-606. -/
def detShift (E : Env K gs) (a : Fin d) (dist : K) (p : Arr K gs) : Except PyErr (Arr K gs) :=
  if E.lattice a = 0 then .error .overflow
  else .ok (p.bind fun q => normalize (E.ext.shift a (dist / E.lattice a) q))

/-- All hyper-parameter values as scalars (SerialTransitionModel, Deterministic).  Simplification: arrays with one element, whose effect there depends on the versions of numpy
and scipy and on the user's function, are a `TypeError` as well. -/
def scalars : List (HVal K) → Except PyErr (List K)
  | [] => .ok []
  | .scalar v :: l => do .ok (v :: (← scalars l))
  | _ :: _ => .error .typeError

/-- `f(t1 - tOffset) - f(t0 - tOffset)` with the hyper-parameters as keyword arguments,
transitionModels.py 563-566 (forward, `t1 = t+1`) and 588-591 (backward, `t1 = t-1`). -/
def detDist (f : K → List K → K) (vs : List K) (toff t0 t1 : K) : K :=
  f (t1 - toff) vs - f (t0 - toff) vs

/-- `computeForwardPrior` of BivariateRandomWalk, transitionModels.py 872-894.  `multivariate_normal` (901) refuses a covariance matrix that is not positive definite
(simplification: always ValueError, also for negative widths). -/
def bivFwd (E : Env K gs) (vals : List (HVal K)) (p : Arr K gs) : Except PyErr (Arr K gs) := do
  let s1 ← numberAt vals 0
  let s2 ← numberAt vals 1
  let rho ← numberAt vals 2
  if h : d = 2 then
    let a0 : Fin d := ⟨0, by omega⟩
    let a1 : Fin d := ⟨1, by omega⟩
    if E.lattice a0 = 0 ∨ E.lattice a1 = 0 then .error .overflow else
    if s1 ≤ 0 ∨ s2 ≤ 0 ∨ 1 ≤ rho * rho then .error .valueError else
    let ker : (Fin d → ℤ) → K := fun v =>
      E.ext.bivKer (s1 / E.lattice a0) (s2 / E.lattice a1) rho (v a0) (v a1)
    .ok (p.bind fun q => normalize (convSame ker q))
  else .error .valueError

/-- `computeForwardPrior` of the elementary models. -/
def leafFwd (E : Env K gs) (toff : K) (k : Leaf K) (vals : List (HVal K)) (p : Arr K gs) (t : K) :
    Except PyErr (Arr K gs) :=
  match k with
  | .static => .ok p                                             -- 60
  | .grw target => grwFwd E target vals p
  | .alphaStable target => alphaFwd E target vals p
  | .changePoint => do                                           -- 300-314
      if ← cpHit vals t then .ok E.resetCell else .ok p
  | .independent => .ok E.resetArr                               -- 351-360
  | .regimeSwitch => regimeFwd E vals p
  | .notEqual => notEqualFwd E vals p
  | .deterministic f target => do                                -- 560-581
      let a ← E.axis target
      let vs ← scalars vals
      detShift E a (detDist f vs toff t (t + 1)) p
  | .bivariate => bivFwd E vals p
  | .breakPoint => .error .attributeError                        -- class has no such method

/-- `computeBackwardPrior` of the elementary models: Deterministic has its own version
(transitionModels.py 583-606), all others call `computeForwardPrior(posterior, t - 1)`
(63, 118, 194, 317, 363, 415, 474, 897). -/
def leafBwd (E : Env K gs) (toff : K) (k : Leaf K) (vals : List (HVal K)) (p : Arr K gs) (t : K) :
    Except PyErr (Arr K gs) :=
  match k with
  | .deterministic f target => do
      let a ← E.axis target
      let vs ← scalars vals
      detShift E a (detDist f vs toff t (t - 1)) p
  | k => leafFwd E toff k vals p (t - 1)

/-- `t in np.array(hyperParameterValues)[changePointMask]`, transitionModels.py 801. -/
def cpIn (vs : List K) (mask : List Bool) (t : K) : Bool :=
  (vs.zip mask).any fun vm => vm.2 && decide (vm.1 = t)

/-- `_forwardChangePointCheck`, transitionModels.py 788-815. -/
def cpCheck (E : Env K gs) (vs : List K) (mask : List Bool) (p : Arr K gs) (t : K) : Arr K gs :=
  if cpIn vs mask t then E.resetCell else p

/-- `modelIndex = np.sum(np.array(hyperParameterValues) <= t)`, transitionModels.py 768, 779. -/
def modelIndex (vs : List K) (t : K) : ℕ := vs.countP (fun v => decide (v ≤ t))

/-- `hyperParameterValues[modelIndex-1] if modelIndex > 0 else 0`, transitionModels.py 772, 783. -/
def breakOffset (vs : List K) (i : ℕ) : K :=
  match i with
  | 0 => 0
  | i + 1 => (vs[i]?).getD 0

mutual
/-- `computeForwardPrior`; `toff` is the attribute `tOffset` of the model.
Combined: transitionModels.py 643-651.  Serial: 767-775. -/
def TM.fwd (E : Env K gs) (toff : K) : TM K → Arr K gs → K → Except PyErr (Arr K gs)
  | .leaf k _ vals _, p, t => leafFwd E toff k vals p t
  | .combined ms, p, t => TM.fwdAll E toff ms p t
  | .serial _ vals _ mask ms, p, t => do
      let vs ← scalars vals
      let i := modelIndex vs t
      let q ← TM.fwdNth E (breakOffset vs i) ms i p t
      .ok (cpCheck E vs mask q t)
/-- loop over the sub-models, transitionModels.py 645-649 -/
def TM.fwdAll (E : Env K gs) (toff : K) : List (TM K) → Arr K gs → K → Except PyErr (Arr K gs)
  | [], p, _ => .ok p
  | m :: ms, p, t => do
      let q ← TM.fwd E toff m p t
      TM.fwdAll E toff ms q t
/-- `self.models[modelIndex].computeForwardPrior(posterior, t)`, transitionModels.py 773 -/
def TM.fwdNth (E : Env K gs) (toff : K) : List (TM K) → ℕ → Arr K gs → K → Except PyErr (Arr K gs)
  | [], _, _, _ => .error .indexError
  | m :: _, 0, p, t => TM.fwd E toff m p t
  | _ :: ms, i + 1, p, t => TM.fwdNth E toff ms i p t
end

mutual
/-- `computeBackwardPrior`.  Combined: transitionModels.py 653-662 (same order of sub-models as in the
forward direction).  Serial: 777-786. -/
def TM.bwd (E : Env K gs) (toff : K) : TM K → Arr K gs → K → Except PyErr (Arr K gs)
  | .leaf k _ vals _, p, t => leafBwd E toff k vals p t
  | .combined ms, p, t => TM.bwdAll E toff ms p t
  | .serial _ vals _ mask ms, p, t => do
      let vs ← scalars vals
      let i := modelIndex vs (t - 1)
      let q ← TM.bwdNth E (breakOffset vs i) ms i p t
      .ok (cpCheck E vs mask q (t - 1))
/-- loop over the sub-models, transitionModels.py 656-660 -/
def TM.bwdAll (E : Env K gs) (toff : K) : List (TM K) → Arr K gs → K → Except PyErr (Arr K gs)
  | [], p, _ => .ok p
  | m :: ms, p, t => do
      let q ← TM.bwd E toff m p t
      TM.bwdAll E toff ms q t
/-- `self.models[modelIndex].computeBackwardPrior(posterior, t)`, transitionModels.py 784 -/
def TM.bwdNth (E : Env K gs) (toff : K) : List (TM K) → ℕ → Arr K gs → K → Except PyErr (Arr K gs)
  | [], _, _, _ => .error .indexError
  | m :: _, 0, p, t => TM.bwd E toff m p t
  | _ :: ms, i + 1, p, t => TM.bwdNth E toff ms i p t
end

/-- Does `computeForwardPrior` return its argument object itself (and not a new array)?
Static: transitionModels.py 60; ChangePoint: 314; Serial: 773-775, 815 (depends on the
active sub-model); every other model creates a new array (`copy`, arithmetic, filter); Combined copies
first (643). -/
def leafReturnsArg (k : Leaf K) (vals : List (HVal K)) (t : K) : Bool :=
  match k with
  | .static => true
  | .changePoint => match cpHit vals t with
      | .ok b => !b
      | .error _ => false
  | _ => false

mutual
/-- see `leafReturnsArg` -/
def TM.returnsArg : TM K → K → Bool
  | .leaf k _ vals _, t => leafReturnsArg k vals t
  | .combined _, _ => false
  | .serial _ vals _ mask ms, t =>
      match scalars vals with
      | .ok vs => TM.returnsArgNth ms (modelIndex vs t) t && !cpIn vs mask t
      | .error _ => false
/-- active sub-model -/
def TM.returnsArgNth : List (TM K) → ℕ → K → Bool
  | [], _, _ => false
  | m :: _, 0, t => TM.returnsArg m t
  | _ :: ms, i + 1, t => TM.returnsArgNth ms i t
end

end BL
