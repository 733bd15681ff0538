import Verif.Model.Fit
import Verif.Model.HyperStudy
import Verif.Model.Online

/-!
# Integers and floating-point numbers

Numpy arrays have an element type.  An operation in place (`a /= x`, `a *= b`) writes its result into the existing array; if the array
holds integers and the result is a floating-point number, numpy raises a `UFuncTypeError` (a subclass of `TypeError`) before changing
anything.  The other model files leave the element types away; here the functions of the package that change *user-supplied* values in
place are modelled again with them.  The parameter grid is always converted to floats (core.py 153), `np.ones(...)` and `np.zeros(...)` are
arrays of floats, and arithmetic that involves a float array creates a float array.  Boolean arrays behave like integer arrays in this
respect.  Not modelled: `object` arrays, complex numbers, the size of integers.
-/

set_option linter.unusedSectionVars false

namespace BL

/-- Element type of a numpy array. -/
inductive NumType
  | int
  | float
  deriving DecidableEq, Repr

/-- Element type of the result of `a * b`. -/
def NumType.join : NumType → NumType → NumType
  | .int, .int => .int
  | _, _ => .float

/-- An operation in place on an array with elements of type `ty` whose result has type `res`: numpy's rule `casting='same_kind'`. -/
def inPlace (ty res : NumType) : Except PyErr Unit :=
  match ty, res with
  | .int, .float => .error .typeError
  | _, _ => .ok ()

variable {K : Type} [Field K] [LinearOrder K] {d : ℕ} {gs : Fin d → ℕ}

/-! ## Parameter priors

`ty` is the element type of the prior array, or of the array the prior function returns for the parameter grid. -/

/-- Reset distribution, transitionModels.py 303-311, 352-359, 804-812: `prior /= np.sum(prior)` is an operation in place on a copy of the
prior array, on the array a prior function returns, or on `np.ones(...)`.  A number returned by a function is not changed in place. -/
def Env.resetArrT (ty : NumType) (E : Env K gs) : Except PyErr (Arr K gs) :=
  match E.prior with
  | .func _ => do inPlace ty .float; .ok E.resetArr
  | .array _ => do inPlace ty .float; .ok E.resetArr
  | _ => .ok E.resetArr

/-- transitionModels.py 303-312, 804-813 -/
def Env.resetCellT (ty : NumType) (E : Env K gs) : Except PyErr (Arr K gs) := do
  let p ← E.resetArrT ty
  .ok (p.map fun p x => p x * E.cell)

/-- `computeForwardPrior` of the elementary models (see `leafFwd`).  ChangePoint: transitionModels.py 300-314, Independent: 351-360; the
other models do not use the prior, and their results are new arrays computed from the (floating-point) posterior. -/
def leafFwdT (ty : NumType) (E : Env K gs) (toff : K) (k : Leaf K) (vals : List (HVal K)) (p : Arr K gs) (t : K) :
    Except PyErr (Arr K gs) :=
  match k with
  | .changePoint => do
      if ← cpHit vals t then E.resetCellT ty else .ok p
  | .independent => E.resetArrT ty
  | k => leafFwd E toff k vals p t

/-- `computeBackwardPrior` of the elementary models (see `leafBwd`). -/
def leafBwdT (ty : NumType) (E : Env K gs) (toff : K) (k : Leaf K) (vals : List (HVal K)) (p : Arr K gs) (t : K) :
    Except PyErr (Arr K gs) :=
  match k with
  | .deterministic f target => leafBwd E toff (.deterministic f target) vals p t
  | k => leafFwdT ty E toff k vals p (t - 1)

/-- `_forwardChangePointCheck`, transitionModels.py 788-815. -/
def cpCheckT (ty : NumType) (E : Env K gs) (vs : List K) (mask : List Bool) (p : Arr K gs) (t : K) : Except PyErr (Arr K gs) :=
  if cpIn vs mask t then E.resetCellT ty else .ok p

mutual
/-- `computeForwardPrior` (see `TM.fwd`): Combined, transitionModels.py 643-651; Serial, 767-775. -/
def TM.fwdT (ty : NumType) (E : Env K gs) (toff : K) : TM K → Arr K gs → K → Except PyErr (Arr K gs)
  | .leaf k _ vals _, p, t => leafFwdT ty E toff k vals p t
  | .combined ms, p, t => TM.fwdAllT ty E toff ms p t
  | .serial _ vals _ mask ms, p, t => do
      let vs ← scalars vals
      let i := modelIndex vs t
      let q ← TM.fwdNthT ty E (breakOffset vs i) ms i p t
      cpCheckT ty E vs mask q t
/-- loop over the sub-models, transitionModels.py 645-649 -/
def TM.fwdAllT (ty : NumType) (E : Env K gs) (toff : K) : List (TM K) → Arr K gs → K → Except PyErr (Arr K gs)
  | [], p, _ => .ok p
  | m :: ms, p, t => do
      let q ← TM.fwdT ty E toff m p t
      TM.fwdAllT ty E toff ms q t
/-- `self.models[modelIndex].computeForwardPrior(posterior, t)`, transitionModels.py 773 -/
def TM.fwdNthT (ty : NumType) (E : Env K gs) (toff : K) : List (TM K) → ℕ → Arr K gs → K → Except PyErr (Arr K gs)
  | [], _, _, _ => .error .indexError
  | m :: _, 0, p, t => TM.fwdT ty E toff m p t
  | _ :: ms, i + 1, p, t => TM.fwdNthT ty E toff ms i p t
end

mutual
/-- `computeBackwardPrior` (see `TM.bwd`): Combined, transitionModels.py 653-662; Serial, 777-786. -/
def TM.bwdT (ty : NumType) (E : Env K gs) (toff : K) : TM K → Arr K gs → K → Except PyErr (Arr K gs)
  | .leaf k _ vals _, p, t => leafBwdT ty E toff k vals p t
  | .combined ms, p, t => TM.bwdAllT ty E toff ms p t
  | .serial _ vals _ mask ms, p, t => do
      let vs ← scalars vals
      let i := modelIndex vs (t - 1)
      let q ← TM.bwdNthT ty E (breakOffset vs i) ms i p t
      cpCheckT ty E vs mask q (t - 1)
/-- loop over the sub-models, transitionModels.py 656-660 -/
def TM.bwdAllT (ty : NumType) (E : Env K gs) (toff : K) : List (TM K) → Arr K gs → K → Except PyErr (Arr K gs)
  | [], p, _ => .ok p
  | m :: ms, p, t => do
      let q ← TM.bwdT ty E toff m p t
      TM.bwdAllT ty E toff ms q t
/-- `self.models[modelIndex].computeBackwardPrior(posterior, t)`, transitionModels.py 784 -/
def TM.bwdNthT (ty : NumType) (E : Env K gs) (toff : K) : List (TM K) → ℕ → Arr K gs → K → Except PyErr (Arr K gs)
  | [], _, _, _ => .error .indexError
  | m :: _, 0, p, t => TM.bwdT ty E toff m p t
  | _ :: ms, i + 1, p, t => TM.bwdNthT ty E toff ms i p t
end

/-- `_computePrior`, core.py 184-265 (see `computePrior`), with the element type of the returned array.  Only a prior *array* is changed in
place and returned itself (208-219); the values of a function are multiplied with `np.ones(gridSize)` first (225). -/
def computePriorT (ty : NumType) (E : Env K gs) : Except PyErr (Arr K gs × PriorSpec K gs × NumType) :=
  match E.prior with
  | .array (some a) => do
      if ∑ x, a x ≠ 1 then inPlace ty .float                           -- 212
      let r ← computePrior E
      .ok (r.1, r.2, ty)
  | _ => do
      let r ← computePrior E
      .ok (r.1, r.2, .float)

/-- Forward loop, core.py 372-411 (see `fwdPass`).  `lty` is the element type of the likelihood arrays (float for all built-in observation
models; a user-defined `NumPy` model may return integers), `aty` that of `alpha`.  After the first division `alpha` is an array of floats. -/
def fwdPassT (ty lty : NumType) (E : Env K gs) (tm : TM K) :
    NumType → Bool → PriorSpec K gs → Arr K gs → List (Idx gs → K) → List K → Except PyErr (FwdOut K gs)
  | _, _, pr, _, [], _ => .ok ⟨[], false, pr⟩
  | _, _, pr, none, _ :: _, _ => .ok ⟨[], true, pr⟩
  | aty, al, pr, some a, L :: Ls, ts => do
      inPlace aty (aty.join lty)                                -- 382: `alpha *= likelihood`
      let a' : Idx gs → K := fun x => a x * L x
      let norm := ∑ x, a' x                                     -- 385
      if 0 < norm then                                          -- 388
        inPlace aty .float                                      -- 389: `alpha /= norm`
        let α : Idx gs → K := fun x => a' x / norm
        let pr' := if al then PriorSpec.array (some α) else pr
        match ts with
        | [] => .error .indexError
        | t :: ts' => do
            let nx ← tm.fwdT ty { E with prior := pr' } 0 (some α) t    -- 411
            let r ← fwdPassT ty lty E tm .float (al && tm.returnsArg t) pr' nx Ls ts'
            .ok { r with steps := ⟨α, norm, L, t⟩ :: r.steps }
      else .ok ⟨[], true, if al then PriorSpec.array (some a') else pr⟩

/-- Backward loop, core.py 424-470 (see `bwdPass`): `beta` and `posterior` are arrays of floats; only the resets inside the transition model
depend on the element type of the prior. -/
def bwdPassT (ty : NumType) (E : Env K gs) (tm : TM K) : List (Step K gs) → Except PyErr (BwdOut K gs)
  | [] => .ok ⟨[], [], (normalize fun _ => 1), false⟩
  | s :: rest => do
      let o ← bwdPassT ty E tm rest
      let fwdLocal := Cell.val (s.norm * E.cell)
      if o.stopped then
        .ok { o with posts := .val s.alpha :: o.posts, locals := fwdLocal :: o.locals }
      else match o.beta with
        | none =>
            .ok { o with posts := .nan :: o.posts, locals := fwdLocal :: o.locals, stopped := true }
        | some b =>
            let q : Idx gs → K := fun x => s.alpha x * b x
            let norm := ∑ x, q x
            if 0 < norm then
              let post : Idx gs → K := fun x => q x / norm
              do
              let nb ← tm.bwdT ty E 0 (some fun x => b x * s.lik x) s.t
              .ok ⟨.val post :: o.posts, localEv E post s.lik :: o.locals, nb.bind normalize, false⟩
            else
              .ok { o with posts := .val q :: o.posts, locals := fwdLocal :: o.locals, stopped := true }

/-- `fit`, core.py 330-486 (see `fit`), with element types of the prior (`ty`) and the likelihoods (`lty`). -/
def fitT (ty lty : NumType) (E : Env K gs) (grid : (a : Fin d) → Fin (gs a) → K) (tm : TM K)
    (liks : List (Idx gs → K)) (ts : List K) (forwardOnly evidenceOnly : Bool) (S : FitState K gs) :
    Except PyErr (FitState K gs) := do
  let (a0, pr0, aty) ← computePriorT ty { E with prior := S.prior }
  let f ← fwdPassT ty lty E tm aty pr0.isArray pr0 a0 liks ts
  let fwdLocals := f.steps.map fun s => Cell.val (s.norm * E.cell)
  let pad {α : Type} (l : List (Cell α)) : List (Cell α) :=
    l ++ List.replicate (liks.length - l.length) Cell.uninit
  let fwdPosts := f.steps.map fun s => Cell.val s.alpha
  if f.stopped then
    .ok { S with
      prior := f.prior
      posts := if evidenceOnly then S.posts else pad fwdPosts
      locals := pad fwdLocals
      logEv := LogV.ninf }
  else
    let le := sumLog E f.steps
    if evidenceOnly then
      .ok { S with prior := f.prior, locals := fwdLocals, logEv := le, means := fun _ => [] }
    else if forwardOnly then
      .ok { prior := f.prior, posts := fwdPosts, locals := fwdLocals, logEv := le,
            means := fun a => f.steps.map fun s => mean grid a s.alpha }
    else do
      let b ← bwdPassT ty { E with prior := f.prior } tm f.steps
      if b.stopped then
        .ok { S with prior := f.prior, posts := b.posts, locals := b.locals, logEv := LogV.ninf }
      else
        .ok { prior := f.prior, posts := b.posts, locals := b.locals, logEv := le,
              means := fun a => b.posts.filterMap fun c => c.get?.map (mean grid a) }

/-! ## Priors of hyper-parameters and of transition models -/

/-- How the values of a hyper-prior are given: a Python list (of any numbers), or a numpy array / function values of one type. -/
inductive Given
  | list
  | nums (ty : NumType)
  deriving DecidableEq, Repr

/-- Prior values of one hyper-parameter, core.py 1187-1232 (see `hyperPriorAxis`).  Values of a function are put into an array that holds
integers if all values are integers (1195); any exception there is turned into a `ConfigurationError` (1199-1201).  For a Python list, `/=`
creates a new array of floats; for a numpy array it works in place (1212). -/
def hyperPriorAxisT (g : Given) (pr : HPrior K) (v : HVal K) (vals : List K) (c : K) : Except PyErr (Option (List K)) :=
  match pr with
  | .func f => match v with
      | .scalar _ => .error .configuration
      | _ => match g with
        | .nums .int => .error .configuration
        | _ => .ok (normPrior (vals.map f) c)
  | .arr l => match v with
      | .scalar _ => .error .typeError
      | _ => if l.length ≠ vals.length then .error .configuration else match g with
        | .list => .ok (normPrior l c)
        | .nums ty => do inPlace ty .float; .ok (normPrior l c)
  | pr => hyperPriorAxis pr v vals c

/-- the loop core.py 1183-1234 (see `priorAxes`) -/
def priorAxesT (how : List Given) (prs : List (HPrior K)) (flat : List (HVal K)) (axes : List (List K)) (hgc : List K)
    (names : List String) : Except PyErr (List (Option (List K))) :=
  mapE (fun q : Given × HPrior K × HVal K × List K × K × String => hyperPriorAxisT q.1 q.2.1 q.2.2.1 q.2.2.2.1 q.2.2.2.2.1)
    (how.zip (prs.zip (flat.zip (axes.zip (hgc.zip names)))))

/-- `_createHyperGrid`, core.py 1142-1245 (see `createHyperGrid`); `how` says for every hyper-prior in which form it is given. -/
def createHyperGridT (how : List Given) (tm : TM K) (ts : List K) : Except PyErr (HyperGrid K) := do
  let flat := tm.flatValues.map (expandAll ts)
  let names := tm.flatNames
  let axes ← mapE axisValues flat
  let hgc := axes.map hyperConst
  let pa ← priorAxesT how tm.flatPriors flat axes hgc names
  if names.length > 0 then
    if pa.isEmpty then .error .valueError
    else .ok ⟨flat, names, cart axes, hgc, (allSome pa).map fun l => (cart l).map List.prod⟩
  else .ok ⟨flat, names, [], hgc, some [1]⟩

/-- `setTransitionModelPrior`, core.py 2040-2060 (see `OState.setTMPrior`): `np.array(transitionModelPrior)` holds integers if all given
numbers are integers (`ty`); it is stored (2053) before it is divided in place (2057). -/
def OState.setTMPriorT {D : Type} (ty : NumType) (S : OState K D gs) (p : List K) : OState K D gs × Option PyErr :=
  if p.length ≠ S.models.length then (S, some .configuration)
  else if p.sum = 1 then ({ S with tmPrior := some p }, none)
  else match inPlace ty .float with
    | .error e => ({ S with tmPrior := some p }, some e)
    | .ok _ => S.setTMPrior p

end BL
