import Verif.Model.Fit

/-!
# `Study.fit` with numpy arrays as objects that are changed in place

In Model/Fit.lean arrays are values; the only object with identity is the prior array of the user.  Here every array of the fit is an object in a heap, and every in-place operation
(`*=`, `/=`) of core.py 184-265, 330-486 and transitionModels.py 302-312, 351-360, 803-813 is a write to the heap.  The parameter grid `self.grid` consists of array objects, too.  They
are passed to the prior function of the user and to the likelihood function, and a prior function may return an array that exists already: one of its arguments (`lambda x: x`), or an array that the
user holds elsewhere.  Props/C113.lean shows when both models agree.

Simplifications: all arrays have the shape of the grid; if the fit ends with an exception, the content of the heap is not modelled.
-/

set_option linter.unusedSectionVars false

namespace BL

variable {K : Type} [Field K] [LinearOrder K] {d : ℕ} {gs : Fin d → ℕ}

/-- Array objects: `cells r` is the content of object `r`; the numbers from `next` on are not in use. -/
structure AHeap (K : Type) {d : ℕ} (gs : Fin d → ℕ) where
  cells : ℕ → Arr K gs
  next : ℕ

/-- creation of a new array -/
def AHeap.alloc (h : AHeap K gs) (a : Arr K gs) : AHeap K gs × ℕ := (⟨Function.update h.cells h.next a, h.next + 1⟩, h.next)

/-- in-place change of an array -/
def AHeap.write (h : AHeap K gs) (r : ℕ) (a : Arr K gs) : AHeap K gs := { h with cells := Function.update h.cells r a }

/-- The attribute `observationModel.prior` as an object (cf. `PriorSpec`). -/
inductive APrior (K : Type) {d : ℕ} (gs : Fin d → ℕ)
  /-- `None` -/
  | none
  /-- numpy array `r` with the shape of the grid -/
  | array (r : ℕ)
  /-- numpy array of another shape -/
  | badArray
  /-- callable that returns a new array, computed from the content of the grid arrays -/
  | func (v : (Fin d → Arr K gs) → Idx gs → K)
  /-- callable that returns a scalar -/
  | funcConst (c : K)
  /-- callable that returns its argument number `a`, like `lambda x: x` or `lambda x, y: y` -/
  | funcArg (a : Fin d)
  /-- callable that returns an array `r` which the user holds -/
  | funcHeld (r : ℕ)
  /-- sympy random variables, see `PriorSpec.rvs` -/
  | rvs (n : ℕ) (ok : Bool) (v : (Fin d → Arr K gs) → Idx gs → K)

/-- A study: parameter names, lattice constants and external functions are those of `E` (whose field `prior` is not used), `self.grid[a]` is the array `grid a`. -/
structure AWorld (K : Type) {d : ℕ} (gs : Fin d → ℕ) where
  E : Env K gs
  grid : Fin d → ℕ
  prior : APrior K gs

/-- the content of `self.grid` -/
def AWorld.gridVals (W : AWorld K gs) (h : AHeap K gs) : Fin d → Arr K gs := fun a => h.cells (W.grid a)

/-- the array that a callable prior returns, `prior(*self.grid)` -/
def AWorld.callPrior (W : AWorld K gs) (h : AHeap K gs) : Option (AHeap K gs × ℕ) :=
  match W.prior with
  | .func v => some (h.alloc (some (v (W.gridVals h))))
  | .funcConst c => some (h.alloc (some fun _ => c))
  | .funcArg a => some (h, W.grid a)
  | .funcHeld r => some (h, r)
  | _ => Option.none

/-- `a /= s` for `s = np.sum(a)`, e.g. core.py 212, 389; transitionModels.py 310 -/
def AHeap.normalizeAt (h : AHeap K gs) (r : ℕ) : AHeap K gs := h.write r ((h.cells r).bind normalize)

/-- core.py 210-213, 226-229: normalisation in place unless the sum is one; a nan array stays a nan array. -/
def AWorld.renorm (W : AWorld K gs) (h : AHeap K gs) (r : ℕ) : AHeap K gs :=
  match h.cells r with
  | none => h
  | some a =>
      if ∑ x, a x ≠ 1 then
        let h1 := h.normalizeAt r
        h1.write r ((h1.cells r).bind (divScalar · W.E.cell))
      else h

/-- `_computePrior`, core.py 184-265: the array that becomes `alpha`. -/
def AWorld.computePrior (W : AWorld K gs) (h : AHeap K gs) : Except PyErr (AHeap K gs × ℕ) :=
  match W.prior with
  | .none =>                                                                       -- 199-205
      let (h1, r) := h.alloc (some fun _ => 1)
      let h2 := h1.normalizeAt r
      .ok (h2.write r ((h2.cells r).bind (divScalar · W.E.cell)), r)
  | .array r => .ok (W.renorm h r, r)                                               -- 208-219
  | .badArray => .error .configuration                                             -- 221
  | .rvs n ok v =>                                                                 -- 238-265
      if n ≠ d then .error .configuration
      else if ok then .ok (h.alloc (some (v (W.gridVals h)))) else .error .configuration
  | _ =>                                                                           -- 224-235
      match W.callPrior h with
      | Option.none => .error .typeError                                           -- cannot happen
      | some (h1, r) =>
          let (h2, r2) := h1.alloc (h1.cells r)
          .ok (W.renorm h2 r2, r2)                                                 -- 225: `* np.ones(self.gridSize)` is a new array

/-- transitionModels.py 302-310, 351-359, 803-811: the array is the one which the prior function returns, a copy of the prior array (`deepcopy`), or a new array of ones; it is
normalised in place.  A scalar becomes `1.0`. -/
def AWorld.reset (W : AWorld K gs) (h : AHeap K gs) : AHeap K gs × ℕ :=
  match W.prior, W.callPrior h with
  | .funcConst c, _ => h.alloc (if c = 0 then Option.none else some fun _ => 1)
  | _, some (h1, r) => (h1.normalizeAt r, r)
  | .array r, _ => let (h1, r1) := h.alloc (h.cells r); (h1.normalizeAt r1, r1)
  | _, _ => let (h1, r1) := h.alloc (some fun _ => 1); (h1.normalizeAt r1, r1)

/-- transitionModels.py 311-312, 812-813: `prior *= np.prod(latticeConstant)` -/
def AWorld.resetCell (W : AWorld K gs) (h : AHeap K gs) : AHeap K gs × ℕ :=
  let (h1, r) := W.reset h
  (h1.write r ((h1.cells r).map fun p x => p x * W.E.cell), r)

/-- `computeForwardPrior` of the elementary models (cf. `leafFwd`); models other than the three listed create a new array. -/
def AWorld.leafFwd (W : AWorld K gs) (toff : K) (k : Leaf K) (vals : List (HVal K)) (h : AHeap K gs) (r : ℕ) (t : K) : Except PyErr (AHeap K gs × ℕ) :=
  match k with
  | .static => .ok (h, r)                                                          -- 60
  | .changePoint => do                                                             -- 300-314
      if ← cpHit vals t then .ok (W.resetCell h) else .ok (h, r)
  | .independent => .ok (W.reset h)                                                -- 351-360
  | k => do .ok (h.alloc (← BL.leafFwd W.E toff k vals (h.cells r) t))

/-- `computeBackwardPrior` of the elementary models (cf. `leafBwd`). -/
def AWorld.leafBwd (W : AWorld K gs) (toff : K) (k : Leaf K) (vals : List (HVal K)) (h : AHeap K gs) (r : ℕ) (t : K) : Except PyErr (AHeap K gs × ℕ) :=
  match k with
  | .deterministic f target => do .ok (h.alloc (← BL.leafBwd W.E toff (.deterministic f target) vals (h.cells r) t))
  | k => W.leafFwd toff k vals h r (t - 1)

/-- `_forwardChangePointCheck`, transitionModels.py 788-815. -/
def AWorld.cpCheck (W : AWorld K gs) (vs : List K) (mask : List Bool) (p : AHeap K gs × ℕ) (t : K) : AHeap K gs × ℕ :=
  if cpIn vs mask t then W.resetCell p.1 else p

mutual
/-- `computeForwardPrior` (cf. `TM.fwd`).  Combined: transitionModels.py 643-651, where 643 copies the array.  Serial: 767-775. -/
def AWorld.fwd (W : AWorld K gs) (toff : K) : TM K → AHeap K gs → ℕ → K → Except PyErr (AHeap K gs × ℕ)
  | .leaf k _ vals _, h, r, t => W.leafFwd toff k vals h r t
  | .combined ms, h, r, t => AWorld.fwdAll W toff ms (h.alloc (h.cells r)).1 (h.alloc (h.cells r)).2 t
  | .serial _ vals _ mask ms, h, r, t => do
      let vs ← scalars vals
      let i := modelIndex vs t
      let q ← AWorld.fwdNth W (breakOffset vs i) ms i h r t
      .ok (W.cpCheck vs mask q t)
/-- loop over the sub-models, transitionModels.py 645-649 -/
def AWorld.fwdAll (W : AWorld K gs) (toff : K) : List (TM K) → AHeap K gs → ℕ → K → Except PyErr (AHeap K gs × ℕ)
  | [], h, r, _ => .ok (h, r)
  | m :: ms, h, r, t => do
      let q ← AWorld.fwd W toff m h r t
      AWorld.fwdAll W toff ms q.1 q.2 t
/-- active sub-model, transitionModels.py 773 -/
def AWorld.fwdNth (W : AWorld K gs) (toff : K) : List (TM K) → ℕ → AHeap K gs → ℕ → K → Except PyErr (AHeap K gs × ℕ)
  | [], _, _, _, _ => .error .indexError
  | m :: _, 0, h, r, t => AWorld.fwd W toff m h r t
  | _ :: ms, i + 1, h, r, t => AWorld.fwdNth W toff ms i h r t
end

mutual
/-- `computeBackwardPrior` (cf. `TM.bwd`).  Combined: transitionModels.py 653-662, with a copy in 654.  Serial: 777-786. -/
def AWorld.bwd (W : AWorld K gs) (toff : K) : TM K → AHeap K gs → ℕ → K → Except PyErr (AHeap K gs × ℕ)
  | .leaf k _ vals _, h, r, t => W.leafBwd toff k vals h r t
  | .combined ms, h, r, t => AWorld.bwdAll W toff ms (h.alloc (h.cells r)).1 (h.alloc (h.cells r)).2 t
  | .serial _ vals _ mask ms, h, r, t => do
      let vs ← scalars vals
      let i := modelIndex vs (t - 1)
      let q ← AWorld.bwdNth W (breakOffset vs i) ms i h r t
      .ok (W.cpCheck vs mask q (t - 1))
/-- loop over the sub-models, transitionModels.py 656-660 -/
def AWorld.bwdAll (W : AWorld K gs) (toff : K) : List (TM K) → AHeap K gs → ℕ → K → Except PyErr (AHeap K gs × ℕ)
  | [], h, r, _ => .ok (h, r)
  | m :: ms, h, r, t => do
      let q ← AWorld.bwd W toff m h r t
      AWorld.bwdAll W toff ms q.1 q.2 t
/-- active sub-model, transitionModels.py 784 -/
def AWorld.bwdNth (W : AWorld K gs) (toff : K) : List (TM K) → ℕ → AHeap K gs → ℕ → K → Except PyErr (AHeap K gs × ℕ)
  | [], _, _, _, _ => .error .indexError
  | m :: _, 0, h, r, t => AWorld.bwd W toff m h r t
  | _ :: ms, i + 1, h, r, t => AWorld.bwdNth W toff ms i h r t
end

/-- One data point: its likelihood, computed from the content of the grid arrays (core.py 375, 455). -/
abbrev Lik (K : Type) {d : ℕ} (gs : Fin d → ℕ) := (Fin d → Arr K gs) → Idx gs → K

/-- One completed iteration of the forward loop: the values copied to `posteriorSequence[i]` (408), the norm, the data point and its time. -/
structure HStep (K : Type) {d : ℕ} (gs : Fin d → ℕ) where
  alpha : Idx gs → K
  norm : K
  lik : Lik K gs
  t : K

/-- Forward loop, core.py 372-411: completed iterations, whether the loop was left by the `return` in line 400, and the heap afterwards. -/
def AWorld.fwdPass (W : AWorld K gs) (tm : TM K) : AHeap K gs → ℕ → List (Lik K gs) → List K → Except PyErr (List (HStep K gs) × Bool × AHeap K gs)
  | h, _, [], _ => .ok ([], false, h)
  | h, r, L :: Ls, ts =>
      match h.cells r with
      | none => .ok ([], true, h)                                                  -- nan stays nan (382), `nan > 0.` is False
      | some a =>
        let a' : Idx gs → K := fun x => a x * L (W.gridVals h) x                    -- 375, 382
        let h1 := h.write r (some a')
        let norm := ∑ x, a' x                                                      -- 385
        if 0 < norm then
          let h2 := h1.write r (some fun x => a' x / norm)                          -- 389
          match ts with
          | [] => .error .indexError
          | t :: ts' => do
              let q ← W.fwd 0 tm h2 r t                                             -- 411
              let o ← AWorld.fwdPass W tm q.1 q.2 Ls ts'
              .ok (⟨fun x => a' x / norm, norm, L, t⟩ :: o.1, o.2)
        else .ok ([], true, h1)

/-- State of the backward loop (cf. `BwdOut`): `beta` is an array object. -/
structure HBwd (K : Type) {d : ℕ} (gs : Fin d → ℕ) where
  posts : List (Cell (Idx gs → K))
  locals : List (Cell K)
  heap : AHeap K gs
  beta : ℕ
  stopped : Bool

/-- Backward loop, core.py 424-470 (cf. `bwdPass`), from heap `h`. -/
def AWorld.bwdPass (W : AWorld K gs) (tm : TM K) (h : AHeap K gs) : List (HStep K gs) → Except PyErr (HBwd K gs)
  | [] =>                                                                          -- 424-425
      let (h1, r) := h.alloc (some fun _ => 1)
      .ok ⟨[], [], h1.normalizeAt r, r, false⟩
  | s :: rest => do
      let o ← AWorld.bwdPass W tm h rest
      let fwdLocal := Cell.val (s.norm * W.E.cell)
      if o.stopped then
        .ok { o with posts := .val s.alpha :: o.posts, locals := fwdLocal :: o.locals }
      else match o.heap.cells o.beta with
        | none => .ok { o with posts := .nan :: o.posts, locals := fwdLocal :: o.locals, stopped := true }
        | some b =>
            let q : Idx gs → K := fun x => s.alpha x * b x                         -- 436
            let norm := ∑ x, q x                                                   -- 439
            if 0 < norm then
              let post : Idx gs → K := fun x => q x / norm                         -- 441
              let lik := s.lik (W.gridVals o.heap)                                 -- 455
              let (h1, r1) := o.heap.alloc (some fun x => b x * lik x)              -- 467: `beta*likelihood`
              do
              let nb ← W.bwd 0 tm h1 r1 s.t                                        -- 467
              .ok ⟨.val post :: o.posts, localEv W.E post lik :: o.locals, nb.1.normalizeAt nb.2, nb.2, false⟩     -- 470
            else
              .ok { o with posts := .val q :: o.posts, locals := fwdLocal :: o.locals, stopped := true }

/-- Results of a study (core.py 60-63); a mean value is undefined if the grid array has an undefined content. -/
structure HFit (K : Type) {d : ℕ} (gs : Fin d → ℕ) where
  posts : List (Cell (Idx gs → K))
  means : Fin d → List (Cell K)
  logEv : LogV K
  locals : List (Cell K)

/-- `np.sum(p*self.grid[a])`, core.py 483, with the content that `self.grid[a]` has then -/
def AWorld.mean (W : AWorld K gs) (h : AHeap K gs) (a : Fin d) (p : Idx gs → K) : Cell K :=
  match h.cells (W.grid a) with
  | some g => .val (∑ x, p x * g x)
  | none => .nan

/-- `fit`, core.py 330-486, from line 354 on (cf. `fit`). -/
def AWorld.fit (W : AWorld K gs) (tm : TM K) (liks : List (Lik K gs)) (ts : List K) (forwardOnly evidenceOnly : Bool) (h : AHeap K gs) (S : HFit K gs) :
    Except PyErr (AHeap K gs × HFit K gs) := do
  let p ← W.computePrior h
  let f ← W.fwdPass tm p.1 p.2 liks ts
  let fwdLocals := f.1.map fun s => Cell.val (s.norm * W.E.cell)
  let pad {α : Type} (l : List (Cell α)) : List (Cell α) :=
    l ++ List.replicate (liks.length - l.length) Cell.uninit
  let fwdPosts := f.1.map fun s => Cell.val s.alpha
  if f.2.1 then                                                                    -- 399-400
    .ok (f.2.2, { S with posts := if evidenceOnly then S.posts else pad fwdPosts, locals := pad fwdLocals, logEv := LogV.ninf })
  else
    let le := f.1.foldl (fun l s => l + LogV.log s.norm) 0 + LogV.log W.E.cell      -- 403, 417
    if evidenceOnly then
      .ok (f.2.2, { S with locals := fwdLocals, logEv := le, means := fun _ => [] })
    else if forwardOnly then
      .ok (f.2.2, { posts := fwdPosts, locals := fwdLocals, logEv := le, means := fun a => f.1.map fun s => W.mean f.2.2 a s.alpha })
    else do
      let b ← W.bwdPass tm f.2.2 f.1
      if b.stopped then
        .ok (b.heap, { S with posts := b.posts, locals := b.locals, logEv := LogV.ninf })
      else
        .ok (b.heap, { posts := b.posts, locals := b.locals, logEv := le, means := fun a => b.posts.filterMap fun c => c.get?.map (W.mean b.heap a) })

end BL
