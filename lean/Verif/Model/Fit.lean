import Verif.Model.Transition

/-!
# `Study._computePrior` and `Study.fit` (core.py)

The data enter as the list `liks` of likelihood arrays, `liks[i] =
observationModel.processedPdf(grid, formattedData[i])` (core.py 375, 455), see
Model/Observation.lean; `ts` is `formattedTimestamps`.
-/

namespace BL

variable {K : Type} [Field K] [LinearOrder K] {d : ℕ} {gs : Fin d → ℕ}

/-- `_computePrior`, core.py 184-265.  Returns the array used as initial `alpha` and the new content of the attribute
`observationModel.prior` (changed in place for numpy arrays, lines 212-213).
`norm != 1.` is line 211 / 227.  Priors of any other type (the code returns `None`) are not modelled. -/
def computePrior (E : Env K gs) : Except PyErr (Arr K gs × PriorSpec K gs) :=
  match E.prior with
  | .none =>                                                      -- 199-205
      .ok ((normalize fun _ => 1).bind (divScalar · E.cell), .none)
  | .array none => .ok (none, .array none)                        -- nan array stays nan
  | .array (some a) =>                                            -- 208-219
      if ∑ x, a x ≠ 1 then
        let r := (normalize a).bind (divScalar · E.cell)
        .ok (r, .array r)
      else .ok (some a, .array (some a))
  | .badArray => .error .configuration                            -- 221
  | .func v =>                                                    -- 224-235
      if ∑ x, v x ≠ 1 then .ok ((normalize v).bind (divScalar · E.cell), .func v)
      else .ok (some v, .func v)
  | .funcConst c =>                                               -- 225: `* np.ones(gridSize)`
      let v : Idx gs → K := fun _ => c
      if ∑ x, v x ≠ 1 then .ok ((normalize v).bind (divScalar · E.cell), .funcConst c)
      else .ok (some v, .funcConst c)
  | .rvs n ok v =>                                                -- 238-265
      if n ≠ d then .error .configuration
      else if ok then .ok (some v, .rvs n ok v) else .error .configuration

/-- Is the returned prior array the user's array object itself (core.py 219)? -/
def PriorSpec.isArray : PriorSpec K gs → Bool
  | .array _ => true
  | _ => false

/-- One completed iteration of the forward loop: normalised `alpha`, its norm, likelihood, timestamp. -/
structure Step (K : Type) {d : ℕ} (gs : Fin d → ℕ) where
  alpha : Idx gs → K
  norm : K
  lik : Idx gs → K
  t : K

/-- Result of the forward loop. -/
structure FwdOut (K : Type) {d : ℕ} (gs : Fin d → ℕ) where
  /-- completed iterations -/
  steps : List (Step K gs)
  /-- loop left by the `return` in line 400 -/
  stopped : Bool
  /-- content of `observationModel.prior` afterwards -/
  prior : PriorSpec K gs

/-- Forward loop, core.py 372-411.  `al`: `alpha` is the array object `observationModel.prior` itself, so
the in-place operations `alpha *= likelihood`, `alpha /= norm` (382, 389) also change the prior. -/
def fwdPass (E : Env K gs) (tm : TM K) :
    Bool → PriorSpec K gs → Arr K gs → List (Idx gs → K) → List K → Except PyErr (FwdOut K gs)
  | _, pr, _, [], _ => .ok ⟨[], false, pr⟩
  | _, pr, none, _ :: _, _ => .ok ⟨[], true, pr⟩              -- `nan > 0.` is False
  | al, pr, some a, L :: Ls, ts =>
      let a' : Idx gs → K := fun x => a x * L x                 -- 382
      let norm := ∑ x, a' x                                     -- 385
      if 0 < norm then                                          -- 388
        let α : Idx gs → K := fun x => a' x / norm              -- 389
        let pr' := if al then PriorSpec.array (some α) else pr
        match ts with
        | [] => .error .indexError                              -- formattedTimestamps[i]
        | t :: ts' => do
            let nx ← tm.fwd { E with prior := pr' } 0 (some α) t    -- 411
            let r ← fwdPass E tm (al && tm.returnsArg t) pr' nx Ls ts'
            .ok { r with steps := ⟨α, norm, L, t⟩ :: r.steps }
      else .ok ⟨[], true, if al then PriorSpec.array (some a') else pr⟩     -- 391-400

/-- State of the backward loop. -/
structure BwdOut (K : Type) {d : ℕ} (gs : Fin d → ℕ) where
  /-- posteriors / local evidences of the steps handled so far (in time order) -/
  posts : List (Cell (Idx gs → K))
  locals : List (Cell K)
  beta : Arr K gs
  stopped : Bool

/-- `1./(np.sum(posterior/likelihood)*np.prod(latticeConstant))`, core.py 462-464.
`0/0` makes the sum `nan`; `p/0` with `p ≠ 0` makes it infinite and the result zero. -/
def localEv (E : Env K gs) (post lik : Idx gs → K) : Cell K :=
  if ∃ x, lik x = 0 ∧ post x = 0 then .nan
  else if ∃ x, lik x = 0 then .val 0
  else if (∑ x, post x / lik x) * E.cell = 0 then .nan
  else .val (1 / ((∑ x, post x / lik x) * E.cell))

/-- Backward loop, core.py 424-470, processing the steps from last to first (`foldr` order).
Once stopped (line 452) the remaining entries keep the values of the forward pass. -/
def bwdPass (E : Env K gs) (tm : TM K) : List (Step K gs) → Except PyErr (BwdOut K gs)
  | [] => .ok ⟨[], [], (normalize fun _ => 1), false⟩            -- 424-425
  | s :: rest => do
      let o ← bwdPass E tm rest
      let fwdLocal := Cell.val (s.norm * E.cell)                  -- 404
      if o.stopped then
        .ok { o with posts := .val s.alpha :: o.posts, locals := fwdLocal :: o.locals }
      else match o.beta with
        | none =>                                                 -- norm is nan: 440 is False
            .ok { o with posts := .nan :: o.posts, locals := fwdLocal :: o.locals, stopped := true }
        | some b =>
            let q : Idx gs → K := fun x => s.alpha x * b x        -- 436
            let norm := ∑ x, q x                                  -- 439
            if 0 < norm then
              let post : Idx gs → K := fun x => q x / norm        -- 441
              do
              let nb ← tm.bwd E 0 (some fun x => b x * s.lik x) s.t    -- 467
              .ok ⟨.val post :: o.posts, localEv E post s.lik :: o.locals, nb.bind normalize, false⟩
            else
              .ok { o with posts := .val q :: o.posts, locals := fwdLocal :: o.locals, stopped := true }

/-- Results of a study that `fit` writes (core.py 60-63) together with `observationModel.prior`. -/
structure FitState (K : Type) {d : ℕ} (gs : Fin d → ℕ) where
  prior : PriorSpec K gs
  posts : List (Cell (Idx gs → K))
  means : Fin d → List K
  logEv : LogV K
  locals : List (Cell K)

/-- `logEvidence` accumulated in the forward loop (403) plus `np.log(np.prod(latticeConstant))` (417). -/
def sumLog (E : Env K gs) (steps : List (Step K gs)) : LogV K :=
  steps.foldl (fun l s => l + LogV.log s.norm) 0 + LogV.log E.cell

/-- `np.sum(p*self.grid[i])`, core.py 483; `grid a x = marginalGrid[a][x a]` by `meshgrid(indexing='ij')`
(core.py 169). -/
def mean (grid : (a : Fin d) → Fin (gs a) → K) (a : Fin d) (p : Idx gs → K) : K :=
  ∑ x, p x * grid a (x a)

/-- The stored arrays of finished fits. -/
def Cell.get? {α : Type} : Cell α → Option α
  | .val a => some a
  | _ => none

/-- `fit`, core.py 330-486, from line 354 on (consistency check and data formatting: Model/Config.lean).
`forwardOnly`, `evidenceOnly` are the arguments of the method. -/
def fit (E : Env K gs) (grid : (a : Fin d) → Fin (gs a) → K) (tm : TM K)
    (liks : List (Idx gs → K)) (ts : List K) (forwardOnly evidenceOnly : Bool) (S : FitState K gs) :
    Except PyErr (FitState K gs) := do
  let (a0, pr0) ← computePrior { E with prior := S.prior }
  let f ← fwdPass E tm pr0.isArray pr0 a0 liks ts
  let fwdLocals := f.steps.map fun s => Cell.val (s.norm * E.cell)
  let pad {α : Type} (l : List (Cell α)) : List (Cell α) :=
    l ++ List.replicate (liks.length - l.length) Cell.uninit
  let fwdPosts := f.steps.map fun s => Cell.val s.alpha
  if f.stopped then                                               -- 399-400: early return
    .ok { S with
      prior := f.prior
      posts := if evidenceOnly then S.posts else pad fwdPosts
      locals := pad fwdLocals
      logEv := LogV.ninf }
  else
    let le := sumLog E f.steps
    if evidenceOnly then
      .ok { S with prior := f.prior, locals := fwdLocals, logEv := le, means := fun _ => [] }
    else if forwardOnly then
      .ok { prior := f.prior, posts := fwdPosts, locals := fwdLocals, logEv := le,
            means := fun a => f.steps.map fun s => mean grid a s.alpha }
    else do
      let b ← bwdPass { E with prior := f.prior } tm f.steps
      if b.stopped then
        .ok { S with prior := f.prior, posts := b.posts, locals := b.locals, logEv := LogV.ninf }
      else
        .ok { prior := f.prior, posts := b.posts, locals := b.locals, logEv := le,
              means := fun a => b.posts.filterMap fun c => c.get?.map (mean grid a) }

end BL
