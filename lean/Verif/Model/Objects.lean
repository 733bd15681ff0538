import Verif.Model.Cache
import Verif.Model.Fit
import Verif.Model.HyperParams
import Verif.Model.Config

/-!
# Several studies and transition-model objects with identity (core.py 130-176, 267-285; transitionModels.py)

In Model/Transition.lean transition models are values.  In the code they are objects with mutable attributes `study`, `latticeConstant`, `tOffset` and (random walks with
a kernel) `kernel`, `kernelParameters`.  `setTransitionModel` writes `study` and `latticeConstant` of the object it is given (core.py 281-282), `setObservationModel`
writes `latticeConstant` of the current transition model (172-173), Combined and Serial models write the attributes of their parts before every use
(transitionModels.py 646-648, 657-659, 770-772, 781-783).  All computations read these attributes.  One object may be used in several studies and several times inside
models, so these writes may be seen by others.  Here this is modelled: objects have a number (their identity), and the attributes live in a heap.

Simplifications: all studies of a session have parameter grids of the same shape `gs` (values, names and lattice constants may differ); hyper-parameter values do not change
(plain studies only); if `fit` ends with an exception, the results and the attribute `prior` keep their former values.
-/

set_option linter.unusedSectionVars false

namespace BL
variable {K D : Type} [Field K] [LinearOrder K] {d : ℕ} {gs : Fin d → ℕ}

/-- Transition-model objects; `r` is the identity of the object.  What kind of elementary model the object `r` is, is given by a table (`LeafObj`).
Combined: transitionModels.py 609-662, Serial: 665-818. -/
inductive OTM (K : Type)
  | leaf (r : ℕ)
  | combined (r : ℕ) (models : List (OTM K))
  | serial (r : ℕ) (names : List String) (values : List (HVal K)) (prior : List (Nest (HPrior K))) (mask : List Bool) (models : List (OTM K))

/-- the attributes of an elementary model that do not change (Model/TM.lean) -/
structure LeafObj (K : Type) where
  kind : Leaf K
  names : List String
  values : List (HVal K)
  prior : Option (Nest (HPrior K))

/-- identity of the object -/
def OTM.ref : OTM K → ℕ
  | .leaf r => r
  | .combined r _ => r
  | .serial r _ _ _ _ _ => r

mutual
/-- the model as a value, as in Model/TM.lean -/
def OTM.value (tab : ℕ → LeafObj K) : OTM K → TM K
  | .leaf r => .leaf (tab r).kind (tab r).names (tab r).values (tab r).prior
  | .combined _ ms => .combined (OTM.values tab ms)
  | .serial _ n v p mask ms => .serial n v p mask (OTM.values tab ms)
/-- the same for a list -/
def OTM.values (tab : ℕ → LeafObj K) : List (OTM K) → List (TM K)
  | [] => []
  | m :: ms => m.value tab :: OTM.values tab ms
end

/-- the attributes `study` (number of a study), `latticeConstant`, `tOffset`, and `kernelParameters` with `kernel` -/
structure TAttr (K : Type) (d : ℕ) where
  study : Option ℕ
  lattice : Option (Fin d → K)
  toff : K
  cache : Option (List (HVal K) × Kernel K d)

/-- the attributes of a new object, e.g. transitionModels.py 39-44, 142-150 -/
def TAttr.new : TAttr K d := ⟨none, none, 0, none⟩

/-- the attributes of all objects -/
abbrev THeap (K : Type) (d : ℕ) := ℕ → TAttr K d

/-- what a transition model reads of the study it belongs to; `ok`: the study has an observation model -/
structure View (K : Type) {d : ℕ} (gs : Fin d → ℕ) where
  ok : Bool
  names : Fin d → String
  lattice : Fin d → K
  prior : PriorSpec K gs

/-- the elementary models with a kernel -/
def kernelKind : Leaf K → Option KernelModel
  | .alphaStable target => some (.alphaStable target)
  | .bivariate => some .bivariate
  | _ => none

/-- what the object `r` reads: names and prior of the study it points to, its own lattice constants -/
def THeap.env (h : THeap K d) (ext : Ext K gs) (view : ℕ → View K gs) (r : ℕ) : Except PyErr (Env K gs) :=
  match (h r).study, (h r).lattice with
  | some s, some lat => .ok ⟨(view s).names, lat, (view s).prior, ext⟩
  | _, _ => .error .attributeError

/-- does the study that `r` points to have an observation model? -/
def THeap.hasOM (h : THeap K d) (view : ℕ → View K gs) (r : ℕ) : Bool :=
  match (h r).study with
  | some s => (view s).ok
  | none => false

/-- elementary models that read attributes of `study.observationModel` whenever they are used (transitionModels.py 107, 177, 351, 560, 585; for ChangePoint see `THeap.reset`) -/
def needsOM : Leaf K → Bool
  | .grw _ => true
  | .alphaStable _ => true
  | .independent => true
  | .deterministic _ _ => true
  | _ => false

/-- the reset distribution (transitionModels.py 302-312, 803-813): here the lattice constants are those of the study (311, 812) -/
def THeap.reset (h : THeap K d) (ext : Ext K gs) (view : ℕ → View K gs) (r : ℕ) : Except PyErr (Arr K gs) :=
  match (h r).study with
  | some s => if (view s).ok then .ok (Env.resetCell ⟨(view s).names, (view s).lattice, (view s).prior, ext⟩) else .error .attributeError
  | none => .error .attributeError

/-- `computeForwardPrior` of the models with a kernel: transitionModels.py 170-191, 884-894 (see Model/Cache.lean); `new` is the kernel that is made if there is none for these values -/
def kernelH (h : THeap K d) (new : Except PyErr (Kernel K d)) (r : ℕ) (vals : List (HVal K)) (p : Arr K gs) : THeap K d × Except PyErr (Arr K gs) :=
  match (h r).cache with
  | some (v, k) =>
      if v = vals then (h, .ok (applyKernel k p))
      else match new with
        | .error e => (h, .error e)
        | .ok k => (Function.update h r { h r with cache := some (vals, k) }, .ok (applyKernel k p))
  | none => match new with
      | .error e => (h, .error e)
      | .ok k => (Function.update h r { h r with cache := some (vals, k) }, .ok (applyKernel k p))

/-- `computeForwardPrior` (`back = false`) and `computeBackwardPrior` (`back = true`) of the elementary model `r`, see `leafFwd`, `leafBwd`.  (Static models, transitionModels.py 60, work also before they
are given to a study; here this is an AttributeError.) -/
def leafH (tab : ℕ → LeafObj K) (ext : Ext K gs) (view : ℕ → View K gs) (back : Bool) (h : THeap K d) (r : ℕ) (p : Arr K gs) (t : K) : THeap K d × Except PyErr (Arr K gs) :=
  match h.env ext view r with
  | .error e => (h, .error e)
  | .ok E =>
      match kernelKind (tab r).kind with
      | some m => kernelH h (if needsOM (tab r).kind && !h.hasOM view r then .error .attributeError else makeKernel E m (tab r).values) r (tab r).values p
      | none =>
          if needsOM (tab r).kind && !h.hasOM view r then (h, .error .attributeError)
          else match (tab r).kind with
          | .changePoint =>                                                                       -- 300-314
              match cpHit (tab r).values (if back then t - 1 else t) with
              | .error e => (h, .error e)
              | .ok true => (h, h.reset ext view r)
              | .ok false => (h, .ok p)
          | k => (h, if back then leafBwd E (h r).toff k (tab r).values p t else leafFwd E (h r).toff k (tab r).values p t)

/-- `m.latticeConstant = self.latticeConstant; m.study = self.study; m.tOffset = …`, transitionModels.py 646-648, 657-659, 770-772, 781-783 -/
def THeap.pass (h : THeap K d) (r m : ℕ) (toff : K) : THeap K d := Function.update h m { h m with study := (h r).study, lattice := (h r).lattice, toff := toff }

mutual
/-- `computeForwardPrior` / `computeBackwardPrior` of an object: attributes of all objects afterwards, and the result.
Combined: transitionModels.py 643-662.  Serial: 767-815. -/
def OTM.stepH (tab : ℕ → LeafObj K) (ext : Ext K gs) (view : ℕ → View K gs) (back : Bool) : THeap K d → OTM K → Arr K gs → K → THeap K d × Except PyErr (Arr K gs)
  | h, .leaf r, p, t => leafH tab ext view back h r p t
  | h, .combined r ms, p, t => OTM.stepAllH tab ext view back h r ms p t
  | h, .serial r _ vals _ mask ms, p, t =>
      match scalars vals with
      | .error e => (h, .error e)
      | .ok vs =>
          let u := if back then t - 1 else t
          let i := modelIndex vs u
          match OTM.stepNthH tab ext view back h r (breakOffset vs i) ms i p t with
          | (h', .error e) => (h', .error e)
          | (h', .ok q) => (h', if cpIn vs mask u then h'.reset ext view r else .ok q)
/-- loop over the parts of the combined model `r`, transitionModels.py 645-649, 656-660 -/
def OTM.stepAllH (tab : ℕ → LeafObj K) (ext : Ext K gs) (view : ℕ → View K gs) (back : Bool) :
    THeap K d → ℕ → List (OTM K) → Arr K gs → K → THeap K d × Except PyErr (Arr K gs)
  | h, _, [], p, _ => (h, .ok p)
  | h, r, m :: ms, p, t =>
      match OTM.stepH tab ext view back (h.pass r m.ref (h r).toff) m p t with
      | (h', .error e) => (h', .error e)
      | (h', .ok q) => OTM.stepAllH tab ext view back h' r ms q t
/-- active part of the serial model `r`, transitionModels.py 770-773, 781-784 -/
def OTM.stepNthH (tab : ℕ → LeafObj K) (ext : Ext K gs) (view : ℕ → View K gs) (back : Bool) :
    THeap K d → ℕ → K → List (OTM K) → ℕ → Arr K gs → K → THeap K d × Except PyErr (Arr K gs)
  | h, _, _, [], _, _, _ => (h, .error .indexError)
  | h, r, toff, m :: _, 0, p, t => OTM.stepH tab ext view back (h.pass r m.ref toff) m p t
  | h, r, toff, _ :: ms, i + 1, p, t => OTM.stepNthH tab ext view back h r toff ms i p t
end

/-! ## The algorithm of `fit` with a transition model that changes a state `σ`

Copies of `fwdPass`, `bwdPass`, `fit` (Model/Fit.lean, core.py 354-486) in which the calls of the transition model (411, 467) read and write a state.  `step s pr p t` is the call
with the content `pr` of `observationModel.prior`. -/

section
variable {σ : Type}

/-- forward loop, core.py 372-411, see `fwdPass` -/
def fwdPassS (ra : K → Bool) (step : σ → PriorSpec K gs → Arr K gs → K → σ × Except PyErr (Arr K gs)) :
    σ → Bool → PriorSpec K gs → Arr K gs → List (Idx gs → K) → List K → σ × Except PyErr (FwdOut K gs)
  | s, _, pr, _, [], _ => (s, .ok ⟨[], false, pr⟩)
  | s, _, pr, none, _ :: _, _ => (s, .ok ⟨[], true, pr⟩)
  | s, al, pr, some a, L :: Ls, ts =>
      let a' : Idx gs → K := fun x => a x * L x
      let norm := ∑ x, a' x
      if 0 < norm then
        let α : Idx gs → K := fun x => a' x / norm
        let pr' := if al then PriorSpec.array (some α) else pr
        match ts with
        | [] => (s, .error .indexError)
        | t :: ts' =>
            match step s pr' (some α) t with
            | (s', .error e) => (s', .error e)
            | (s', .ok nx) =>
                match fwdPassS ra step s' (al && ra t) pr' nx Ls ts' with
                | (s'', .error e) => (s'', .error e)
                | (s'', .ok r) => (s'', .ok { r with steps := ⟨α, norm, L, t⟩ :: r.steps })
      else (s, .ok ⟨[], true, if al then PriorSpec.array (some a') else pr⟩)

/-- backward loop, core.py 424-470, see `bwdPass` -/
def bwdPassS (E : Env K gs) (step : σ → Arr K gs → K → σ × Except PyErr (Arr K gs)) : σ → List (Step K gs) → σ × Except PyErr (BwdOut K gs)
  | s, [] => (s, .ok ⟨[], [], (normalize fun _ => 1), false⟩)
  | s, st :: rest =>
      match bwdPassS E step s rest with
      | (s', .error e) => (s', .error e)
      | (s', .ok o) =>
          let fwdLocal := Cell.val (st.norm * E.cell)
          if o.stopped then (s', .ok { o with posts := .val st.alpha :: o.posts, locals := fwdLocal :: o.locals })
          else match o.beta with
            | none => (s', .ok { o with posts := .nan :: o.posts, locals := fwdLocal :: o.locals, stopped := true })
            | some b =>
                let q : Idx gs → K := fun x => st.alpha x * b x
                let norm := ∑ x, q x
                if 0 < norm then
                  let post : Idx gs → K := fun x => q x / norm
                  match step s' (some fun x => b x * st.lik x) st.t with
                  | (s'', .error e) => (s'', .error e)
                  | (s'', .ok nb) => (s'', .ok ⟨.val post :: o.posts, localEv E post st.lik :: o.locals, nb.bind normalize, false⟩)
                else (s', .ok { o with posts := .val q :: o.posts, locals := fwdLocal :: o.locals, stopped := true })

/-- `fit`, core.py 354-486, see `BL.fit`; `sf`, `sb` are the two compute functions -/
def fitS (E : Env K gs) (grid : (a : Fin d) → Fin (gs a) → K) (ra : K → Bool) (sf sb : σ → PriorSpec K gs → Arr K gs → K → σ × Except PyErr (Arr K gs))
    (liks : List (Idx gs → K)) (ts : List K) (forwardOnly evidenceOnly : Bool) (S : FitState K gs) (s : σ) : σ × Except PyErr (FitState K gs) :=
  match computePrior { E with prior := S.prior } with
  | .error e => (s, .error e)
  | .ok (a0, pr0) =>
  match fwdPassS ra sf s pr0.isArray pr0 a0 liks ts with
  | (s', .error e) => (s', .error e)
  | (s', .ok f) =>
  let fwdLocals := f.steps.map fun s => Cell.val (s.norm * E.cell)
  let pad {α : Type} (l : List (Cell α)) : List (Cell α) := l ++ List.replicate (liks.length - l.length) Cell.uninit
  let fwdPosts := f.steps.map fun s => Cell.val s.alpha
  if f.stopped then
    (s', .ok { S with prior := f.prior, posts := if evidenceOnly then S.posts else pad fwdPosts, locals := pad fwdLocals, logEv := LogV.ninf })
  else
    let le := sumLog E f.steps
    if evidenceOnly then (s', .ok { S with prior := f.prior, locals := fwdLocals, logEv := le, means := fun _ => [] })
    else if forwardOnly then
      (s', .ok { prior := f.prior, posts := fwdPosts, locals := fwdLocals, logEv := le, means := fun a => f.steps.map fun s => mean grid a s.alpha })
    else
      match bwdPassS E (fun s => sb s f.prior) s' f.steps with
      | (s'', .error e) => (s'', .error e)
      | (s'', .ok b) =>
          if b.stopped then (s'', .ok { S with prior := f.prior, posts := b.posts, locals := b.locals, logEv := LogV.ninf })
          else (s'', .ok { prior := f.prior, posts := b.posts, locals := b.locals, logEv := le,
                           means := fun a => b.posts.filterMap fun c => c.get?.map (mean grid a) })
end

/-! ## Sessions with several studies -/

/-- Observation-model object: parameter names, parameter values with the lattice constants that `setObservationModel` determines from them (core.py 145-166, see `gridLoop`), the attributes `prior` and
`segmentLength`, and `processedPdf` on the grid. -/
structure OMObj (K D : Type) {d : ℕ} (gs : Fin d → ℕ) where
  names : Fin d → String
  grid : (a : Fin d) → Fin (gs a) → K
  lattice : Fin d → K
  prior : PriorSpec K gs
  seg : ℕ
  pdf : List D → Idx gs → K

/-- A study: data and timestamps, the current models (numbers / objects), grid and lattice constants, results. -/
structure StudyObj (K D : Type) {d : ℕ} (gs : Fin d → ℕ) where
  data : List D
  ts : List K
  om : Option ℕ
  grid : (a : Fin d) → Fin (gs a) → K
  lattice : Fin d → K
  tm : Option (OTM K)
  posts : List (Cell (Idx gs → K))
  means : Fin d → List K
  logEv : LogV K
  locals : List (Cell K)

/-- `Study()`, core.py 45-66 -/
def StudyObj.new : StudyObj K D gs := ⟨[], [], none, fun _ _ => 0, fun _ => 0, none, [], fun _ => [], 0, []⟩

/-- All objects of a Python session. -/
structure World (K D : Type) {d : ℕ} (gs : Fin d → ℕ) where
  studies : ℕ → StudyObj K D gs
  oms : ℕ → OMObj K D gs
  heap : THeap K d

/-- A session in which observation models have been created and nothing else has been done. -/
def World.init (oms : ℕ → OMObj K D gs) : World K D gs := ⟨fun _ => .new, oms, fun _ => .new⟩

/-- Method calls of the user; `i` is the number of the study. -/
inductive WOp (K D : Type)
  | load (i : ℕ) (data : List D) (ts : List K)
  | setOM (i : ℕ) (o : ℕ)
  | setTM (i : ℕ) (m : OTM K)
  | fit (i : ℕ) (forwardOnly evidenceOnly : Bool)

/-- the study whose method is called -/
def WOp.study : WOp K D → ℕ
  | .load i _ _ => i
  | .setOM i _ => i
  | .setTM i _ => i
  | .fit i _ _ => i

/-- What is read through the attribute `study` of a transition model with value `j` while study `i` (with the observation model `o`, whose attribute `prior` is `pr` at the moment) is fitted. -/
def World.view (w : World K D gs) (o : ℕ) (pr : PriorSpec K gs) (j : ℕ) : View K gs :=
  match (w.studies j).om with
  | some o' => ⟨true, (w.oms o').names, (w.studies j).lattice, if o' = o then pr else (w.oms o').prior⟩
  | none => ⟨false, fun _ => "", (w.studies j).lattice, .none⟩

/-- `Study.fit`, core.py 330-486, of the study `i`. -/
def World.fit (tab : ℕ → LeafObj K) (ext : Ext K gs) (w : World K D gs) (i : ℕ) (forwardOnly evidenceOnly : Bool) : World K D gs × Option PyErr :=
  let S := w.studies i
  match S.om, S.tm with
  | some o, some m =>
      if S.data.length = 0 then (w, some .configuration)                                        -- 1102-1103
      else if (duplicates (m.value tab).flatNames).length > 0 then (w, some .configuration)     -- 1110-1115
      else
        let om := w.oms o
        let E : Env K gs := ⟨om.names, S.lattice, .none, ext⟩
        let liks := (movingWindow S.data om.seg).map om.pdf
        match fitS E S.grid (m.value tab).returnsArg (fun h pr => m.stepH tab ext (w.view o pr) false h) (fun h pr => m.stepH tab ext (w.view o pr) true h)
            liks (timestampsOf S.ts om.seg) forwardOnly evidenceOnly ⟨om.prior, S.posts, S.means, S.logEv, S.locals⟩ w.heap with
        | (h, .error e) => ({ w with heap := h }, some e)
        | (h, .ok R) =>
            ({ studies := Function.update w.studies i { S with posts := R.posts, means := R.means, logEv := R.logEv, locals := R.locals }
               oms := Function.update w.oms o { om with prior := R.prior }
               heap := h }, none)
  | _, _ => (w, some .configuration)                                                            -- 1104-1109

/-- Effect of a method call and the exception, if any.  `load`: core.py 93-122 (data and timestamps of equal length, see Model/Config.lean), `setOM`: 130-176, `setTM`: 267-285. -/
def World.step (tab : ℕ → LeafObj K) (ext : Ext K gs) (w : World K D gs) : WOp K D → World K D gs × Option PyErr
  | .load i data ts => ({ w with studies := Function.update w.studies i { w.studies i with data := data, ts := ts } }, none)
  | .setOM i o =>
      let S := { w.studies i with om := some o, grid := (w.oms o).grid, lattice := (w.oms o).lattice }
      ({ w with studies := Function.update w.studies i S
                heap := match S.tm with
                  | some m => Function.update w.heap m.ref { w.heap m.ref with lattice := some S.lattice }        -- 172-173
                  | none => w.heap }, none)
  | .setTM i m =>
      match m.value tab with
      | .leaf .breakPoint _ _ _ => (w, some .configuration)                                     -- 276-278
      | _ => ({ w with studies := Function.update w.studies i { w.studies i with tm := some m }
                       heap := Function.update w.heap m.ref { w.heap m.ref with study := some i, lattice := some (w.studies i).lattice } }, none)   -- 280-282
  | .fit i fo eo => w.fit tab ext i fo eo

/-- What the user sees after a method call: the exception, and results and prior of the study. -/
structure Seen (K : Type) {d : ℕ} (gs : Fin d → ℕ) where
  exc : Option PyErr
  posts : List (Cell (Idx gs → K))
  means : Fin d → List K
  logEv : LogV K
  locals : List (Cell K)
  prior : Option (PriorSpec K gs)

/-- what the user sees of study `i` -/
def World.seen (w : World K D gs) (i : ℕ) (exc : Option PyErr) : Seen K gs :=
  let S := w.studies i
  ⟨exc, S.posts, S.means, S.logEv, S.locals, S.om.map fun o => (w.oms o).prior⟩

/-- effect of a sequence of calls -/
def World.run (tab : ℕ → LeafObj K) (ext : Ext K gs) (w : World K D gs) (ops : List (WOp K D)) : World K D gs :=
  ops.foldl (fun w op => (w.step tab ext op).1) w

/-- what the user sees of the study concerned, after each call -/
def World.trace (tab : ℕ → LeafObj K) (ext : Ext K gs) : World K D gs → List (WOp K D) → List (ℕ × Seen K gs)
  | _, [] => []
  | w, op :: ops => (op.study, (w.step tab ext op).1.seen op.study (w.step tab ext op).2) :: World.trace tab ext (w.step tab ext op).1 ops

end BL
