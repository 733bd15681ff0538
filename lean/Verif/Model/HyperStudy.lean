import Verif.Model.Config
import Verif.Model.Fit

/-!
# `HyperStudy` (core.py 1117-1533)
-/

set_option linter.unusedSectionVars false

namespace BL
variable {K : Type} [Field K] [LinearOrder K] {d : ℕ} {gs : Fin d → ℕ}

/-! ## Hyper-grid -/

/-- core.py 1156-1158: value `'all'` is replaced by `formattedTimestamps[:-1]` -/
def expandAll (ts : List K) : HVal K → HVal K
  | .all => .array ts.dropLast
  | v => v

/-- Values along one axis of the hyper-grid (`np.meshgrid` treats a number as one-element array).  Simplification: `None`, for which numpy would build
an object array, is a `TypeError`. -/
def axisValues : HVal K → Except PyErr (List K)
  | .scalar v => .ok [v]
  | .array l => .ok l
  | _ => .error .typeError

/-- `np.array([t.ravel() for t in np.meshgrid(*axes, indexing='ij')]).T`, core.py 1161-1163: one row per grid point, last axis fastest. -/
def cart {α : Type} : List (List α) → List (List α)
  | [] => [[]]
  | a :: r => a.flatMap fun x => (cart r).map (x :: ·)

/-- Grid constant of one axis, core.py 1169-1179. -/
def hyperConst : List K → K
  | x :: y :: l =>
      if (diff (diff (x :: y :: l))).all fun e => decide (|e| < 1 / 10 ^ 10) then |y - x| else 1
  | _ => 1

/-- `p /= np.sum(p); p /= gridConst`, core.py 1189-1190, 1196-1198, 1211-1213; `none`: division by zero. -/
def normPrior (p : List K) (c : K) : Option (List K) :=
  if p.sum = 0 ∨ c = 0 then none else some (p.map fun x => x / p.sum / c)

/-- Prior (density) values of one hyper-parameter, core.py 1187-1232.  `v` is the stored value (a number is not iterable), `vals` the axis.
Arrays of integers, for which `/=` fails, are not distinguished. -/
def hyperPriorAxis (pr : HPrior K) (v : HVal K) (vals : List K) (c : K) : Except PyErr (Option (List K)) :=
  match pr with
  | .none => .ok (normPrior (vals.map fun _ => 1) c)
  | .func f => match v with
      | .scalar _ => .error .configuration                        -- 1199-1201: `for value in values` fails
      | _ => .ok (normPrior (vals.map f) c)
  | .arr l => match v with
      | .scalar _ => .error .typeError                            -- `len(values)`
      | _ => if l.length ≠ vals.length then .error .configuration else .ok (normPrior l c)
  | .rv pdf => .ok (some (vals.map pdf))                          -- 1219-1232: not normalised
  | .num _ => .error .attributeError                              -- `freeSymbols` of a number

/-- The attributes set by `_createHyperGrid`. -/
structure HyperGrid (K : Type) where
  /-- `flatHyperParameters` -/
  flat : List (HVal K)
  /-- `flatHyperParameterNames` -/
  names : List String
  /-- `hyperGridValues` -/
  rows : List (List K)
  /-- `hyperGridConstant` -/
  hgc : List K
  /-- `flatHyperPriorValues`; `none`: contains nan -/
  priors : Option (List K)

/-- `[f(x) for x in l]` with exceptions -/
def mapE {α β : Type} (f : α → Except PyErr β) : List α → Except PyErr (List β)
  | [] => .ok []
  | x :: l => do
      let y ← f x
      let r ← mapE f l
      .ok (y :: r)

/-- the loop core.py 1183-1234 over `zip(flatHyperPriors, flatHyperParameters, hyperGridConstant, flatHyperParameterNames)` -/
def priorAxes (prs : List (HPrior K)) (flat : List (HVal K)) (axes : List (List K)) (hgc : List K) (names : List String) :
    Except PyErr (List (Option (List K))) :=
  mapE (fun q : HPrior K × HVal K × List K × K × String => hyperPriorAxis q.1 q.2.1 q.2.2.1 q.2.2.2.1)
    (prs.zip (flat.zip (axes.zip (hgc.zip names))))

/-- all entries present -/
def allSome {α : Type} : List (Option α) → Option (List α)
  | [] => some []
  | none :: _ => none
  | some a :: l => (allSome l).map (a :: ·)

/-- `_createHyperGrid`, core.py 1142-1245; `ts` is `formattedTimestamps`. -/
def createHyperGrid (tm : TM K) (ts : List K) : Except PyErr (HyperGrid K) := do
  let flat := tm.flatValues.map (expandAll ts)
  let names := tm.flatNames
  let axes ← mapE axisValues flat
  let hgc := axes.map hyperConst
  let pa ← priorAxes tm.flatPriors flat axes hgc names
  if names.length > 0 then
    if pa.isEmpty then .error .valueError                          -- 1239-1240: `np.prod(..., axis=1)` of an empty array
    else .ok ⟨flat, names, cart axes, hgc, (allSome pa).map fun l => (cart l).map List.prod⟩
  else .ok ⟨flat, names, [], hgc, some [1]⟩                        -- 1165, 1245

/-! ## Averaging over the hyper-grid -/

/-- `np.logaddexp` -/
def LogV.addexp (a b : LogV K) : LogV K := ⟨a.lin + b.lin⟩

/-- core.py 1358-1366: update of the average posterior sequence (log-space); `none` = nan.  `ε` is `10.**-300`. -/
def avgAdd (ε : K) (avg : List (Option (Idx gs → LogV K))) (posts : List (Cell (Idx gs → K))) (ev pr : LogV K) :
    List (Option (Idx gs → LogV K)) :=
  List.zipWith (fun a c => match a, c.get? with
    | some a, some p => some fun x => (a x).addexp (LogV.log (if p x < ε then ε else p x) + ev + pr)
    | _, _ => none) avg posts

/-- Fixed inputs of all fits of a study. -/
structure FitIn (K : Type) {d : ℕ} (gs : Fin d → ℕ) where
  E : Env K gs
  grid : (a : Fin d) → Fin (gs a) → K
  liks : List (Idx gs → K)
  ts : List K
  forwardOnly : Bool
  evidenceOnly : Bool
  /-- `10.**-300` -/
  ε : K

/-- Variables of the loop core.py 1349-1366 (single process) and 1473-1489 (`_parallelFit`). -/
structure HLoop (K : Type) {d : ℕ} (gs : Fin d → ℕ) where
  tm : TM K
  S : FitState K gs
  evs : List (LogV K)
  locs : List (List (Cell K))
  avg : List (Option (Idx gs → LogV K))

/-- One iteration of the loop. -/
def hyperStep (I : FitIn K gs) (L : HLoop K gs) (rp : List K × K) : Except PyErr (HLoop K gs) := do
  let tm ← L.tm.setAll (rp.1.map .scalar)                          -- 1350 (nothing is selected)
  let S ← fit I.E I.grid tm I.liks I.ts I.forwardOnly I.evidenceOnly L.S
  .ok { tm := tm, S := S, evs := L.evs ++ [S.logEv], locs := L.locs ++ [S.locals],
        avg := if !I.evidenceOnly && S.logEv.isFinite then avgAdd I.ε L.avg S.posts S.logEv (LogV.log rp.2) else L.avg }

/-- The loop over rows of the hyper-grid with their prior values. -/
def hyperLoop (I : FitIn K gs) : List (List K × K) → HLoop K gs → Except PyErr (HLoop K gs)
  | [], L => .ok L
  | rp :: rest, L => do
      let L' ← hyperStep I L rp
      hyperLoop I rest L'

/-- Start of the loop: core.py 1291-1298. -/
def HLoop.start (I : FitIn K gs) (tm : TM K) (S : FitState K gs) : HLoop K gs :=
  ⟨tm, S, [], [], I.liks.map fun _ => some fun _ => LogV.ninf⟩

/-- `np.array_split(l, n)[j]`: the first `len % n` parts have one element more. -/
def splitPart {α : Type} (l : List α) (n j : ℕ) : List α :=
  (l.drop (j * (l.length / n) + min j (l.length % n))).take (l.length / n + if j < l.length % n then 1 else 0)

/-- core.py 1338-1340: merging the averages -/
def avgMerge (a b : List (Option (Idx gs → LogV K))) : List (Option (Idx gs → LogV K)) :=
  List.zipWith (fun a b => match a, b with
    | some a, some b => some fun x => (a x).addexp (b x)
    | _, _ => none) a b

/-- core.py 1335-1340 -/
def mergeSubs (L : HLoop K gs) : List (HLoop K gs) → HLoop K gs
  | [] => L
  | s :: rest => mergeSubs { L with evs := L.evs ++ s.evs, locs := L.locs ++ s.locs, avg := avgMerge L.avg s.avg } rest

/-- All single fits: one process (core.py 1342-1366), or `nJobs > 1` processes (1307-1340), each of which works on a copy of the study.  Failing
processes are taken in order. -/
def hyperRun (I : FitIn K gs) (nJobs : ℕ) (rps : List (List K × K)) (L : HLoop K gs) : Except PyErr (HLoop K gs) :=
  if nJobs > 1 then do
    let subs ← mapE (fun j => hyperLoop I (splitPart rps nJobs j) L) (List.range nJobs)
    .ok (mergeSubs L subs)
  else hyperLoop I rps L

/-- `np.amax` over all entries of a list -/
def listMax (l : List K) : Option K := l.max?

/-- core.py 1372-1382: back to linear space and normalisation per time step.  nan anywhere, or no finite entry at all, makes everything nan (`amax`). -/
def finishAvg (avg : List (Option (Idx gs → LogV K))) : List (Cell (Idx gs → K)) :=
  match allSome avg with
  | none => avg.map fun _ => .nan
  | some l =>
      match listMax (l.flatMap fun a => (amax fun x => (a x).exp).toList) with
      | none => []
      | some M => if M = 0 then l.map fun _ => .nan else
          l.map fun a =>
            let b : Idx gs → K := fun x => (a x).exp / M
            if ∑ x, b x = 0 then .nan else .val fun x => b x / ∑ y, b y

/-- `logHyperParameterDistribution`, core.py 1391-1392 -/
def logHPD (evs : List (LogV K)) (priors hgc : List K) : List (LogV K) :=
  List.zipWith (fun e p => e + LogV.log p + LogV.log hgc.prod) evs priors

/-- core.py 1396-1399: `none` = nan (all evidences zero) -/
def hyperDist (evs : List (LogV K)) (priors hgc : List K) : Option (List K) :=
  let w := (logHPD evs priors hgc).map LogV.exp
  match listMax w with
  | none => none
  | some M => if M = 0 then none else
      let e := w.map fun x => x / M
      some (e.map fun x => x / e.sum / hgc.prod)

/-- `logsumexp(logHyperParameterDistribution)`, core.py 1405 -/
def hyperEvidence (evs : List (LogV K)) (priors hgc : List K) : LogV K := ⟨((logHPD evs priors hgc).map LogV.exp).sum⟩

/-- sum of two array entries; uninitialised memory stays undetermined -/
def Cell.add (a b : Cell K) : Cell K :=
  match a, b with
  | .uninit, _ => .uninit
  | _, .uninit => .uninit
  | .nan, _ => .nan
  | _, .nan => .nan
  | .val a, .val b => .val (a + b)

/-- product with a number -/
def Cell.scale (p : K) : Cell K → Cell K
  | .uninit => .uninit
  | .nan => .nan
  | .val a => .val (a * p)

/-- core.py 1410 -/
def localAvg (n : ℕ) (locs : List (List (Cell K))) (priors : List K) : List (Cell K) :=
  (List.zipWith (fun l p => l.map (Cell.scale p)) locs priors).foldl (List.zipWith Cell.add) (List.replicate n (.val 0))

/-- State of a hyper-study after `fit`. -/
structure HState (K : Type) {d : ℕ} (gs : Fin d → ℕ) where
  tm : TM K
  S : FitState K gs
  /-- `logEvidenceList` -/
  evs : List (LogV K)
  /-- `hyperParameterDistribution`; `none` = `None` or nan -/
  hpd : Option (List K)

/-- core.py 1291-1441 (`HyperStudy.fit` after the hyper-grid has been created and checked) for given rows and prior values. -/
def hyperCore (I : FitIn K gs) (nJobs : ℕ) (flat : List (HVal K)) (rows : List (List K)) (hgc priors : List K) (H : HState K gs) :
    Except PyErr (HState K gs) :=
  if rows.length > 1 then do
    let L ← hyperRun I nJobs (rows.zip priors) (HLoop.start I H.tm H.S)
    let posts := if I.evidenceOnly then L.S.posts else finishAvg L.avg
    let tm ← L.tm.setAll flat                                       -- 1428
    .ok { tm := tm
          S := { prior := L.S.prior, posts := posts
                 logEv := hyperEvidence L.evs priors hgc
                 locals := localAvg I.liks.length L.locs priors
                 means := if I.evidenceOnly then L.S.means
                   else fun a => posts.filterMap fun c => c.get?.map (mean I.grid a) }
          evs := L.evs
          hpd := hyperDist L.evs priors hgc }
  else do                                                           -- 1434-1441
    let S ← fit I.E I.grid H.tm I.liks I.ts I.forwardOnly I.evidenceOnly H.S
    .ok { H with S := S, evs := [] }

/-- core.py 1275-1287: rows with equal values of two change/break-points are rejected. -/
def sharedPoints (tm : TM K) (g : HyperGrid K) : Bool :=
  let names := flatten tm.cpNameTree ++ flatten tm.bpNameTree
  names.length > 1 && g.rows.any fun r => !decide ((names.map fun n => r[g.names.idxOf n]?).Nodup)

/-- `HyperStudy.fit`, core.py 1247-1441, on consistent settings (data formatting and `_checkConsistency`: Model/Config.lean).  `.ok none`: hyper-prior
values are nan, and so are all results. -/
def hyperFit (I : FitIn K gs) (nJobs : ℕ) (H : HState K gs) : Except PyErr (Option (HState K gs)) := do
  let g ← createHyperGrid H.tm I.ts
  if sharedPoints H.tm g then .error .configuration
  else if (duplicates H.tm.flatNames).length > 0 then .error .configuration   -- 1289 `_checkConsistency`
  else match g.priors with
    | none => .ok none
    | some priors => do
        let r ← hyperCore I nJobs g.flat g.rows g.hgc priors H
        .ok (some r)

end BL
