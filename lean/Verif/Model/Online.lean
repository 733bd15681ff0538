import Verif.Model.HyperDist
import Verif.Model.Getters

/-!
# `OnlineStudy` (core.py 1933-2990)

Data points are elements of a type `D` (a data point given as a list with several elements is not modelled).  Plot methods are not modelled.
-/

set_option linter.unusedSectionVars false

namespace BL
variable {K D : Type} [Field K] [LinearOrder K] {d : ℕ} {gs : Fin d → ℕ}

/-- A Python list, or the numpy array it was converted to (`ndarray` objects have no method `append`). -/
inductive PySeq (α : Type)
  | list (l : List α)
  | ndarray (l : List α)

/-- the entries -/
def PySeq.entries {α : Type} : PySeq α → List α
  | .list l => l
  | .ndarray l => l

/-- `s.append(a)` -/
def PySeq.append {α : Type} (s : PySeq α) (a : α) : Except PyErr (PySeq α) :=
  match s with
  | .list l => .ok (.list (l ++ [a]))
  | .ndarray _ => .error .attributeError

/-- `np.array(s)` -/
def PySeq.toArray {α : Type} (s : PySeq α) : PySeq α := .ndarray s.entries

/-- `list(s)` -/
def PySeq.toList {α : Type} (s : PySeq α) : PySeq α := .list s.entries

/-- State of one hypothesis (transition model with one combination of hyper-parameter values): `parameterPosterior[i][j]` and
`logEvidenceList[i][j]`; `none` = nan. -/
structure OHyp (K : Type) {d : ℕ} (gs : Fin d → ℕ) where
  post : Arr K gs
  ev : Option (LogV K)

/-- All attributes of an online study with index `i` (one added transition model). -/
structure OModelSt (K : Type) {d : ℕ} (gs : Fin d → ℕ) where
  /-- `transitionModelNames[i]` -/
  name : String
  /-- `transitionModels[i]` -/
  tm : TM K
  /-- `hyperParameterValues[i]`, `allFlatHyperParameterValues[i]`, `hyperParameterNames[i]`, `hyperGridConstants[i]`, `hyperPriorValues[i]` -/
  grid : HyperGrid K
  /-- `parameterPosterior[i]`, `logEvidenceList[i]` (empty before the first analysed data point) -/
  hyps : List (OHyp K gs)
  /-- `hyperLogEvidenceList[i]` -/
  hyperEv : Option (LogV K)
  /-- `hyperParameterDistribution[i]` -/
  hpd : Option (List K)
  /-- `transitionModelPosterior[i]` -/
  post : Arr K gs

/-- Settings of the study that `step` reads: observation model (set before the first step) and parameter grid. -/
structure OConf (K D : Type) {d : ℕ} (gs : Fin d → ℕ) where
  /-- names, lattice constants and external functions; the field `prior` is not used, see `OState.prior` -/
  E : Env K gs
  grid : (a : Fin d) → Fin (gs a) → K
  /-- `observationModel.processedPdf(grid, dataSegment)` -/
  pdf : List D → Idx gs → K
  /-- `observationModel.segmentLength`, a positive number -/
  seg : ℕ

/-- Attributes of an online study. -/
structure OState (K D : Type) {d : ℕ} (gs : Fin d → ℕ) where
  /-- `storeHistory` -/
  store : Bool
  /-- `transitionModel` -/
  current : Option (TM K)
  models : List (OModelSt K gs)
  /-- `observationModel.prior` -/
  prior : PriorSpec K gs
  /-- `transitionModelPrior` -/
  tmPrior : Option (List K)
  firstStep : Bool
  rawData : List D
  rawTs : Option (List K)
  /-- `formattedTimestamps` -/
  fts : Option (PySeq K)
  /-- `transitionModelDistribution`, `localTransitionModelDistribution` -/
  tmd : Option (List K)
  ltmd : Option (List K)
  /-- `marginalizedPosterior` -/
  marg : Arr K gs
  logEv : Option (LogV K)
  /-- `posteriorMeanValues` -/
  means : List (Option (Fin d → K))
  /-- `posteriorSequence` -/
  posts : PySeq (Arr K gs)
  /-- `hyperParameterSequence` -/
  hpds : List (List (Option (List K)))
  /-- `transitionModelSequence`, `localTransitionModelSequence` -/
  tmds : List (Option (List K))
  ltmds : List (Option (List K))

/-- `OnlineStudy(storeHistory)`, core.py 1946-1981 -/
def OState.new (store : Bool) (prior : PriorSpec K gs) : OState K D gs :=
  ⟨store, none, [], prior, none, true, [], none, none, none, none, none, some 0, [], .list [], [], [], []⟩

/-- `setTransitionModel`, core.py 267-285, as far as used here -/
def OState.setTM (S : OState K D gs) : TM K → OState K D gs × Option PyErr
  | .leaf .breakPoint _ _ _ => (S, some .configuration)
  | tm => ({ S with current := some tm }, none)

/-- `addTransitionModel`, core.py 1984-2026.  `'all'` needs `formattedTimestamps[:-1]` (`None` before the first step). -/
def OState.add (S : OState K D gs) (name : String) (tm : TM K) : OState K D gs × Option PyErr :=
  match S.setTM tm with
  | (S, some e) => (S, some e)
  | (S, none) =>
      if S.rawTs.isNone && (tm.flatValues.any fun v => match v with | .all => true | _ => false) then (S, some .typeError)
      else match createHyperGrid tm (match S.fts with | some f => f.entries | none => []) with
        | .error e => (S, some e)
        | .ok g => ({ S with models := S.models ++ [⟨name, tm, g, [], none, none, none⟩] }, none)

/-- `setTransitionModelPrior`, core.py 2040-2060.  A vanishing sum makes all entries nan (not modelled further: `none` is
treated as not set).  Arrays of integers, for which `/=` fails, are not distinguished. -/
def OState.setTMPrior (S : OState K D gs) (p : List K) : OState K D gs × Option PyErr :=
  if p.length ≠ S.models.length then (S, some .configuration)
  else if p.sum = 1 then ({ S with tmPrior := some p }, none)
  else if p.sum = 0 then ({ S with tmPrior := none }, none)
  else ({ S with tmPrior := some (p.map (· / p.sum)) }, none)

/-- The parameter distribution before the new data, core.py 2163-2167; `first`: prior of the first step.  `formattedData` is never set by an
online study, so the time passed to the transition model is `len([]) - 1 = -1`. -/
def predictive (E : Env K gs) (tm : TM K) (first : Option (Arr K gs)) (post : Arr K gs) : Except PyErr (Arr K gs) :=
  match first with
  | some p => .ok p
  | none => tm.fwd E 0 post (-1)

/-- Multiplication with the likelihood, evidence and normalisation, core.py 2164-2175. -/
def OHyp.absorb (h : OHyp K gs) (lik : Idx gs → K) : Arr K gs → OHyp K gs
  | none => ⟨none, none⟩
  | some a =>
      let α : Idx gs → K := fun x => a x * lik x
      let n := ∑ x, α x
      ⟨divScalar α n, if n < 0 then none else h.ev.map (· + LogV.log n)⟩

/-- Update of one hypothesis, core.py 2156-2175. -/
def OHyp.update (E : Env K gs) (tm : TM K) (first : Option (Arr K gs)) (lik : Idx gs → K) (h : OHyp K gs) :
    Except PyErr (OHyp K gs) :=
  (predictive E tm first h.post).map (h.absorb lik)

/-- core.py 2159-2160 -/
def setRow (tm : TM K) : Option (List K) → Except PyErr (TM K)
  | some r => tm.setAll (r.map .scalar)
  | none => .ok tm

/-- Loop over the hyper-parameter values of one transition model, core.py 2156-2175; `none` = no hyper-parameters. -/
def hypLoop (E : Env K gs) (first : Option (Arr K gs)) (lik : Idx gs → K) :
    TM K → List (Option (List K)) → List (OHyp K gs) → Except PyErr (TM K × List (OHyp K gs))
  | tm, [], _ => .ok (tm, [])
  | _, _ :: _, [] => .error .indexError                 -- model added after the first step: `logEvidenceList[i]`
  | tm, row :: rows, h :: hs => do
      let tm' ← setRow tm row
      let h' ← h.update E tm' first lik
      let r ← hypLoop E first lik tm' rows hs
      .ok (r.1, h' :: r.2)

/-- core.py 2152-2154: models without hyper-parameters -/
def rowsOf (g : HyperGrid K) : List (Option (List K)) := if g.rows.length = 0 then [none] else g.rows.map some

/-- `exp(l - amax(l))` divided by its sum, for `l = log w`, core.py 2185-2187, 2200-2206; `none` = nan -/
def normWeights (w : List K) : Option (List K) :=
  match listMax w with
  | none => none
  | some M => if M = 0 then none else
      let e := w.map fun x => x / M
      some (e.map fun x => x / e.sum)

/-- weighted sum of arrays, core.py 2192-2197, 2209-2212 -/
def mixture (ps : List (Arr K gs)) (ws : Option (List K)) : Arr K gs :=
  match allSome ps, ws with
  | some ps, some ws => some fun x => (List.zipWith (fun p w => p x * w) ps ws).sum
  | _, _ => none

/-- `logEvidenceList[i] + log(hyperPriorValues[i])` in linear space -/
def hypWeights (hyps : List (OHyp K gs)) (priors : Option (List K)) : Option (List K) :=
  match allSome (hyps.map OHyp.ev), priors with
  | some evs, some ps => some (List.zipWith (fun e p => (e + LogV.log p).exp) evs ps)
  | _, _ => none

/-- does `hyperPriorValues[i][j]` (core.py 2172) fail? -/
def priorsShort (g : HyperGrid K) : Bool :=
  match g.priors with
  | some ps => decide (ps.length < (rowsOf g).length)
  | none => false

/-- The attributes of one transition model computed from its hypotheses, core.py 2177-2197. -/
def OModelSt.finish (m : OModelSt K gs) (tm : TM K) (hyps : List (OHyp K gs)) : OModelSt K gs :=
  let w := hypWeights hyps m.grid.priors
  let hpd := (w.bind normWeights).bind fun l => if m.grid.hgc.prod = 0 then none else some (l.map (· / m.grid.hgc.prod))
  { m with
    tm := tm
    hyps := hyps
    hyperEv := w.map fun l => ⟨l.sum⟩                    -- 2179 `logsumexp`
    hpd := hpd
    post := mixture (hyps.map OHyp.post) (hpd.map fun l => l.map (· * m.grid.hgc.prod)) }

/-- One transition model in `step`, core.py 2149-2197. -/
def OModelSt.update (E : Env K gs) (first : Option (Arr K gs)) (lik : Idx gs → K) (m : OModelSt K gs) : Except PyErr (OModelSt K gs) :=
  if priorsShort m.grid then .error .indexError
  else (hypLoop E first lik m.tm (rowsOf m.grid) m.hyps).map fun r => m.finish r.1 r.2

/-- Local weight of one model, core.py 2181-2182; `-inf - (-inf)` is nan -/
def localWeight (old new : OModelSt K gs) (p : K) : Option K :=
  match old.hyperEv, new.hyperEv with
  | some o, some n => if o.exp = 0 then none else some (n.exp / o.exp * p)
  | _, _ => none

/-- Initialisation at the first analysed data point, core.py 2105-2140. -/
def OState.initialise (c : OConf K D gs) (S : OState K D gs) : Except PyErr (OState K D gs × Option (Arr K gs)) :=
  if S.firstStep then do
    let (a0, pr) ← computePrior { c.E with prior := S.prior }
    .ok ({ S with
      prior := pr
      tmPrior := some (match S.tmPrior with
        | some p => p
        | none => S.models.map fun _ => 1 / (S.models.length : K))
      models := S.models.map fun m => { m with
        hyps := (rowsOf m.grid).map fun _ => ⟨some fun _ => 0, some (LogV.log c.E.cell)⟩
        hyperEv := some 0 } }, some a0)
  else .ok (S, none)

/-- The attributes computed after the loop over the transition models, core.py 2199-2226. -/
def OState.combine (S : OState K D gs) (ps : List K) (ms : List (OModelSt K gs)) : OState K D gs :=
  let w := (allSome (ms.map OModelSt.hyperEv)).map fun l => l.map LogV.exp
  let tmd := w.bind normWeights
  { S with
    models := ms
    current := (ms.getLast?.map OModelSt.tm).orElse fun _ => S.current
    tmd := tmd
    ltmd := (allSome (List.zipWith (fun q p => localWeight q.1 q.2 p) (S.models.zip ms) ps)).bind normWeights
    marg := mixture (ms.map OModelSt.post) tmd
    logEv := w.map fun l => ⟨(List.zipWith (· * ·) l ps).sum⟩
    firstStep := false }

/-- The analysis of one data segment, core.py 2105-2215. -/
def OState.analyse (c : OConf K D gs) (S : OState K D gs) (lik : Idx gs → K) : Except PyErr (OState K D gs) := do
  let (S, first) ← S.initialise c
  let ps := S.tmPrior.getD []
  if ps.length < S.models.length then .error .indexError         -- `transitionModelPrior[i]`
  else do
    let ms ← mapE (OModelSt.update { c.E with prior := S.prior } first lik) S.models
    .ok (S.combine ps ms)

/-- `storeHistory`, core.py 2217-2223 -/
def OState.record (c : OConf K D gs) (S : OState K D gs) : OState K D gs × Option PyErr :=
  if S.store then
    let S1 := { S with means := S.means ++ [S.marg.map fun p a => mean c.grid a p] }
    match S.posts.append S.marg with
    | .error e => (S1, some e)
    | .ok ps => ({ S1 with
        posts := ps
        hpds := S.hpds ++ [S.models.map OModelSt.hpd]
        tmds := S.tmds ++ [S.tmd]
        ltmds := S.ltmds ++ [S.ltmd] }, none)
  else (S, none)

/-- `step` from line 2098 on.  Simplification: if an exception is raised inside the loop over the transition models, the state
returned does not contain the updates made before. -/
def OState.proceed (c : OConf K D gs) (S : OState K D gs) : OState K D gs × Option PyErr :=
  if S.rawData.length < c.seg then (S, none)
  else match S.fts, S.rawTs.bind List.getLast? with
    | some f, some t => match f.append t with
        | .error e => (S, some e)
        | .ok f' =>
            let S1 := { S with fts := some f' }
            match S1.analyse c (c.pdf (S1.rawData.drop (S1.rawData.length - c.seg))) with      -- 2143, 2146
            | .error e => (S1, some e)
            | .ok S2 => S2.record c
    | _, _ => (S, some .attributeError)

/-- `step(dataPoint)` after a transition model has been added, core.py 2077-2226; `conf = none`: no observation model set. -/
def OState.stepAdded (conf : Option (OConf K D gs)) (S : OState K D gs) (x : D) : OState K D gs × Option PyErr :=
  if S.rawData.length = 0 then
    if ¬ (S.models.flatMap fun m => m.grid.names).Nodup then (S, some .configuration)      -- 2084-2086
    else
      let S1 := { S with rawData := [x] }                                                  -- 2089, before the check
      match conf with
      | none => (S1, some .configuration)
      | some c => { S1 with rawTs := some [0], fts := some (.list []) }.proceed c
  else
    let S1 := { S with rawData := S.rawData ++ [x] }
    match S1.rawTs.bind fun l => l.getLast?.map fun t => l ++ [t + 1] with
    | none => (S1, some .typeError)                                                        -- `None[-1]`
    | some ts =>
        let S2 := { S1 with rawTs := some ts }
        match conf with
        | none => (S2, some .attributeError)
        | some c => S2.proceed c

/-- `step(dataPoint)`, core.py 2062-2226 -/
def OState.step (conf : Option (OConf K D gs)) (S : OState K D gs) (x : D) : OState K D gs × Option PyErr :=
  match S.models, S.current with
  | [], none => (S, some .configuration)
  | [], some tm => match S.add "transition model" tm with
      | (S, some e) => (S, some e)
      | (S, none) => S.stepAdded conf x
  | _, _ => S.stepAdded conf x

/-- `fit`, core.py 2228-2229 -/
def OState.fit (S : OState K D gs) : OState K D gs × Except PyErr Unit := (S, .error .notImplemented)

/-! ## Queries -/

/-- The attributes inherited from `Study` as the queries of `Study` see them. -/
def OState.fitted (c : OConf K D gs) (S : OState K D gs) : Fitted K gs :=
  ⟨c.E.names, c.grid, c.E.lattice, (S.fts.map PySeq.entries).getD [], S.posts.entries, fun _ => [], true⟩

/-- core.py 2252-2253, 2343-2344: conversion to numpy arrays (here `posteriorSequence == []` is never true) -/
def OState.toArrays (S : OState K D gs) : OState K D gs :=
  { S with fts := some (PySeq.ndarray ((S.fts.map PySeq.entries).getD [])), posts := S.posts.toArray }

/-- core.py 2258-2259, 2349-2350: conversion back, reached only without exception -/
def OState.toLists (S : OState K D gs) : OState K D gs :=
  { S with fts := S.fts.map PySeq.toList, posts := S.posts.toList }

/-- `getParameterDistribution`, core.py 2231-2260 -/
def OState.getParameterDistribution (c : OConf K D gs) (S : OState K D gs) (t : TimeArg K) (name : String) (density : Bool) :
    OState K D gs × Except PyErr (List K × Option (List K)) :=
  if S.store = false then (S, .error .postProcessing)
  else match (S.fitted c).distribution t name density with
    | .error e => (S.toArrays, .error e)
    | .ok r => (S.toArrays.toLists, .ok r)

/-- `getPD`, core.py 2262-2266: the argument `density` is not passed on -/
def OState.getPD (c : OConf K D gs) (S : OState K D gs) (t : TimeArg K) (name : String) (_density : Bool) :
    OState K D gs × Except PyErr (List K × Option (List K)) :=
  S.getParameterDistribution c t name true

/-- `getParameterDistributions`, core.py 2323-2351 -/
def OState.getParameterDistributions (c : OConf K D gs) (S : OState K D gs) (name : String) (density : Bool) :
    OState K D gs × Except PyErr (List K × List (Option (List K))) :=
  if S.store = false then (S, .error .postProcessing)
  else match (S.fitted c).distributions name density with
    | .error e => (S.toArrays, .error e)
    | .ok r => (S.toArrays.toLists, .ok r)

/-- `getCurrentParameterDistribution`, core.py 2268-2315 -/
def OState.getCurrentParameterDistribution (c : OConf K D gs) (S : OState K D gs) (name : String) (density : Bool) :
    Except PyErr (List K × Option (List K)) :=
  match paramIndex c.E.names name with
  | none => .error .postProcessing
  | some a => .ok (List.ofFn (c.grid a), S.marg.bind fun p => toDensity density (c.E.lattice a) (marginal a p))

/-- `getCurrentTransitionModelDistribution`, core.py 2386-2399 -/
def OState.getCurrentTMD (S : OState K D gs) (loc : Bool) : List String × Option (List K) :=
  (S.models.map OModelSt.name, if loc then S.ltmd else S.tmd)

/-- `list.index` -/
def nameIndex (l : List String) (n : String) : Except PyErr ℕ := if n ∈ l then .ok (l.idxOf n) else .error .valueError

/-- `getCurrentTransitionModelProbability`, core.py 2407-2422; `TypeError` before the first analysed data point; nan = `none` -/
def OState.getCurrentTMP (S : OState K D gs) (name : String) (loc : Bool) : Except PyErr (Option K) := do
  let i ← nameIndex (S.models.map OModelSt.name) name
  if S.firstStep then .error .typeError
  else match (if loc then S.ltmd else S.tmd) with
    | none => .ok none
    | some l => match l[i]? with
        | none => .error .indexError
        | some p => .ok (some p)

/-- `getTransitionModelDistributions`, core.py 2430-2450 -/
def OState.getTMDs (S : OState K D gs) (loc : Bool) : Except PyErr (List String × List (Option (List K))) :=
  if S.store = false then .error .postProcessing
  else .ok (S.models.map OModelSt.name, if loc then S.ltmds else S.tmds)

/-- `getTransitionModelProbabilities`, core.py 2452-2476 (an empty history has no second axis) -/
def OState.getTMPs (S : OState K D gs) (name : String) (loc : Bool) : Except PyErr (List (Option K)) :=
  if S.store = false then .error .postProcessing
  else do
    let i ← nameIndex (S.models.map OModelSt.name) name
    let l := if loc then S.ltmds else S.tmds
    if l.length = 0 then .error .indexError
    else mapE (fun r : Option (List K) => match r with
      | none => .ok none
      | some r => match r[i]? with
          | none => Except.error .indexError
          | some p => .ok (some p)) l

/-- `getCurrentParameterMeanValue`, core.py 2484-2506; `None * array` before the first analysed data point is not modelled -/
def OState.getCurrentMean (c : OConf K D gs) (S : OState K D gs) (name : String) : Except PyErr (Option K) :=
  match paramIndex c.E.names name with
  | none => .error .postProcessing
  | some a => .ok (S.marg.map (mean c.grid a))

/-- `parameterDistribution[t]` broadcast against the grid, core.py 2542: the distribution is indexed with the time stamp along its first axis.  Time stamps are natural
numbers (2092, 2096) passed as such. -/
def timeRow (p : Idx gs → K) (grid : (a : Fin d) → Fin (gs a) → K) (a : Fin d) (n : ℕ) : Except PyErr K :=
  match d, gs, p, grid, a with
  | 0, _, _, _, a => a.elim0
  | d + 1, gs, p, grid, a =>
      if h : n < gs 0 then
        -- the first axis is replaced by its entry `n`; numpy broadcasts the remaining axes
        if d = 0 then .ok (∑ x : Idx gs, p (fun b => if e : b = 0 then e ▸ ⟨n, h⟩ else x b) * grid a (x a))
        else .error .notImplemented                    -- two and more parameters: not modelled
      else .error .indexError

/-- `getParameterMeanValue`, core.py 2508-2543, for a natural number as time -/
def OState.getMean (c : OConf K D gs) (S : OState K D gs) (t : ℕ) (name : String) : Except PyErr (Option K) :=
  if S.store = false then .error .postProcessing
  else match paramIndex c.E.names name with
    | none => .error .postProcessing
    | some a => match indexOf? ((S.fts.map PySeq.entries).getD []) (t : K) with
        | none => .error .postProcessing
        | some k => match S.posts.entries[k]? with
            | none => .error .indexError
            | some none => .ok none
            | some (some p) => (timeRow p c.grid a t).map some

/-- `getParameterMeanValues`, core.py 2545-2572; without history `np.array([]).T[i]` fails -/
def OState.getMeans (c : OConf K D gs) (S : OState K D gs) (name : String) : Except PyErr (List (Option K)) :=
  if S.store = false then .error .postProcessing
  else match paramIndex c.E.names name with
    | none => .error .postProcessing
    | some a => if S.means.length = 0 then .error .indexError else .ok (S.means.map fun m => m.map (· a))

/-- Search for a hyper-parameter in all transition models, core.py 2590-2599 and the same lines in all hyper-parameter
queries: the last model that contains the name is taken. -/
def findHyper (ms : List (OModelSt K gs)) (name : String) : Option (ℕ × ℕ) :=
  (ms.zipIdx).foldl (fun acc q => match q.1.tm.hyperIndex name with
    | .ok a => some (q.2, a)
    | .error _ => acc) none

/-- mean of one hyper-parameter for the given distribution, core.py 2613-2614, 2648-2649 -/
def hyperMean (g : HyperGrid K) (hpd : List K) (a : ℕ) : K :=
  (List.zipWith (fun (r : List K) p => r.getD a 0 * p * g.hgc.prod) g.rows hpd).sum

/-- entry of the hyper-parameter history for time index `k` and transition model `i` -/
def hpdAt (S : OState K D gs) (k i : ℕ) : Except PyErr (Option (List K)) :=
  match S.hpds[k]? with
  | none => .error .indexError
  | some r => match r[i]? with
      | none => .error .indexError
      | some p => .ok p

/-- `getHyperParameterMeanValue`, core.py 2574-2614 -/
def OState.getHyperMean (S : OState K D gs) (t : K) (name : String) : Except PyErr (Option K) :=
  if S.store = false then .error .postProcessing
  else match findHyper S.models name with
    | none => .error .postProcessing
    | some (i, a) => match indexOf? ((S.fts.map PySeq.entries).getD []) t with
        | none => .error .postProcessing
        | some k => match S.models[i]? with
            | none => .error .indexError
            | some m => (hpdAt S k i).map fun p => p.map fun p => hyperMean m.grid p a

/-- `getHyperParameterMeanValues`, core.py 2616-2649 -/
def OState.getHyperMeans (S : OState K D gs) (name : String) : Except PyErr (List (Option K)) :=
  if S.store = false then .error .postProcessing
  else match findHyper S.models name with
    | none => .error .postProcessing
    | some (i, a) => match S.models[i]? with
        | none => .error .indexError
        | some m => if S.hpds.length = 0 then .error .indexError
            else mapE (fun k => (hpdAt S k i).map fun p => p.map fun p => hyperMean m.grid p a) (List.range S.hpds.length)

/-- whether `len(x)` is defined for every entry of `allFlatHyperParameterValues[tmIndex]`, core.py 2698, 2756: a hyper-parameter given as a plain number
has no length (`TypeError`) -/
def lenDefined (flat : List (HVal K)) : Bool :=
  flat.all fun v => match v with
    | .array _ => true
    | .pylist _ => true
    | .all => true
    | .scalar _ => false
    | .none => false

/-- the common part of the queries for one distribution, core.py 2693-2700, 2752-2758, without the conversion to probabilities -/
def marginalHyper (g : HyperGrid K) (D : List K) (a : ℕ) : Except PyErr (ND K) := do
  let bs ← removeE (List.range g.names.length) a
  if D.length ≠ (g.flat.map gridSteps).prod then .error .valueError
  else .ok ((ND.reshape D (g.flat.map gridSteps)).sumAxes bs).squeeze

/-- `getHyperParameterDistribution`, core.py 2651-2718 (`t = 'avg'` not modelled).  In contrast to the query for the current distribution the values are
not multiplied by the grid constants. -/
def OState.getHPD (S : OState K D gs) (t : K) (name : String) : Except PyErr (HVal K × Option (ND K)) :=
  if S.store = false then .error .postProcessing
  else match findHyper S.models name with
    | none => .error .postProcessing
    | some (i, a) => match indexOf? ((S.fts.map PySeq.entries).getD []) t with
        | none => .error .postProcessing
        | some k => match S.models[i]?.bind fun m => m.grid.flat[a]?.map fun x => (m, x) with
            | none => .error .indexError
            | some (m, x) => match hpdAt S k i with
                | .error e => .error e
                | .ok D => if lenDefined m.grid.flat = false then .error .typeError else match D with
                | none => .ok (x, none)
                | some D => (marginalHyper m.grid D a).map fun A => (x, some A)

/-- `getCurrentHyperParameterDistribution`, core.py 2726-2777.  With a single hyper-parameter nothing is summed and `*=` changes the attribute
`hyperParameterDistribution[i]` itself. -/
def OState.getCurrentHPD (S : OState K D gs) (name : String) : OState K D gs × Except PyErr (HVal K × Option (ND K)) :=
  match findHyper S.models name with
  | none => (S, .error .postProcessing)
  | some (i, a) => match S.models[i]?.bind fun m => m.grid.flat[a]?.map fun x => (m, x) with
      | none => (S, .error .indexError)
      | some (m, x) =>
          if S.firstStep then (S, .error .typeError)
          else if lenDefined m.grid.flat = false then (S, .error .typeError)
          else match m.hpd with
          | none => (S, .ok (x, none))
          | some D => match marginalHyper m.grid D a with
              | .error e => (S, .error e)
              | .ok A =>
                  (if m.grid.names.length = 1 then
                      { S with models := S.models.set i { m with hpd := some (D.map (· * m.grid.hgc.prod)) } }
                    else S,
                   .ok (x, some (A.scale m.grid.hgc.prod)))

/-- one row of the result of `getHyperParameterDistributions`, core.py 2819-2829: sum over the grid points with the given value, divided by the sum of all -/
def marginalRow (rows : List (List K)) (a : ℕ) (vals : List K) (D : List K) : Option (List K) :=
  let l := vals.map fun v => ((rows.zip D).map fun q => if q.1.getD a 0 = v then q.2 else 0).sum
  if l.sum = 0 then none else some (l.map (· / l.sum))

/-- `np.sort(np.unique(l))` -/
def sortedValues (l : List K) : List K := l.dedup.insertionSort (· ≤ ·)

/-- `getHyperParameterDistributions`, core.py 2785-2831 -/
def OState.getHPDs (S : OState K D gs) (name : String) : Except PyErr (List K × List (Option (List K))) :=
  if S.store = false then .error .postProcessing
  else match findHyper S.models name with
    | none => .error .postProcessing
    | some (i, a) => match S.models[i]? with
        | none => .error .indexError
        | some m =>
            if S.hpds.length = 0 then .error .indexError
            else do
              let vals := sortedValues (m.grid.rows.map fun r => r.getD a 0)
              let l ← mapE (fun k => hpdAt S k i) (List.range S.hpds.length)
              .ok (vals, l.map fun D => D.bind (marginalRow m.grid.rows a vals))

/-- The queries above. -/
inductive OQuery (K : Type)
  | parameterDistribution (t : TimeArg K) (name : String) (density : Bool)
  | pd (t : TimeArg K) (name : String) (density : Bool)
  | parameterDistributions (name : String) (density : Bool)
  | currentParameterDistribution (name : String) (density : Bool)
  | currentTMD (loc : Bool)
  | currentTMP (name : String) (loc : Bool)
  | tmds (loc : Bool)
  | tmps (name : String) (loc : Bool)
  | currentMean (name : String)
  | mean (t : ℕ) (name : String)
  | means (name : String)
  | hyperMean (t : K) (name : String)
  | hyperMeans (name : String)
  | hpd (t : K) (name : String)
  | currentHPD (name : String)
  | hpds (name : String)

/-- the exception, if any -/
def errOf {α : Type} : Except PyErr α → Option PyErr
  | .error e => some e
  | .ok _ => none

/-- Effect of a query on the study. -/
def OQuery.exec (c : OConf K D gs) (S : OState K D gs) : OQuery K → OState K D gs × Option PyErr
  | .parameterDistribution t n b => let r := S.getParameterDistribution c t n b; (r.1, errOf r.2)
  | .pd t n b => let r := S.getPD c t n b; (r.1, errOf r.2)
  | .parameterDistributions n b => let r := S.getParameterDistributions c n b; (r.1, errOf r.2)
  | .currentParameterDistribution n b => (S, errOf (S.getCurrentParameterDistribution c n b))
  | .currentTMD _ => (S, none)
  | .currentTMP n b => (S, errOf (S.getCurrentTMP n b))
  | .tmds b => (S, errOf (S.getTMDs b))
  | .tmps n b => (S, errOf (S.getTMPs n b))
  | .currentMean n => (S, errOf (S.getCurrentMean c n))
  | .mean t n => (S, errOf (S.getMean c t n))
  | .means n => (S, errOf (S.getMeans c n))
  | .hyperMean t n => (S, errOf (S.getHyperMean t n))
  | .hyperMeans n => (S, errOf (S.getHyperMeans n))
  | .hpd t n => (S, errOf (S.getHPD t n))
  | .currentHPD n => let r := S.getCurrentHPD n; (r.1, errOf r.2)
  | .hpds n => (S, errOf (S.getHPDs n))

/-- A call of a method of an online study (the observation model is set before). -/
inductive OCall (K D : Type)
  | add (name : String) (tm : TM K)
  | setTM (tm : TM K)
  | setPrior (p : List K)
  | step (x : D)
  | query (q : OQuery K)

/-- State afterwards, and the exception, if any. -/
def OCall.exec (c : OConf K D gs) (S : OState K D gs) : OCall K D → OState K D gs × Option PyErr
  | .add n tm => S.add n tm
  | .setTM tm => S.setTM tm
  | .setPrior p => S.setTMPrior p
  | .step x => S.step (some c) x
  | .query q => q.exec c S

/-- A history of calls: the caller catches all exceptions; final state and the outcomes of all calls. -/
def execAll (c : OConf K D gs) : OState K D gs → List (OCall K D) → OState K D gs × List (Option PyErr)
  | S, [] => (S, [])
  | S, q :: qs =>
      let r := q.exec c S
      let s := execAll c r.1 qs
      (s.1, r.2 :: s.2)

end BL
