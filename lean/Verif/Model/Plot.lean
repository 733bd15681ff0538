import Verif.Model.Online
import Verif.Model.Changepoint

/-!
# Plots (core.py 864-1097, 1574-1694, 1702-1740, 1916-1925, 2231-2384, 2707-2777, 2839-2990)

A plot is the list of the drawing commands sent to matplotlib, with the numbers passed to them.  Not modelled: colours, line widths and all other keyword arguments that
are passed on to matplotlib, figure and subplot handling, and the text of printed warnings (1024-1026).
-/

set_option linter.unusedSectionVars false

namespace BL

/-- Axis of a plot. -/
inductive PlotAxis
  | x | y | z
  deriving DecidableEq

/-- Commands for matplotlib; `none` stands for entries that are not numbers (nan). -/
inductive Draw (K : Type)
  /-- `plt.fill_between(x, 0, y)` -/
  | area (x : List K) (y : Option (List K))
  /-- `plt.imshow(M.T, origin='lower', extent=[x0, x1, y0, y1], aspect='auto')`; `cols` are the rows of `M`, i.e. the columns of the picture from left to right, each from bottom
  to top -/
  | image (cols : List (Option (List K))) (x0 x1 y0 y1 : K)
  /-- `plt.plot(x, y)` -/
  | curve (x : List K) (y : List (Option K))
  /-- `plt.bar(x, h, align='center', width=w)` -/
  | bars (x : List K) (h : Option (List K)) (w : K)
  /-- `ax.bar3d(x, y, z, dx, dy, dz)` -/
  | bars3 (x y z : List K) (dx dy : K) (dz : List K)
  /-- `plt.xticks(pos, labels)`, `plt.yticks(pos, labels)` -/
  | ticks (axis : PlotAxis) (pos labels : List K)
  /-- `plt.ylim(lo, hi)` -/
  | limits (lo hi : K)
  /-- `plt.xlabel(s)` etc. -/
  | label (axis : PlotAxis) (s : String)
  deriving DecidableEq

variable {K D : Type} [Field K] [LinearOrder K] {d : ℕ} {gs : Fin d → ℕ}

/-! ## `Study` -/

/-- `[l[0], l[-1]]`, e.g. `boundaries`, core.py 158, and the limits of the time axis, 996, 1054, 2879-2880 -/
def ends (l : List K) : Except PyErr (K × K) :=
  match l.head?, l.getLast? with
  | some a, some b => .ok (a, b)
  | _, _ => .error .indexError

/-- largest entry, `np.amax`, core.py 1047, 2871; `none`: nan (or no entries at all) -/
def imageMax (m : List (Option (List K))) : Option K := (allSome m).bind fun l => listMax l.flatten

/-- `if p < pmax*(10**-20): p = 0`, core.py 1048, 2872; comparisons with nan are false -/
def cleanValue : Option K → K → K
  | none, p => p
  | some pmax, p => if p < pmax * (1 / 10 ^ 20) then 0 else p

/-- `m[m < pmax*(10**-20)] = 0` -/
def cleanUp (m : List (Option (List K))) : List (Option (List K)) := m.map fun r => r.map fun r => r.map (cleanValue (imageMax m))

/-- the two axes labels of a plotted distribution, core.py 922-926, 2308-2313 -/
def densityLabels (name : String) (density : Bool) : List (Draw K) :=
  [.label .x name, .label .y (if density then "probability density" else "probability")]

/-- `Study.getParameterDistribution(t, name, plot=True, density)`, core.py 920-926.  The label is the entry of `parameterNames` that equals `name`. -/
def Fitted.distributionPlot (F : Fitted K gs) (t : TimeArg K) (name : String) (density : Bool) : Except PyErr (List (Draw K)) :=
  (F.distribution t name density).map fun r => .area r.1 r.2 :: densityLabels name density

/-- `Study.getParameterDistributions(name, plot=True, density)`, core.py 985-997 -/
def Fitted.distributionsPlot (F : Fitted K gs) (name : String) (density : Bool) : Except PyErr (List (Draw K)) := do
  let r ← F.distributions name density
  let t ← ends F.ts
  let b ← ends r.1
  .ok [.image r.2 t.1 t.2 b.1 b.2]

/-- core.py 1051-1069: image, mean values, limits and labels; `plt.plot` needs as many mean values as time stamps -/
def evolutionDraws (gamma : K → K) (m : List (Option (List K))) (ts : List K) (means : List (Option K)) (vals : List K) (name : String) :
    Except PyErr (List (Draw K)) := do
  let t ← ends ts
  let b ← ends vals
  if means.length ≠ ts.length then .error .valueError
  else .ok [.image ((cleanUp m).map fun r => r.map fun r => r.map gamma) t.1 t.2 b.1 b.2, .curve ts means, .limits b.1 b.2, .label .y name, .label .x "time step"]

/-- `Study.plotParameterEvolution`, core.py 1007-1069; `gamma p` is `p**gamma`; `means` is the access to `posteriorMeanValues[paramIndex]`.  First component: the attributes
afterwards.  `np.apply_over_axes` returns the array itself if there is no axis to sum over, i.e. for one parameter, and `np.squeeze` returns a view: the assignment in line 1048
changes the attribute `posteriorSequence` itself. -/
def Fitted.evolution (F : Fitted K gs) (gamma : K → K) (name : String) (means : Fin d → Except PyErr (List (Option K))) :
    Fitted K gs × Except PyErr (List (Draw K)) :=
  if F.posts.length = 0 then (F, .error .postProcessing)                     -- 1019-1021
  else if F.ts.length < 2 then (F, .error .indexError)                       -- 1024 `dt[0]`
  else match paramIndex F.names name with
    | none => (F, .error .postProcessing)
    | some a =>
        let m : List (Option (List K)) := F.posts.map fun p => p.map (marginal a)
        (if d = 1 then { F with posts := F.posts.map fun p => p.map fun p x => cleanValue (imageMax m) (p x) } else F,
         (means a).bind fun mv => evolutionDraws gamma m F.ts mv (List.ofFn (F.grid a)) name)

/-- `Study.plotParameterEvolution` -/
def Fitted.plotEvolution (F : Fitted K gs) (gamma : K → K) (name : String) : Fitted K gs × Except PyErr (List (Draw K)) :=
  F.evolution gamma name fun a => .ok ((F.means a).map some)

/-- `Study.plot(name, [t], [density], [gamma])`, core.py 1071-1097 -/
def Fitted.plot (F : Fitted K gs) (gamma : K → K) (name : String) (t : Option (TimeArg K)) (density : Bool) : Fitted K gs × Except PyErr (List (Draw K)) :=
  match t with
  | some t => (F, F.distributionPlot t name density)
  | none => F.plotEvolution gamma name

/-! ## `HyperStudy` and `ChangepointStudy` -/

/-- Bar chart of a hyper-parameter distribution, core.py 1574-1585, 2703-2716, 2762-2775; `np.diff` of a number fails.  `'all'` has been replaced before (1158). -/
def hyperBars (x : HVal K) (h : Option (List K)) (w : Except PyErr K) (name : String) : Except PyErr (List (Draw K)) :=
  match x with
  | .array l | .pylist l =>
      if irregular l then
        .ok [.bars ((List.range l.length).map Nat.cast) h 1, .ticks .x ((List.range l.length).map Nat.cast) l, .label .y "probability", .label .x name]
      else w.bind fun w => .ok [.bars l h w, .label .y "probability", .label .x name]
  | _ => .error .valueError

/-- access `l[i]` -/
def getE {α : Type} (l : List α) (i : ℕ) : Except PyErr α :=
  match l[i]? with
  | some a => .ok a
  | none => .error .indexError

/-- `HyperStudy.getHyperParameterDistribution(name, plot=True)`, core.py 1535-1587; first component: `hyperParameterDistribution` afterwards -/
def getHPDPlot (tm : TM K) (g : HyperGrid K) (D : List K) (name : String) : List K × Except PyErr (List (Draw K)) :=
  ((getHPD tm g D name).1, do
    let r ← (getHPD tm g D name).2
    let a ← tm.hyperIndex name
    hyperBars r.1 (some r.2.flat) (getE g.hgc a) name)

/-- positions of the bars along one axis of a three-dimensional bar chart, core.py 1648-1656 -/
def barPositions (l : List K) : List K := if irregular l then (List.range l.length).map Nat.cast else l

/-- core.py 1677-1681 -/
def jointTicks (axis : PlotAxis) (l : List K) : List (Draw K) :=
  if irregular l then [.ticks axis ((List.range l.length).map Nat.cast) l] else []

/-- values of a hyper-parameter -/
def valuesE : HVal K → Except PyErr (List K)
  | .array l => .ok l
  | .pylist l => .ok l
  | _ => .error .valueError

/-- `HyperStudy.getJointHyperParameterDistribution(names, plot=True)`, core.py 1593-1694: the chart is drawn (1658-1687) before the order of the names is restored (1690-1692). -/
def getJHPDPlot (tm : TM K) (g : HyperGrid K) (D : List K) (names : List String) : List K × Except PyErr (List (Draw K)) :=
  ((getJHPD tm g D names).1, do
    let r ← (getJHPD tm g D names).2
    let n1 ← getE names 0
    let n2 ← getE names 1
    let a1 ← tm.hyperIndex n1
    let a2 ← tm.hyperIndex n2
    let sw : Bool := !decide (a1 < a2)
    let a := if sw then a2 else a1
    let b := if sw then a1 else a2
    let x ← valuesE (if sw then r.2.1 else r.1)
    let y ← valuesE (if sw then r.1 else r.2.1)
    let z := (if sw then r.2.2.transpose else r.2.2).flat
    let wx ← getE g.hgc a
    let wy ← getE g.hgc b
    let xs := (barPositions x).flatMap fun u => y.map fun _ => u                  -- `np.tile(x, (len(y), 1)).T.flatten()`
    let ys := x.flatMap fun _ => barPositions y                                    -- `np.tile(y, (len(x), 1)).flatten()`
    .ok (.bars3 (xs.map (· - wx / 2)) (ys.map (· - wy / 2)) (z.map fun _ => 0) wx wy z :: (jointTicks .x x ++ jointTicks .y y ++
      [.label .x (if sw then n2 else n1), .label .y (if sw then n1 else n2), .label .z "probability"])))

/-- Attributes of a hyper-study read by `plot`. -/
structure HFitted (K : Type) {d : ℕ} (gs : Fin d → ℕ) where
  F : Fitted K gs
  tm : TM K
  g : HyperGrid K
  /-- `hyperParameterDistribution` -/
  hpd : List K

/-- `HyperStudy.plot(name, [t], [density], [gamma])`, core.py 1702-1740; inherited by `ChangepointStudy` -/
def HFitted.plot (H : HFitted K gs) (gamma : K → K) (name : String) (t : Option (TimeArg K)) (density : Bool) : HFitted K gs × Except PyErr (List (Draw K)) :=
  match t with
  | some t => (H, H.F.distributionPlot t name density)
  | none => match H.tm.hyperIndex name with
      | .ok _ => let r := getHPDPlot H.tm H.g H.hpd name; ({ H with hpd := r.1 }, r.2)
      | .error .postProcessing => let r := H.F.plotEvolution gamma name; ({ H with F := r.1 }, r.2)
      | .error e => (H, .error e)

/-- `ChangepointStudy.getDurationDistribution(names, plot=True)`, core.py 1916-1923; the label is not modelled -/
def getDDPlot (C : CState K gs) (D : List K) (names : List String) : Except PyErr (List (Draw K)) := do
  let r ← getDD C D names
  let w ← getE r.1 0
  .ok [.bars r.1 r.2 w, .label .y "probability"]

/-! ## `OnlineStudy` -/

/-- `np.array(l).T` for rows of equal length -/
def transposed {α : Type} : List (List α) → List (List α)
  | [] => []
  | r :: l => (List.range r.length).map fun j => (r :: l).filterMap fun q => q[j]?

/-- An online study together with its attribute `posteriorMeanValues`, a list of rows or a numpy array (the field `means` of `S` is not used). -/
structure PState (K D : Type) {d : ℕ} (gs : Fin d → ℕ) where
  S : OState K D gs
  means : PySeq (List (Option K))

/-- one entry of `posteriorMeanValues`, core.py 2219 -/
def meanRow (m : Option (Fin d → K)) : List (Option K) := List.ofFn fun a => m.map (· a)

/-- a study as left by `step` -/
def OState.forPlot (S : OState K D gs) : PState K D gs := ⟨S, .list (S.means.map meanRow)⟩

/-- `OnlineStudy.getParameterMeanValues`, core.py 2545-2572 -/
def PState.getMeans (c : OConf K D gs) (P : PState K D gs) (name : String) : Except PyErr (List (Option K)) :=
  if P.S.store = false then .error .postProcessing
  else match paramIndex c.E.names name with
    | none => .error .postProcessing
    | some a => getE (transposed P.means.entries) a

/-- `OnlineStudy.plotParameterEvolution`, core.py 2359-2384; the attributes are converted back only without exception -/
def PState.plotEvolution (c : OConf K D gs) (P : PState K D gs) (gamma : K → K) (name : String) : PState K D gs × Except PyErr (List (Draw K)) :=
  if P.S.store = false then (P, .error .postProcessing)
  else
    let M := transposed P.means.entries
    let r := (P.S.fitted c).evolution gamma name fun a => getE M a
    let S1 := { P.S.toArrays with posts := .ndarray r.1.posts }
    match r.2 with
    | .error e => (⟨S1, .ndarray M⟩, .error e)
    | .ok dr => (⟨S1.toLists, .list (transposed M)⟩, .ok dr)

/-- `OnlineStudy.plotHyperParameterEvolution`, core.py 2839-2894 -/
def OState.plotHyperEvolution (S : OState K D gs) (gamma : K → K) (name : String) : Except PyErr (List (Draw K)) := do
  let r ← S.getHPDs name
  let mv ← S.getHyperMeans name
  evolutionDraws gamma r.2 ((S.fts.map PySeq.entries).getD []) mv r.1 name

/-- column of the sequence of transition-model distributions, core.py 2978-2986 -/
def tmColumn (i : ℕ) (l : List (Option (List K))) : Except PyErr (List (Option K)) :=
  if l.length = 0 then .error .indexError
  else mapE (fun r : Option (List K) => match r with
    | none => .ok none
    | some r => (getE r i).map some) l

/-- bar chart of a past or the current hyper-parameter distribution, core.py 2702-2718, 2761-2777 -/
def OState.hyperChart (S : OState K D gs) (r : Except PyErr (HVal K × Option (ND K))) (name : String) : Except PyErr (List (Draw K)) := do
  let r ← r
  match findHyper S.models name with
  | none => .error .postProcessing
  | some (i, a) => do
      let m ← getE S.models i
      hyperBars r.1 (r.2.map ND.flat) (getE m.grid.hgc a) name

/-- the call raises no exception -/
def noError {α : Type} : Except PyErr α → Bool
  | .ok _ => true
  | .error _ => false

/-- `OnlineStudy.plot(name, [t], [density], [gamma], [local])`, core.py 2900-2990.  Not modelled: `t='avg'` for hyper-parameters. -/
def PState.plot (c : OConf K D gs) (P : PState K D gs) (gamma : K → K) (name : String) (t : Option (TimeArg K)) (density loc : Bool) :
    PState K D gs × Except PyErr (List (Draw K)) :=
  if t.isSome && !P.S.store then (P, .error .postProcessing)
  else
    let hyper := P.S.models.any fun m => noError (m.tm.hyperIndex name)
    let model := (P.S.models.map OModelSt.name).contains name
    match hyper, model with
    | false, false => match t with
        | none =>
            if P.S.store then P.plotEvolution c gamma name
            else (P, (P.S.getCurrentParameterDistribution c name density).map fun r => .area r.1 r.2 :: densityLabels name density)
        | some t =>
            let r := P.S.getParameterDistribution c t name density
            ({ P with S := r.1 }, r.2.map fun r => .area r.1 r.2 :: densityLabels name density)
    | true, false => match t with
        | none =>
            if P.S.store then (P, P.S.plotHyperEvolution gamma name)
            else let r := P.S.getCurrentHPD name; ({ P with S := r.1 }, P.S.hyperChart r.2 name)
        | some (.at t) => (P, P.S.hyperChart (P.S.getHPD t name) name)
        | some .avg => (P, .error .notImplemented)
    | false, true =>
        (P, do
          let y ← tmColumn ((P.S.models.map OModelSt.name).idxOf name) (if loc then P.S.ltmds else P.S.tmds)
          let ts := (P.S.fts.map PySeq.entries).getD []
          if y.length ≠ ts.length then .error .valueError else .ok [.curve ts y])
    | true, true => (P, .error .postProcessing)

/-- `OnlineStudy.step` for a study whose `posteriorMeanValues` may be an array, core.py 2062-2226: `append` (2219) is the first statement of the storage part -/
def PState.step (conf : Option (OConf K D gs)) (P : PState K D gs) (x : D) : PState K D gs × Option PyErr :=
  let r := P.S.step conf x
  if r.1.means.length = P.S.means.length then (⟨r.1, P.means⟩, r.2)
  else match P.means.append (meanRow (r.1.means.getLast?.bind id)) with
    | .ok ms => (⟨r.1, ms⟩, r.2)
    | .error e => (⟨{ r.1 with posts := P.S.posts, hpds := P.S.hpds, tmds := P.S.tmds, ltmds := P.S.ltmds }, P.means⟩, some e)

end BL
