import Verif.Model.HyperDist
import Mathlib.Data.List.Sort

/-!
# `ChangepointStudy` (core.py 1743-1930)
-/

set_option linter.unusedSectionVars false

namespace BL
variable {K : Type} [Field K] [LinearOrder K] {d : ℕ} {gs : Fin d → ℕ}

mutual
/-- number of models found by `_unpackSerialTransitionModels`, core.py 1854-1873 -/
def TM.serialCount : TM K → ℕ
  | .leaf _ _ _ _ => 0
  | .combined ms => TM.serialCounts ms
  | .serial _ _ _ _ ms => TM.serialCounts ms + 1
/-- the loop 1864-1866 -/
def TM.serialCounts : List (TM K) → ℕ
  | [] => 0
  | m :: ms => TM.serialCount m + TM.serialCounts ms
end

/-- `all(x[i] < x[i + 1] for i in range(n - 1))`, core.py 1827-1829 (`x` has `n` entries) -/
def ordered : ℕ → List K → Bool
  | n + 2, x :: y :: l => decide (x < y) && ordered (n + 1) (y :: l)
  | n + 2, _ => false
  | _, _ => true

/-- the entries of `x` in the columns of `pointMask`, core.py 1823-1824 -/
def pointValues (names points : List String) (x : List K) : List K :=
  ((names.zip x).filter fun p => decide (p.1 ∈ points)).map (·.2)

/-- `l[mask]` -/
def select {α : Type} : List Bool → List α → List α
  | true :: m, x :: l => x :: select m l
  | false :: m, _ :: l => select m l
  | _, _ => []

/-- `temp = np.zeros(len(mask)); temp[mask] = l` -/
def scatter : List Bool → List K → List K
  | true :: m, x :: l => x :: scatter m l
  | true :: m, [] => 0 :: scatter m []
  | false :: m, l => 0 :: scatter m l
  | [], _ => []

/-- State of a change-point study after `fit`. -/
structure CState (K : Type) {d : ℕ} (gs : Fin d → ℕ) where
  /-- attributes shared with `HyperStudy`; `hyperParameterDistribution` has one entry per row of `allHyperGridValues` -/
  R : HState K gs
  /-- `flatHyperParameters`, `flatHyperParameterNames`, `hyperGridConstant`; `hyperGridValues` (accepted combinations) -/
  grid : HyperGrid K
  /-- `allHyperGridValues` -/
  allRows : List (List K)
  /-- `mask` -/
  mask : List Bool

/-- `flatHyperPriorValues *= np.sum(allHyperPriorValues)/np.sum(allHyperPriorValues[mask])`, core.py 1831-1834; `none`: nan -/
def rescaled (mask : List Bool) (ps : List K) : Option (List K) :=
  let q := select mask ps
  if q.sum = 0 then none else some (q.map (· * (ps.sum / q.sum)))

/-- `ChangepointStudy.fit`, core.py 1782-1852, on consistent settings.  `.ok none`: prior values are nan. -/
def cpFit (I : FitIn K gs) (nJobs : ℕ) (H : HState K gs) : Except PyErr (Option (CState K gs)) := do
  if H.tm.serialCount > 1 then .error .notImplemented                          -- 1787-1789
  else
    let cps := flatten H.tm.cpNameTree
    let bps := flatten H.tm.bpNameTree
    if cps.length > 0 ∧ bps.length > 0 then .error .notImplemented             -- 1796-1799
    else if cps.length = 0 ∧ bps.length = 0 then .error .configuration         -- 1802-1804
    else do
      let points := if cps.length > 0 then cps else bps                        -- 1810-1815
      let g ← createHyperGrid H.tm I.ts                                        -- 1819
      let mask := g.rows.map fun x => ordered points.length (pointValues g.names points x)   -- 1823-1829
      let rows := select mask g.rows                                           -- 1830
      if (duplicates H.tm.flatNames).length > 0 then .error .configuration     -- `_checkConsistency` in `HyperStudy.fit`
      else match g.priors with
        | none => .ok none
        | some ps => match rescaled mask ps with
          | none => .ok none
          | some qs => do
              let r ← hyperCore I nJobs g.flat rows g.hgc qs H                 -- 1837-1842
              let hpd ← match r.hpd with                                       -- 1846-1848
                | none => .ok none                                             -- `None` gives nan
                | some l => if l.length = rows.length then .ok (some (scatter mask l)) else .error .valueError
              .ok (some { R := { r with hpd := hpd }
                          grid := { g with rows := rows, priors := some (scatter mask qs) }   -- 1850-1852
                          allRows := g.rows, mask := mask })

/-- `np.unique` -/
def unique (l : List K) : List K := l.dedup.insertionSort (· ≤ ·)

/-- The loop core.py 1907-1911 over `allHyperGridValues` and `hyperParameterDistribution`; simplification: the comparison of values
rounded to ten digits is equality. -/
def durationLoop (dur : List K) (a b : ℕ) : List (List K × K) → List K → Except PyErr (List K)
  | [], acc => .ok acc
  | q :: rest, acc => match (q.1[a]? : Option K), (q.1[b]? : Option K) with
      | some x, some y =>
          if y > x then
            if y - x ∈ dur then durationLoop dur a b rest (acc.modify (dur.idxOf (y - x)) (· + q.2))
            else .error .indexError                                            -- `np.where(...)[0][0]`
          else durationLoop dur a b rest acc
      | _, _ => .error .indexError

/-- `values[1] - values[0]` for one row of `hyperGridValues[:, [a, b]]`, core.py 1902-1903 -/
def rowGap (a b : ℕ) (r : List K) : Except PyErr K :=
  match (r[a]? : Option K), (r[b]? : Option K) with
  | some x, some y => .ok (y - x)
  | _, _ => .error .indexError

/-- `ChangepointStudy.getDurationDistribution` without plotting, core.py 1891-1924; second component `none`: nan (division by zero). -/
def getDD (C : CState K gs) (D : List K) (names : List String) : Except PyErr (List K × Option (List K)) :=
  match names with
  | [n1, n2] => do
      let a1 ← C.R.tm.hyperIndex n1
      let a2 ← C.R.tm.hyperIndex n2
      let a := if a1 < a2 then a1 else a2                                      -- 1898-1900
      let b := if a1 < a2 then a2 else a1
      let diffs ← mapE (rowGap a b) C.grid.rows                              -- 1902-1903
      let dur := unique diffs
      let dd ← durationLoop dur a b (C.allRows.zip D) (dur.map fun _ => 0)
      .ok (dur, if dd.sum = 0 then none else some (dd.map (· / dd.sum)))       -- 1914
  | _ => .error .postProcessing

end BL
