import Verif.Model.HyperStudy

/-!
# Marginal and joint hyper-parameter distributions (core.py 1535-1694)

A numpy array is its shape and the function from multi-indices to entries.
-/

set_option linter.unusedSectionVars false

namespace BL

/-- numpy array of any dimension -/
structure ND (K : Type) where
  shape : List ℕ
  get : List ℕ → K

/-- position of a multi-index in C order -/
def ravel : List ℕ → List ℕ → ℕ
  | n :: ns, i :: idx => i * ns.prod + ravel ns idx
  | _, _ => 0

/-- all multi-indices in C order -/
def indices (shape : List ℕ) : List (List ℕ) := cart (shape.map List.range)

variable {K : Type} [Field K] [LinearOrder K]

/-- entries in C order (`ndarray.ravel()`) -/
def ND.flat (A : ND K) : List K := (indices A.shape).map A.get

/-- `D.reshape(shape, order='C')` of an array with the right number of entries -/
def ND.reshape (D : List K) (shape : List ℕ) : ND K := ⟨shape, fun idx => D.getD (ravel shape idx) 0⟩

/-- `np.sum(A, axis=b)` with the axis kept (length one) as in `np.apply_over_axes` -/
def ND.sumAxis (A : ND K) (b : ℕ) : ND K :=
  ⟨A.shape.set b 1, fun idx => ((List.range (A.shape.getD b 0)).map fun i => A.get (idx.set b i)).sum⟩

/-- `np.apply_over_axes(np.sum, A, bs)` -/
def ND.sumAxes (A : ND K) (bs : List ℕ) : ND K := bs.foldl ND.sumAxis A

/-- index of the array before `np.squeeze` -/
def unsqueeze : List ℕ → List ℕ → List ℕ
  | [], _ => []
  | n :: ns, idx => if n = 1 then 0 :: unsqueeze ns idx else
      match idx with
      | [] => []
      | i :: r => i :: unsqueeze ns r

/-- `np.squeeze`: axes of length one are removed -/
def ND.squeeze (A : ND K) : ND K := ⟨A.shape.filter (· ≠ 1), fun idx => A.get (unsqueeze A.shape idx)⟩

/-- `A *= c` -/
def ND.scale (A : ND K) (c : K) : ND K := ⟨A.shape, fun idx => A.get idx * c⟩

/-- `A.T` -/
def ND.transpose (A : ND K) : ND K := ⟨A.shape.reverse, fun idx => A.get idx.reverse⟩

/-- core.py 1560-1565, 1636-1641: number of values per hyper-parameter.  `'all'` has been replaced before (`len('all')` otherwise). -/
def gridSteps : HVal K → ℕ
  | .array l => l.length
  | .pylist l => l.length
  | .all => 3
  | _ => 1

/-- The common part (core.py 1567-1569 and 1643-1645): summation over the axes `bs`, removal of axes of length one, conversion to
probabilities.  Second component: the attribute `hyperParameterDistribution` afterwards; without summation the result is a view of this array,
which is changed in place. -/
def marginalise (g : HyperGrid K) (D : List K) (bs : List ℕ) : ND K × List K :=
  (((ND.reshape D (g.flat.map gridSteps)).sumAxes bs).squeeze.scale g.hgc.prod,
   if bs = [] then D.map (· * g.hgc.prod) else D)

/-- `list.remove` -/
def removeE (l : List ℕ) (a : ℕ) : Except PyErr (List ℕ) := if a ∈ l then .ok (l.erase a) else .error .valueError

/-- `HyperStudy.getHyperParameterDistribution` without plotting, core.py 1535-1585; `D` is `hyperParameterDistribution`, which is returned as well. -/
def getHPD (tm : TM K) (g : HyperGrid K) (D : List K) (name : String) : List K × Except PyErr (HVal K × ND K) :=
  if g.rows.length < 2 then (D, .error .postProcessing)
  else match tm.hyperIndex name with
    | .error e => (D, .error e)
    | .ok a => match removeE (List.range g.names.length) a with
      | .error e => (D, .error e)
      | .ok bs =>
          if D.length ≠ (g.flat.map gridSteps).prod then (D, .error .valueError)      -- `reshape`
          else match g.flat[a]? with
            | none => (D, .error .indexError)
            | some x => ((marginalise g D bs).2, .ok (x, (marginalise g D bs).1))

/-- `np.diff(x)` and `len(y)` need arrays, core.py 1648-1656 -/
def jointCheck (x y : HVal K) : Except PyErr Unit :=
  match x, y with
  | .scalar _, _ => .error .valueError
  | .none, _ => .error .valueError
  | _, .scalar _ => .error .typeError
  | _, .none => .error .typeError
  | _, _ => .ok ()

/-- `HyperStudy.getJointHyperParameterDistribution` without plotting, core.py 1593-1694 -/
def getJHPD (tm : TM K) (g : HyperGrid K) (D : List K) (names : List String) : List K × Except PyErr (HVal K × HVal K × ND K) :=
  if g.rows.length < 2 then (D, .error .postProcessing)
  else match names with
    | [n1, n2] => match tm.hyperIndex n1, tm.hyperIndex n2 with
      | .error e, _ => (D, .error e)
      | .ok _, .error e => (D, .error e)
      | .ok a1, .ok a2 =>
          let sw : Bool := !decide (a1 < a2)
          let a := if sw then a2 else a1
          let b := if sw then a1 else a2
          match (removeE (List.range g.names.length) a).bind fun bs => removeE bs b with
          | .error e => (D, .error e)
          | .ok bs =>
              if D.length ≠ (g.flat.map gridSteps).prod then (D, .error .valueError)
              else match g.flat[a]?, g.flat[b]? with
                | some x, some y =>
                    let m := marginalise g D bs
                    (m.2, (jointCheck x y).bind fun _ => .ok (if sw then (y, x, m.1.transpose) else (x, y, m.1)))
                | _, _ => (D, .error .indexError)
    | _ => (D, .error .postProcessing)

end BL
