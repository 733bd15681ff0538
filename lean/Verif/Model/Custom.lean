import Verif.Model.Observation

/-!
# User-defined observation models (observationModels.py 59-391): SciPy, SymPy and NumPy

External: the functions `pdf` and `pmf` of scipy.stats (keyword arguments are a partial function from names to values), `sympy.stats.density` (a function of the
observation and the values of the free symbols), `getJeffreysPrior`.  All of them act element by element on the parameter grid, so `pdf` is modelled at one point of the
grid.  Not modelled: the deprecated dictionary argument (lines 192-199, 320-327), which is equivalent for `SciPy`.
-/

set_option linter.unusedSectionVars false

namespace BL
variable {K : Type}

/-- a positional argument after the first one: a name, or parameter values (`none`: Python `None`) -/
inductive Arg (K : Type)
  | str (s : String)
  | vals (v : Option (List K))

/-- the argument equals this string -/
def Arg.isName (a : Arg K) (n : String) : Bool :=
  match a with
  | .str s => decide (s = n)
  | .vals _ => false

/-- the argument is a list or array, which cannot be an element of a set -/
def Arg.unhashable : Arg K → Bool
  | .vals (some _) => true
  | _ => false

/-- `args[::2]` -/
def evens {α : Type} : List α → List α
  | a :: _ :: l => a :: evens l
  | l => l

/-- `args[1::2]` -/
def odds {α : Type} : List α → List α
  | _ :: b :: l => b :: odds l
  | _ => []

/-- `set(names).difference(set(options))` and the following test, lines 241-245, 340-343 -/
def checkOptions (names : List (Arg K)) (options : List String) : Except PyErr Unit :=
  if names.any Arg.unhashable then .error .typeError
  else if names.any fun a => !options.any fun n => a.isName n then .error .configuration
  else .ok ()

/-- keyword arguments: is there an unknown one; the argument `prior` (also if passed as `None`); the argument `fixedParameters`, a dictionary (its keys are
distinct); the argument `determineJeffreysPrior` -/
structure Kwargs (K P : Type) where
  unknown : Bool
  prior : Option P
  fixed : List (String × K)
  determine : Bool

/-! ## SciPy -/

/-- An object passed as SciPy random variable: `valid`: it belongs to the module scipy.stats (lines 180-186); the attribute `shapes` (empty for `None`), split at
`', '`; whether it has a method `pdf`; the methods `pdf` and `pmf`, with an observation and keyword arguments. -/
structure SciRV (K : Type) where
  valid : Bool
  shapes : List String
  continuous : Bool
  pdf : K → (String → Option K) → K
  pmf : K → (String → Option K) → K

/-- attributes of a `SciPy` object -/
structure SciModel (K P : Type) where
  rv : SciRV K
  names : List (Arg K)
  values : List (Arg K)
  prior : Option P
  fixed : List (String × K)

/-- list of free parameters, lines 222-233 -/
def SciRV.free (rv : SciRV K) (fixed : List (String × K)) : List String :=
  (rv.shapes ++ "loc" :: if rv.continuous then ["scale"] else []).filter fun n => !fixed.any fun p => decide (p.1 = n)

/-- `SciPy(rv, *args, **kwargs)`, lines 178-245 -/
def SciModel.mk? {P : Type} (rv : SciRV K) (args : List (Arg K)) (kw : Kwargs K P) : Except PyErr (SciModel K P) :=
  if rv.valid = false then .error .configuration                                           -- 185-186
  else if kw.unknown then .error .typeError                                                -- 205-207
  else
    let free := rv.free kw.fixed
    let given := evens args
    let names := if given.length = 0 then free.map .str else given                         -- 236-238
    let values := if given.length = 0 then free.map fun _ => .vals none else odds args
    match checkOptions names free with
    | .error e => .error e
    | .ok () => .ok ⟨rv, names, values, kw.prior, kw.fixed⟩

/-- `{key: value for key, value in zip(self.parameterNames, grid)}`, line 259: later entries replace earlier ones -/
def freeDict (names : List (Arg K)) (point : List K) (n : String) : Option K := ((names.zip point).reverse.find? fun p => p.1.isName n).map (·.2)

/-- `parameterDict`, lines 259-263 -/
def SciModel.dict {P : Type} (m : SciModel K P) (point : List K) (n : String) : Option K :=
  match m.fixed.find? fun p => decide (p.1 = n) with
  | some p => some p.2
  | none => freeDict m.names point n

/-- `SciPy.pdf`, lines 247-269, at one point of the grid; `x`: the observation -/
def SciModel.pdf {P : Type} (m : SciModel K P) (point : List K) (x : K) : K :=
  if m.rv.continuous then m.rv.pdf x (m.dict point) else m.rv.pmf x (m.dict point)

/-! ## SymPy -/

/-- An object passed as SymPy random variable: `valid`: it belongs to the module sympy.stats; `free`: the names of its free symbols, in the arbitrary order of
`freeSymbols` (helper.py 122-143; symbols are identified with their names); the symbolic density as a function of the observation and the values of the symbols. -/
structure SymRV (K : Type) where
  valid : Bool
  free : List String
  density : K → (String → K) → K

/-- attributes of a `SymPy` object -/
structure SymModel (K P : Type) where
  names : List (Arg K)
  values : List (Arg K)
  prior : Option P
  /-- `density`: the arguments of the generated function after the observation, and its body -/
  args : List String
  body : K → (String → K) → K
  /-- the free symbols of the body -/
  symbols : List String

/-- The attribute `self.rv` in line 365.  The constructor of `SymPy` never sets it (the constructor of `SciPy` does, line 188). -/
def symSelfRv : Option (SymRV K) := none

/-- Lines 360-372: the prior.  `jeffreys`: `getJeffreysPrior`, which may fail; all exceptions are caught. -/
def symPrior {P : Type} (jeffreys : SymRV K → Except PyErr P) (kw : Kwargs K P) : Option P :=
  match kw.prior with
  | some p => some p
  | none =>
    if kw.determine then
      match (match symSelfRv (K := K) with | some rv => jeffreys rv | none => .error .attributeError) with     -- 365
      | .ok p => some p
      | .error _ => none                                                                    -- 368-370
    else none

/-- `rvNames.index(name)` for the given names, in order: `rvParamsSorted`, line 346 -/
def sortedParams (free : List String) (names : List (Arg K)) : List String := names.flatMap fun a => (free.find? fun n => a.isName n).toList

/-- `SymPy(rv, *args, **kwargs)`, lines 308-378 -/
def SymModel.mk? {P : Type} (jeffreys : SymRV K → Except PyErr P) (rv : SymRV K) (args : List (Arg K)) (kw : Kwargs K P) : Except PyErr (SymModel K P) :=
  if rv.valid = false then .error .configuration                                           -- 314-315
  else
    let given := evens args
    let names := if given.length = 0 then rv.free.map .str else given                      -- 335-337
    let values := if given.length = 0 then rv.free.map fun _ => .vals none else odds args
    match checkOptions names rv.free with
    | .error e => .error e
    | .ok () =>
      if kw.unknown then .error .typeError                                                 -- 349-351
      else .ok ⟨names, values, symPrior jeffreys kw, sortedParams rv.free names, rv.density, rv.free⟩

/-- value of the argument of this name in a call with positional arguments -/
def positional (args : List String) (point : List K) (n : String) : Option K := ((args.zip point).find? fun p => decide (p.1 = n)).map (·.2)

/-- `SymPy.pdf`, lines 380-391, at one point of the grid: the generated function is called with the observation and the parameter values.  A wrong number of arguments is
a `TypeError`, a symbol without value a `NameError`.  (Equal names of two arguments, a `SyntaxError` in `lambdify`, are not modelled.) -/
def SymModel.pdf {P : Type} [Zero K] (m : SymModel K P) (point : List K) (x : K) : Except PyErr K :=
  if point.length ≠ m.args.length then .error .typeError
  else if m.symbols.any fun n => (positional m.args point n).isNone then .error .nameError
  else .ok (m.body x fun n => (positional m.args point n).getD 0)

/-! ## NumPy -/

/-- A Python function: names of its arguments, and its values for an observation and further positional arguments -/
structure PyFun (D K : Type) where
  args : List String
  call : D → List K → K

/-- attributes of a `NumPy` object -/
structure NumModel (D K P : Type) where
  fn : PyFun D K
  names : List (Arg K)
  values : List (Arg K)
  prior : Option P

/-- `NumPy(function, *args, **kwargs)`, lines 100-130 (`none`: the first argument is not callable) -/
def NumModel.mk? {D P : Type} (f : Option (PyFun D K)) (args : List (Arg K)) (kw : Kwargs K P) : Except PyErr (NumModel D K P) :=
  match f with
  | none => .error .configuration                                                          -- 102-103
  | some f =>
    if (evens args).length + 1 ≠ f.args.length then .error .configuration                  -- 115-118
    else if f.args.head? ≠ some "data" then .error .configuration                          -- 121-122
    else if kw.unknown then .error .typeError                                              -- 125-127
    else .ok ⟨f, evens args, odds args, kw.prior⟩

/-- `NumPy.pdf`, lines 132-143, at one point of the grid -/
def NumModel.pdf {D P : Type} (m : NumModel D K P) (point : List K) (x : D) : K := m.fn.call x point

end BL
