import Verif.Model.Getters
import Mathlib.Algebra.Order.Floor.Defs

/-!
# The parser for derived parameters (parser.py)

The grammar itself (parser.py 94-128, third-party package `pyparsing`) is not modelled: the model starts from the nested lists which it returns.  Printing is
not modelled.
-/

set_option linter.unusedSectionVars false

namespace BL

/-- A floating-point value: a number (exact, no rounding), an infinity or nan.  Simplification: no signed zeros. -/
inductive FV (K : Type)
  | nan
  | ninf
  | fin (x : K)
  | pinf
  deriving DecidableEq

variable {K : Type} [Field K] [LinearOrder K]

/-- sign change -/
def FV.neg : FV K → FV K
  | .nan => .nan
  | .ninf => .pinf
  | .fin x => .fin (-x)
  | .pinf => .ninf

/-- `+` -/
def FV.add : FV K → FV K → FV K
  | .fin x, .fin y => .fin (x + y)
  | .nan, _ => .nan
  | _, .nan => .nan
  | .pinf, .ninf => .nan
  | .ninf, .pinf => .nan
  | .pinf, _ => .pinf
  | _, .pinf => .pinf
  | .ninf, _ => .ninf
  | _, .ninf => .ninf

/-- `-` -/
def FV.sub (a b : FV K) : FV K := a.add b.neg

/-- infinity times `x` -/
def FV.infMul (x : K) : FV K := if 0 < x then .pinf else if x < 0 then .ninf else .nan

/-- `*` -/
def FV.mul : FV K → FV K → FV K
  | .fin x, .fin y => .fin (x * y)
  | .nan, _ => .nan
  | _, .nan => .nan
  | .pinf, .fin y => FV.infMul y
  | .ninf, .fin y => FV.infMul (-y)
  | .fin x, .pinf => FV.infMul x
  | .fin x, .ninf => FV.infMul (-x)
  | .pinf, .pinf => .pinf
  | .ninf, .ninf => .pinf
  | .pinf, .ninf => .ninf
  | .ninf, .pinf => .ninf

/-- `/` of numpy -/
def FV.div : FV K → FV K → FV K
  | .nan, _ => .nan
  | _, .nan => .nan
  | .fin x, .fin y => if y = 0 then FV.infMul x else .fin (x / y)
  | .fin _, _ => .fin 0
  | .pinf, .fin y => if y < 0 then .ninf else .pinf
  | .ninf, .fin y => if y < 0 then .pinf else .ninf
  | _, _ => .nan

/-- Operators of a query; `func` is the symbol inserted by `_evaluate` for function calls. -/
inductive Op
  | add | sub | mul | div | pow | at | func
  deriving DecidableEq

/-- External functions: powers, and the elementwise functions of numpy and scipy.special by name (`none`: not callable). -/
structure PExt (K : Type) where
  pow : FV K → FV K → FV K
  fn : String → Option (FV K → FV K)

/-- `self.arith`, parser.py 91 (elementwise; `none` for symbols which are not keys) -/
def Op.arith? (E : PExt K) : Op → Option (FV K → FV K → FV K)
  | .add => some FV.add
  | .sub => some FV.sub
  | .mul => some FV.mul
  | .div => some FV.div
  | .pow => some E.pow
  | .at => none
  | .func => none

/-- The attribute `prob`: a sequence of distributions (one per time step), one distribution, a single number (result of indexing a distribution), or an array of nan. -/
inductive Prob (K : Type)
  | seq (l : List (List K))
  | dist (l : List K)
  | scal (x : K)
  | nans
  deriving DecidableEq

/-- `Parameter` (`hyper = false`) or `HyperParameter`, parser.py 18-48; `name = none` is the name `'_derived'`; `study` is the position in `self.studies`. -/
structure PObj (K : Type) where
  hyper : Bool
  vals : List (FV K)
  prob : Prob K
  name : Option String
  time : Option K
  study : Option ℕ
  deriving DecidableEq

/-- Values during the evaluation: `None`, a function, a number (`np`: numpy number, for which division by zero is no error) or a (hyper-)parameter. -/
inductive PVal (K : Type)
  | none
  | fn (f : String)
  | num (x : FV K) (np : Bool)
  | obj (o : PObj K)
  deriving DecidableEq

/-- Strings in the nested lists returned by the grammar; `junk`: not a name, function, operator or number. -/
inductive Tok (K : Type)
  | name (s : String)
  | num (x : K)
  | fn (s : String)
  | op (o : Op)
  | junk (s : String)
  deriving DecidableEq

/-- The nested lists. -/
inductive PTree (K : Type)
  | tok (t : Tok K)
  | list (l : List (PTree K))

/-- The hyper-parameters of a study as the parser sees them: none (`Study`), one transition model (`HyperStudy`, `ChangepointStudy`; columns of the hyper-grid and
`hyperParameterDistribution`), or several (`OnlineStudy`; `hyperParameterSequence` and current distribution). -/
inductive PHyper (K : Type)
  | none
  | static (cols : List (String × List K)) (dist : List K)
  | online (models : List (List (String × List K))) (hist : List (List (List K))) (cur : List (List K))

/-- A study as the parser sees it.  `values` are the ravelled grids of the parameters; `store = false` for an online study without history. -/
structure PStudy (K : Type) where
  names : List String
  values : List (List K)
  ts : List K
  store : Bool
  posts : List (List K)
  current : List K
  hyper : PHyper K

/-- names of the hyper-parameters -/
def PHyper.names : PHyper K → List String
  | .none => []
  | .static cols _ => cols.map (·.1)
  | .online ms _ _ => ms.flatMap fun m => m.map (·.1)

/-- `Parser.__init__`, parser.py 66-88: the names, or `ConfigurationError` -/
def parserNames (ss : List (PStudy K)) : Except PyErr (List String) :=
  if ss.length = 0 then .error .configuration
  else
    let l := ss.flatMap fun s => s.names ++ s.hyper.names
    if l.Nodup then .ok l else .error .configuration

/-- `x/np.sum(x)`.  Simplification: a vanishing sum, for which the entries are nan, is not modelled. -/
def normed (l : List K) : List K := l.map (· / l.sum)

/-- the parameters of one study, parser.py 260-298 -/
def loadParams (k : ℕ) (s : PStudy K) (t : Option (K × ℕ)) : Except PyErr (List (PObj K)) :=
  match t with
  | none =>
      if s.store then .ok (List.zipWith (fun n v => ⟨false, v.map .fin, .seq s.posts, some n, none, some k⟩) s.names s.values)
      else match s.ts.getLast? with
        | none => .error .indexError
        | some tl => .ok (List.zipWith (fun n v => ⟨false, v.map .fin, .dist s.current, some n, some tl, some k⟩) s.names s.values)
  | some (t, i) => match s.posts[i]? with
      | none => .error .indexError
      | some p => .ok (List.zipWith (fun n v => ⟨false, v.map .fin, .dist p, some n, some t, some k⟩) s.names s.values)

/-- the hyper-parameters of transition model `j` of an online study, parser.py 303-347 -/
def loadOnline (k : ℕ) (s : PStudy K) (hist : List (List (List K))) (cur : List (List K)) (t : Option (K × ℕ)) (j : ℕ) (m : List (String × List K)) :
    Except PyErr (List (PObj K)) :=
  match t with
  | none =>
      if s.store then
        match allSome (hist.map fun r => r[j]?) with
        | none => .error .indexError
        | some ds => .ok (m.map fun q => ⟨true, q.2.map .fin, .seq (ds.map normed), some q.1, none, some k⟩)
      else match cur[j]?, s.ts.getLast? with
        | some d, some tl => .ok (m.map fun q => ⟨true, q.2.map .fin, .dist (normed d), some q.1, some tl, some k⟩)
        | _, _ => .error .indexError
  | some (t, i) =>
      if s.store then
        match hist[i]?.bind fun r => r[j]? with
        | none => .error .indexError
        | some d => .ok (m.map fun q => ⟨true, q.2.map .fin, .dist (normed d), some q.1, some t, some k⟩)
      else if m = [] then .ok [] else .error .configuration

/-- the hyper-parameters of one study, parser.py 300-372 -/
def loadHyper (k : ℕ) (s : PStudy K) (t : Option (K × ℕ)) : Except PyErr (List (PObj K)) :=
  match s.hyper with
  | .none => .ok []
  | .static cols dist => .ok (cols.map fun q => ⟨true, q.2.map .fin, .dist (normed dist), some q.1, none, some k⟩)
  | .online ms hist cur => (mapE (fun q => loadOnline k s hist cur t q.2 q.1) ms.zipIdx).map List.flatten

/-- the time argument with its index in the time stamps of the first study, parser.py 287-288, 334-335 -/
def timeIndex (ss : List (PStudy K)) : Option K → Except PyErr (Option (K × ℕ))
  | none => .ok none
  | some t => match indexOf? ((ss.head?.map PStudy.ts).getD []) t with
      | none => .error .valueError
      | some i => .ok (some (t, i))

/-- `self.parameters`, parser.py 257-372 -/
def loadAll (ss : List (PStudy K)) (t : Option K) : Except PyErr (List (PObj K)) := do
  let ti ← timeIndex ss t
  let ps ← mapE (fun q => loadParams q.2 q.1 ti) ss.zipIdx
  let hs ← mapE (fun q => loadHyper q.2 q.1 ti) ss.zipIdx
  .ok (ps.flatten ++ hs.flatten)

/-- What the evaluation of a query reads: external functions, time stamps of the studies (by position), and the loaded parameters. -/
structure PEnv (K : Type) where
  ext : PExt K
  stamps : List (List K)
  params : List (PObj K)

/-- `_convert`, parser.py 170-189.  An operator cannot be converted to a number (`ValueError`). -/
def convert (E : PEnv K) : Tok K → Except PyErr (PVal K)
  | .name s => match E.params.find? (fun o => o.name = some s) with
      | some o => .ok (.obj o)
      | none => .error .indexError
  | .fn s => if (E.ext.fn s).isSome then .ok (.fn s) else .error .valueError
  | .num x => .ok (.num (.fin x) false)
  | .op _ => .error .valueError
  | .junk _ => .error .valueError

/-- `a.prob[timeIndex]` -/
def Prob.index (p : Prob K) (i : ℕ) : Except PyErr (Prob K) :=
  match p with
  | .seq l => match l[i]? with
      | some d => .ok (.dist d)
      | none => .error .indexError
  | .dist l => match l[i]? with
      | some x => .ok (.scal x)
      | none => .error .indexError
  | .scal _ => .error .indexError
  | .nans => .ok .nans

/-- is `prob` two-dimensional? -/
def Prob.isSeq : Prob K → Bool
  | .seq _ => true
  | _ => false

/-- the `@` operator, parser.py 208-215; falls through to `None` for other operands -/
def atOp (E : PEnv K) (a b : PVal K) : Except PyErr (PVal K) :=
  match a, b with
  | .obj _, .obj _ => .ok .none
  | .obj o, b =>
      if o.hyper = false ∨ o.prob.isSeq = true then
        match o.study.bind fun k => E.stamps[k]? with
        | none => .error .attributeError
        | some ts => match b with
            | .num (.fin t) _ => match indexOf? ts t with
                | none => .error .valueError
                | some i => match o.prob.index i with
                    | .error e => .error e
                    | .ok p => .ok (.obj { o with prob := p, time := some t })
            | _ => .error .valueError
      else .ok .none
  | _, _ => .ok .none

/-- function application, parser.py 217-219 (elementwise functions only) -/
def funcOp (E : PEnv K) (a b : PVal K) : Except PyErr (PVal K) :=
  match a with
  | .fn s => match E.ext.fn s, b with
      | some f, .num x _ => .ok (.num (f x) true)
      | some f, .obj o => .ok (.obj { o with vals := o.vals.map f })
      | _, _ => .error .typeError
  | _ => .error .typeError

/-- the checks for missing time stamps, parser.py 223-234 -/
def needsTime (a : PVal K) : Bool :=
  match a with
  | .obj o => if o.hyper then o.prob.isSeq && o.time.isNone else o.name.isSome && o.time.isNone
  | _ => false

/-- is the compound distribution of two independent quantities computed? parser.py 236-243 -/
def compound (a b : PObj K) : Bool :=
  let apart := decide (a.study ≠ b.study) || (a.study.isNone && b.study.isNone)
  match a.hyper, b.hyper with
  | false, false => apart || (decide (a.name = b.name) && decide (a.time ≠ b.time))
  | true, true => apart
  | _, _ => true

/-- `np.ravel(prob)` -/
def Prob.flat : Prob K → Option (List K)
  | .seq l => some l.flatten
  | .dist l => some l
  | .scal x => some [x]
  | .nans => none

/-- the products of all pairs, divided by their sum, parser.py 248-249 -/
def productProb (p q : Prob K) : Prob K :=
  match p.flat, q.flat with
  | some p, some q =>
      let l := p.flatMap fun x => q.map fun y => x * y
      if l.sum = 0 then .nans else .dist (l.map (· / l.sum))
  | _, _ => .nans

/-- parser.py 245-250: all pairs of values (`meshgrid(a, b).T.reshape(-1, 2)`: first index slowest) -/
def compoundOp (f : FV K → FV K → FV K) (a b : PObj K) : PObj K :=
  ⟨false, a.vals.flatMap fun x => b.vals.map fun y => f x y, productProb a.prob b.prob, none, none, none⟩

/-- numpy broadcasting of one-dimensional arrays -/
def broadcast (f : FV K → FV K → FV K) (a b : List (FV K)) : Except PyErr (List (FV K)) :=
  if a.length = b.length then .ok (List.zipWith f a b)
  else match a, b with
    | [x], b => .ok (b.map (f x))
    | a, [y] => .ok (a.map fun x => f x y)
    | _, _ => .error .valueError

/-- parser.py 252-254: the operator applied directly; the result has the attributes of the first operand which is a (hyper-)parameter.  Division of two Python numbers
by zero raises `ZeroDivisionError`, represented by `overflow` (both are arithmetic errors).  Simplification: powers of Python numbers are not distinguished from powers of
numpy numbers. -/
def directOp (f : FV K → FV K → FV K) (o : Op) (a b : PVal K) : Except PyErr (PVal K) :=
  match a, b with
  | .num x n, .num y m =>
      if o = .div ∧ y = .fin 0 ∧ n = false ∧ m = false then .error .overflow else .ok (.num (f x y) (n || m))
  | .obj a, .num y _ => .ok (.obj { a with vals := a.vals.map fun x => f x y })
  | .num x _, .obj b => .ok (.obj { b with vals := b.vals.map fun y => f x y })
  | .obj a, .obj b => (broadcast f a.vals b.vals).map fun v => .obj { a with vals := v }
  | _, _ => .error .typeError

/-- arithmetic operation, parser.py 221-254 -/
def arithOp (f : FV K → FV K → FV K) (o : Op) (a b : PVal K) : Except PyErr (PVal K) :=
  if needsTime a || needsTime b then .error .configuration
  else match a, b with
    | .obj x, .obj y => if compound x y then .ok (.obj (compoundOp f x y)) else directOp f o a b
    | a, b => directOp f o a b

/-- `_operation` for converted operands, parser.py 208-254 -/
def operate (E : PEnv K) (o : Op) (a b : PVal K) : Except PyErr (PVal K) :=
  match o with
  | .at => atOp E a b
  | .func => funcOp E a b
  | o => match o.arith? E.ext with
      | some f => arithOp f o a b
      | none => .ok .none

/-- an evaluated element of a list: still a string, or a value -/
inductive Elem (K : Type)
  | tok (t : Tok K)
  | val (v : PVal K)

/-- parser.py 203-206: strings are converted -/
def Elem.value (E : PEnv K) : Elem K → Except PyErr (PVal K)
  | .tok t => convert E t
  | .val v => .ok v

/-- `_operation`, parser.py 191-254.  Simplification: a symbol which is not an operator (not produced by the grammar) is an error. -/
def operation (E : PEnv K) (s a b : Elem K) : Except PyErr (PVal K) :=
  match s with
  | .tok (.op o) => do
      let x ← a.value E
      let y ← b.value E
      operate E o x y
  | _ => .error .typeError

/-- `parsedString[0] in self.functions` -/
def startsWithFn : List (PTree K) → Bool
  | .tok (.fn _) :: _ => true
  | _ => false

/-- one pass of the loop parser.py 142-146 -/
def regroupStep (l : List (PTree K)) : List (PTree K) :=
  if startsWithFn l then .list (l.take 2) :: l.drop 2 else .list (l.take 3) :: l.drop 3

/-- the loop parser.py 141-146; every pass shortens the list, so the length bounds their number -/
def regroup : ℕ → List (PTree K) → List (PTree K)
  | 0, l => l
  | n + 1, l => if l.length > 3 then regroup n (regroupStep l) else l

/-- parser.py 152-162: signs and function calls as operations -/
def unary : List (PTree K) → List (PTree K)
  | [.tok (.op .sub), e] => [.tok (.num (-1)), .tok (.op .mul), e]
  | [.tok (.op .add), e] => [.tok (.num 1), .tok (.op .mul), e]
  | [.tok t, e] => [.tok t, .tok (.op .func), e]
  | l => l

/-- one element, parser.py 149-167; `rec` is the recursive call -/
def evalElem (rec : List (PTree K) → Except PyErr (PVal K)) : PTree K → Except PyErr (Elem K)
  | .tok t => .ok (.tok t)
  | .list l => (rec (unary l)).map .val

/-- `_evaluate`, parser.py 130-168.  The first argument is the number of nested calls which Python allows (`RecursionError`, represented by `overflow`, beyond). -/
def evaluate (E : PEnv K) : ℕ → List (PTree K) → Except PyErr (PVal K)
  | 0, _ => .error .overflow
  | n + 1, l => do
      let r ← mapE (evalElem (evaluate E n)) (regroup l.length l)
      match r with
      | a :: s :: b :: _ => operation E s a b
      | _ => .error .indexError

/-- The relational operators, parser.py 375, 419-429. -/
inductive Rel
  | ge | gt | le | lt | eq
  deriving DecidableEq

/-- comparison with zero; all comparisons of nan are false -/
def Rel.test : Rel → FV K → Bool
  | _, .nan => false
  | .ge, .fin x => decide (0 ≤ x)
  | .ge, .pinf => true
  | .ge, .ninf => false
  | .gt, .fin x => decide (0 < x)
  | .gt, .pinf => true
  | .gt, .ninf => false
  | .le, .fin x => decide (x ≤ 0)
  | .le, .pinf => false
  | .le, .ninf => true
  | .lt, .fin x => decide (x < 0)
  | .lt, .pinf => false
  | .lt, .ninf => true
  | .eq, .fin x => decide (x = 0)
  | .eq, _ => false

/-- the nested lists for `'-1*(' + right + ')+' + left`, parser.py 381, where the left side is the chain `l0 o1 l1 o2 l2 …` of operators `+` and `-`
(no operators if it is of another form) -/
def reduced (l0 : PTree K) (ls : List (Op × PTree K)) (r : PTree K) : List (PTree K) :=
  .list [.list [.tok (.op .sub), .tok (.num 1)], .tok (.op .mul), r] :: .tok (.op .add) :: l0 ::
    ls.flatMap fun q => [.tok (.op q.1), q.2]

/-- parser.py 431-433: `np.sum(prob[mask])`; `none` = nan.  A sequence of distributions is an array whose rows are the time steps: the mask then selects time steps and must have as
many entries as there are time steps. -/
def maskedSum (o : PObj K) (test : FV K → Bool) : Except PyErr (Option K) :=
  match o.prob with
  | .seq l =>
      if l.length ≠ o.vals.length then .error .indexError
      else .ok (some (((o.vals.zip l).filter fun q => test q.1).map (·.2.sum)).sum)
  | .dist p =>
      if p.length ≠ o.vals.length then .error .indexError
      else .ok (some (((o.vals.zip p).filter fun q => test q.1).map (·.2)).sum)
  | .nans => .ok none
  | _ => .error .indexError

/-- Evaluation of a query with relational operator, parser.py 374-388, 417-437, after the parameters have been loaded -/
def relQuery (E : PEnv K) (n : ℕ) (rel : Rel) (l0 : PTree K) (ls : List (Op × PTree K)) (r : PTree K) : Except PyErr (Option K) := do
  match ← evaluate E n (reduced l0 ls r) with
  | .obj o => maskedSum o rel.test
  | .num _ _ => .error .attributeError
  | _ => .error .typeError

/-- finite values -/
def finites (l : List (FV K)) : List K := l.filterMap fun x => match x with
  | .fin x => some x
  | _ => none

/-- largest and smallest entry of a non-empty list -/
def extremes : List K → Option (K × K)
  | [] => none
  | x :: l => some (l.foldl min x, l.foldl max x)

/-- `np.diff` of a sorted list -/
def diffs : List K → List K
  | x :: y :: l => (y - x) :: diffs (y :: l)
  | _ => []

/-- `np.linspace(a, b, n)` -/
def linspace' (a b : K) (n : ℕ) : List K := (List.range n).map fun i : ℕ => if i + 1 = n ∧ 2 ≤ n then b else a + i * ((b - a) / ((n - 1 : ℕ) : K))

/-- parser.py 390-415: distribution of a derived parameter.  All-nan values (`nanmin` warns and returns nan, then `int` fails) are a `ValueError`.  A sequence of distributions is an array whose
rows are the time steps, see `maskedSum`.  Simplification: probabilities that are nan (a derived parameter computed from two distributions whose product vanishes) are an error. -/
def derivedDistribution [FloorRing K] (o : PObj K) : Except PyErr (List K × List K) :=
  let v := finites o.vals
  match extremes v with
  | none => .error .valueError
  | some (dmin, dmax) =>
      match listMax (diffs (v.insertionSort (· ≤ ·))) with
      | none => .error .valueError                                  -- `nanmax` of an empty array
      | some w =>
          if w = 0 then .error .valueError                          -- nan or infinity as integer
          else
            let bins := linspace' dmin dmax ⌊(dmax - dmin) / w⌋.toNat
            match bins, o.prob with
            | b0 :: b1 :: bs, .dist p =>
                if p.length ≠ o.vals.length then .error .indexError
                else .ok ((b0 :: b1 :: bs).dropLast.map fun b => b + (b1 - b0),
                  ((b0 :: b1 :: bs).zip (b1 :: bs)).map fun c =>
                    (((o.vals.zip p).filter fun q => match q.1 with
                      | .fin x => decide (c.1 ≤ x) && decide (x < c.2)
                      | _ => false).map (·.2)).sum)
            | b0 :: b1 :: bs, .seq l =>
                if l.length ≠ o.vals.length then .error .indexError
                else .ok ((b0 :: b1 :: bs).dropLast.map fun b => b + (b1 - b0),
                  ((b0 :: b1 :: bs).zip (b1 :: bs)).map fun c =>
                    (((o.vals.zip l).filter fun q => match q.1 with
                      | .fin x => decide (c.1 ≤ x) && decide (x < c.2)
                      | _ => false).map (·.2.sum)).sum)
            | _, _ => .error .indexError

/-- Query without relational operator, parser.py 374-377, 386-415.  A query which is a single string fails (`parsedString[0]` is a character). -/
def distQuery [FloorRing K] (E : PEnv K) (n : ℕ) (t : PTree K) : Except PyErr (List K × List K) :=
  match t with
  | .tok _ => .error .typeError
  | .list l => do
      match ← evaluate E n l with
      | .obj o => derivedDistribution o
      | _ => .error .typeError

/-- `Parser(*studies)(query, t)` for a query with relational operator, parser.py 66-88, 256-437 -/
def Parser.prob (X : PExt K) (n : ℕ) (ss : List (PStudy K)) (t : Option K) (rel : Rel) (l0 : PTree K) (ls : List (Op × PTree K)) (r : PTree K) :
    Except PyErr (Option K) := do
  let _ ← parserNames ss
  let ps ← loadAll ss t
  relQuery ⟨X, ss.map PStudy.ts, ps⟩ n rel l0 ls r

/-- `Parser(*studies)(query, t)` for a query without relational operator, parser.py 66-88, 256-415 -/
def Parser.dist [FloorRing K] (X : PExt K) (n : ℕ) (ss : List (PStudy K)) (t : Option K) (q : PTree K) : Except PyErr (List K × List K) := do
  let _ ← parserNames ss
  let ps ← loadAll ss t
  distQuery ⟨X, ss.map PStudy.ts, ps⟩ n q

end BL
