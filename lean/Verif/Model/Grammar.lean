import Verif.Model.Parser

/-!
# The grammar of queries

parser.py lines 93-128 and 374-388: from the text of a query to nested lists.  The package pyparsing is represented by the functions `skip` to `level`, which follow its
documentation (`Literal`, `oneOf`, `Word`, `Combine`, `infixNotation`); texts are lists of characters.
-/

set_option linter.unusedSectionVars false

namespace BL

/-- The nested lists of strings returned by `parseString(...).asList()`. -/
inductive STree
  | tok (s : List Char)
  | list (l : List STree)

/-- the characters that pyparsing skips before each token -/
def isSpace (c : Char) : Bool := c = ' ' || c = '\t' || c = '\n' || c = '\r'

/-- skip white space -/
def skip (s : List Char) : List Char := s.dropWhile isSpace

/-- `pp.Literal(w)`: the rest of the text -/
def literal (w s : List Char) : Option (List Char) := if w.isPrefixOf (skip s) then some ((skip s).drop w.length) else none

/-- the longest string of a list -/
def longest : List (List Char) → Option (List Char)
  | [] => none
  | w :: l => match longest l with
      | none => some w
      | some v => if v.length ≤ w.length then some w else some v

/-- `pp.oneOf(l)`: a string of the list; longer ones are tried before their prefixes.  (Empty strings in the list are not modelled.) -/
def oneOf (l : List (List Char)) (s : List Char) : Option (List Char × List Char) :=
  match longest (l.filter fun w => w.isPrefixOf (skip s)) with
  | none => none
  | some w => some (w, (skip s).drop w.length)

/-- `pp.nums` -/
def isNum (c : Char) : Bool := '0' ≤ c && c ≤ '9'

/-- first character of a number, parser.py 97: digits and signs -/
def numStart (c : Char) : Bool := isNum c || c = '+' || c = '-'

/-- optional part of a number: point and digits, parser.py 98 -/
def fraction : List Char → List Char × List Char
  | '.' :: r => ('.' :: r.takeWhile isNum, r.dropWhile isNum)
  | r => ([], r)

/-- optional part of a number: exponent, parser.py 99 (the caseless literal returns a capital letter) -/
def exponent : List Char → List Char × List Char
  | e :: c :: r => if (e = 'e' || e = 'E') && numStart c then ('E' :: c :: r.takeWhile isNum, r.dropWhile isNum) else ([], e :: c :: r)
  | r => ([], r)

/-- `fnumber`, parser.py 97-99.  A sign alone is accepted, too. -/
def number (s : List Char) : Option (List Char × List Char) :=
  match skip s with
  | [] => none
  | c :: r =>
      if numStart c then
        let f := fraction (r.dropWhile isNum)
        let e := exponent f.2
        some (c :: r.takeWhile isNum ++ f.1 ++ e.1, e.2)
      else none

/-- `(op + operand)[...]`: pairs of operator and operand as long as possible; the first argument bounds their number (the length of the text is enough) -/
def many (op : List Char → Option (List Char × List Char)) (arg : List Char → Option (STree × List Char)) : ℕ → List Char → List STree × List Char
  | 0, s => ([], s)
  | n + 1, s => match op s with
      | none => ([], s)
      | some (o, r) => match arg r with
          | none => ([], s)
          | some (t, r') => let q := many op arg n r'
              (.tok o :: t :: q.1, q.2)

/-- `atom` or an expression in parentheses, parser.py 121 and `infixNotation` -/
def base (names : List (List Char)) (ret : List Char → Option (STree × List Char)) (s : List Char) : Option (STree × List Char) :=
  match oneOf names s with
  | some (n, r) => some (.tok n, r)
  | none => match number s with
      | some (x, r) => some (.tok x, r)
      | none => match literal ['('] s with
          | none => none
          | some r => match ret r with
              | none => none
              | some (t, r') => match literal [')'] r' with
                  | none => none
                  | some r'' => some (t, r'')

/-- `infixNotation`, unary prefix operators -/
def prefixed (op : List Char → Option (List Char × List Char)) (this last : List Char → Option (STree × List Char)) (s : List Char) : Option (STree × List Char) :=
  match op s with
  | none => last s
  | some (o, r) => match this r with
      | none => last s
      | some (t, r') => some (.list [.tok o, t], r')

/-- `infixNotation`, binary operators: `last (op arg)+` as one list, or `last` (`arg` is `last` for left-associative and the level itself for right-associative operators) -/
def infixed (op : List Char → Option (List Char × List Char)) (arg last : List Char → Option (STree × List Char)) (s : List Char) : Option (STree × List Char) :=
  match last s with
  | none => none
  | some (t, r) => match many op arg r.length r with
      | ([], _) => some (t, r)
      | (l, r') => some (.list (t :: l), r')

/-- The levels of precedence of parser.py 123-128: 0 atoms and parentheses, 1 functions, 2 `@`, 3 `^` (right-associative), 4 signs, 5 `*` and `/`, 6 (and above) `+` and `-`.
The first argument bounds the number of nested calls; `parseText` provides enough.  Python's own limit of nested calls is not modelled here. -/
def level (names fs : List (List Char)) : ℕ → ℕ → List Char → Option (STree × List Char)
  | 0, _, _ => none
  | n + 1, 0, s => base names (level names fs n 6) s
  | n + 1, 1, s => prefixed (oneOf fs) (level names fs n 1) (level names fs n 0) s
  | n + 1, 2, s => infixed (oneOf [['@']]) (level names fs n 1) (level names fs n 1) s
  | n + 1, 3, s => infixed (oneOf [['^']]) (level names fs n 3) (level names fs n 2) s
  | n + 1, 4, s => prefixed (oneOf [['+'], ['-']]) (level names fs n 4) (level names fs n 3) s
  | n + 1, 5, s => infixed (oneOf [['*'], ['/']]) (level names fs n 4) (level names fs n 4) s
  | n + 1, _ + 6, s => infixed (oneOf [['+'], ['-']]) (level names fs n 5) (level names fs n 5) s

/-- `self.expr.parseString(text).asList()[0]`, parser.py 387.  The text behind the expression is ignored (`parseAll` is not set). -/
def parseText (names fs : List (List Char)) (s : List Char) : Except PyErr STree :=
  match level names fs (8 * s.length + 8) 6 s with
  | some (t, _) => .ok t
  | none => .error .parse

variable {K : Type} [Field K] [LinearOrder K]

/-- value of decimal digits -/
def digitsVal (l : List Char) : ℕ := l.foldl (fun n c => 10 * n + (c.toNat - '0'.toNat)) 0

/-- split off a sign -/
def splitSign : List Char → Bool × List Char
  | '-' :: r => (true, r)
  | '+' :: r => (false, r)
  | r => (false, r)

/-- Python's `float(s)` for the strings returned by `number` (exact numbers instead of rounded ones) -/
def pyFloat (s : List Char) : Option K :=
  let p := splitSign s
  let i := p.2.takeWhile isNum
  let f := fraction (p.2.dropWhile isNum)
  if i = [] ∧ f.1.drop 1 = [] then none
  else
    let m : K := (digitsVal (i ++ f.1.drop 1) : K) / 10 ^ (f.1.drop 1).length
    let x := if p.1 then -m else m
    match f.2 with
    | [] => some x
    | 'E' :: r =>
        let q := splitSign r
        if q.2 ≠ [] ∧ q.2.all isNum then some (if q.1 then x / 10 ^ digitsVal q.2 else x * 10 ^ digitsVal q.2) else none
    | _ => none

/-- the operator symbols -/
def symbol : List Char → Option Op
  | ['+'] => some .add
  | ['-'] => some .sub
  | ['*'] => some .mul
  | ['/'] => some .div
  | ['^'] => some .pow
  | ['@'] => some .at
  | _ => none

/-- what the evaluation does with a string, parser.py 143, 150-160, 180-189, 208-221.  Simplification: parameters named like an operator are not modelled. -/
def tokOf (names fs : List (List Char)) (s : List Char) : Tok K :=
  match symbol s with
  | some o => .op o
  | none =>
      if s ∈ names then .name (String.ofList s)
      else if s ∈ fs then .fn (String.ofList s)
      else match pyFloat s with
        | some x => .num x
        | none => .junk (String.ofList s)

mutual
/-- the nested lists, with the meaning of each string -/
def STree.toP (names fs : List (List Char)) : STree → PTree K
  | .tok s => .tok (tokOf names fs s)
  | .list l => .list (STree.toPs names fs l)
/-- all elements of a list -/
def STree.toPs (names fs : List (List Char)) : List STree → List (PTree K)
  | [] => []
  | t :: l => t.toP names fs :: STree.toPs names fs l
end

/-- put a character in front of the first part -/
def consHead (c : Char) : List (List Char) → List (List Char)
  | [] => [[c]]
  | w :: l => (c :: w) :: l

/-- `re.split('>=|<=|==|>|<', query)`, parser.py 375 -/
def splitQuery : List Char → List (List Char)
  | [] => [[]]
  | '>' :: '=' :: r => [] :: splitQuery r
  | '<' :: '=' :: r => [] :: splitQuery r
  | '=' :: '=' :: r => [] :: splitQuery r
  | '>' :: r => [] :: splitQuery r
  | '<' :: r => [] :: splitQuery r
  | c :: r => consHead c (splitQuery r)

/-- does the text contain `w`? -/
def contains (w : List Char) : List Char → Bool
  | [] => w.isEmpty
  | c :: r => w.isPrefixOf (c :: r) || contains w r

/-- the relational operator, parser.py 419-429 -/
def relOf (q : List Char) : Rel :=
  if contains ['>', '='] q then .ge
  else if contains ['>'] q then .gt
  else if contains ['<', '='] q then .le
  else if contains ['<'] q then .lt
  else .eq

/-- `self.functions`, parser.py 102-109: each (hyper-)parameter name is removed once -/
def functionsOf (all names : List String) : List String := names.foldl (fun l n => l.erase n) all

/-- answer of the parser: a probability (`none` = nan), or the values and probabilities of a derived parameter -/
inductive Answer (K : Type)
  | prob (p : Option K)
  | dist (values probs : List K)
  deriving DecidableEq

/-- evaluation of the reduced query and comparison with zero, parser.py 388, 417-437 -/
def relTree (E : PEnv K) (n : ℕ) (rel : Rel) : PTree K → Except PyErr (Option K)
  | .tok _ => .error .typeError
  | .list l => do
      match ← evaluate E n l with
      | .obj o => maskedSum o rel.test
      | .num _ _ => .error .attributeError
      | _ => .error .typeError

/-- `Parser(*studies)(query, t)`, parser.py 66-128, 256-437, for the text of a query.  `all` is `dir(np) + dir(sp)`; `n` is the limit of nested calls in `_evaluate`. -/
def Parser.text [FloorRing K] (X : PExt K) (all : List String) (n : ℕ) (ss : List (PStudy K)) (t : Option K) (query : List Char) : Except PyErr (Answer K) := do
  let ns ← parserNames ss
  let names := ns.map String.toList
  let fs := (functionsOf all ns).map String.toList
  let ps ← loadAll ss t
  let E : PEnv K := ⟨X, ss.map PStudy.ts, ps⟩
  match splitQuery query with
  | [q] => do
      let s ← parseText names fs q
      let (v, p) ← distQuery E n (s.toP names fs)
      .ok (.dist v p)
  | [l, r] => do
      let s ← parseText names fs ("-1*(".toList ++ r ++ ")+".toList ++ l)
      let p ← relTree E n (relOf query) (s.toP names fs)
      .ok (.prob p)
  | _ => .error .configuration

end BL
