import Verif.Spec.Parser
import Verif.Model.Grammar

/-!
# Specification: how expressions are written

The usual notation of arithmetic: functions bind tighter than `@`, then powers (from the right), signs, products and quotients, sums and differences; parentheses; white space
between the symbols.
-/

set_option linter.unusedSectionVars false

namespace Spec
open BL
variable {K : Type} [Field K] [LinearOrder K]

/-- a decimal digit as a character -/
def digitChar (d : Fin 10) : Char := Char.ofNat (48 + d)

/-- the number with given decimal digits -/
def decimal (l : List (Fin 10)) : ℕ := l.foldl (fun (n : ℕ) (d : Fin 10) => 10 * n + d.val) 0

/-- Numerals `123`, `123.`, `123.45`, each possibly followed by an exponent (`e` or `E`, possibly a sign, digits). -/
structure Numeral where
  int : List (Fin 10)
  frac : Option (List (Fin 10))
  exp : Option (Bool × Option Bool × List (Fin 10))
  int_ne : int ≠ []
  exp_ne : ∀ q, exp = some q → q.2.2 ≠ []

/-- the sign of an exponent; `true` is minus -/
def signText : Option Bool → List Char
  | none => []
  | some true => ['-']
  | some false => ['+']

/-- how a numeral is written -/
def Numeral.text (m : Numeral) : List Char :=
  m.int.map digitChar ++
    (match m.frac with
      | none => []
      | some f => '.' :: f.map digitChar) ++
    (match m.exp with
      | none => []
      | some (cap, s, x) => (if cap then 'E' else 'e') :: signText s ++ x.map digitChar)

/-- the number that a numeral stands for -/
def Numeral.value (m : Numeral) : K :=
  let f := m.frac.getD []
  let a : K := (decimal (m.int ++ f) : K) / 10 ^ f.length
  match m.exp with
  | none => a
  | some (_, some true, x) => a / 10 ^ decimal x
  | some (_, _, x) => a * 10 ^ decimal x

/-- symbol of an operator -/
def Arith.char : Arith → Char
  | .add => '+'
  | .sub => '-'
  | .mul => '*'
  | .div => '/'
  | .pow => '^'

/-- level of precedence of an operator -/
def Arith.level : Arith → ℕ
  | .add => 6
  | .sub => 6
  | .mul => 5
  | .div => 5
  | .pow => 3

/-- only white space -/
def Blank (w : List Char) : Prop := ∀ c ∈ w, c = ' ' ∨ c = '\t' ∨ c = '\n' ∨ c = '\r'

mutual
/-- `Writes names fs k e s`: the text `s` is a way to write the expression `e` at level of precedence `k` (0: numbers, names, parentheses; 1: function calls; 2: parameters with time; 3: powers;
4: signs; 5: products; 6: sums).  Exponents and times may be signed numerals. -/
inductive Writes (names fs : List String) : ℕ → Query K → List Char → Prop
  | num (m : Numeral) : Writes names fs 0 (.num m.value) m.text
  | par {n : String} : n ∈ names → Writes names fs 0 (.par n) n.toList
  | paren {e : Query K} {s : List Char} : Writes names fs 6 e s → Writes names fs 0 e ('(' :: s ++ [')'])
  | fn {f : String} {w : List Char} {e : Query K} {s : List Char} : f ∈ fs → Blank w → Writes names fs 6 e s → Writes names fs 1 (.fn f e) (f.toList ++ w ++ '(' :: s ++ [')'])
  | at {n : String} {w w' : List Char} (m : Numeral) : n ∈ names → Blank w → Blank w' → Writes names fs 2 (.at n m.value) (n.toList ++ w ++ '@' :: w' ++ m.text)
  | atNeg {n : String} {w w' : List Char} (m : Numeral) : n ∈ names → Blank w → Blank w' → Writes names fs 2 (.at n (-m.value)) (n.toList ++ w ++ '@' :: w' ++ '-' :: m.text)
  | pow {a b : Query K} {s s' : List Char} : Writes names fs 2 a s → Writes names fs 3 b s' → Writes names fs 3 (.chain (.two a .pow b)) (s ++ '^' :: s')
  | powNeg {a : Query K} {s w : List Char} (m : Numeral) : Writes names fs 2 a s → Blank w → Writes names fs 3 (.chain (.two a .pow (.num (-m.value)))) (s ++ '^' :: w ++ '-' :: m.text)
  | neg {e : Query K} {s : List Char} : Writes names fs 4 e s → Writes names fs 4 (.neg e) ('-' :: s)
  | pos {e : Query K} {s : List Char} : Writes names fs 4 e s → Writes names fs 4 (.pos e) ('+' :: s)
  | chain {k : ℕ} {c : Chain K} {s : List Char} : WritesChain names fs k c s → Writes names fs k (.chain c) s
  | up {k : ℕ} {e : Query K} {s : List Char} : Writes names fs k e s → Writes names fs (k + 1) e s
  | before {k : ℕ} {e : Query K} {w s : List Char} : Blank w → Writes names fs k e s → Writes names fs k e (w ++ s)
  | after {k : ℕ} {e : Query K} {w s : List Char} : Blank w → Writes names fs k e s → Writes names fs k e (s ++ w)

/-- products and quotients (level 5), sums and differences (level 6) of two or more operands -/
inductive WritesChain (names fs : List String) : ℕ → Chain K → List Char → Prop
  | two {k : ℕ} {a b : Query K} {o : Arith} {s s' : List Char} : 4 ≤ k → o.level = k + 1 → Writes names fs k a s → Writes names fs k b s' → WritesChain names fs (k + 1) (.two a o b) (s ++ o.char :: s')
  | more {k : ℕ} {c : Chain K} {b : Query K} {o : Arith} {s s' : List Char} : 4 ≤ k → o.level = k + 1 → WritesChain names fs (k + 1) c s → Writes names fs k b s' →
      WritesChain names fs (k + 1) (.more c o b) (s ++ o.char :: s')
end

/-- the left side of a relation: a sum of terms -/
inductive WritesSide (names fs : List String) : Side K → List Char → Prop
  | one {e : Query K} {s : List Char} : Writes names fs 5 e s → WritesSide names fs ⟨e, []⟩ s
  | more {e : Query K} {l : List (Bool × Query K)} {b : Bool} {e' : Query K} {s s' : List Char} : WritesSide names fs ⟨e, l⟩ s → Writes names fs 5 e' s' →
      WritesSide names fs ⟨e, l ++ [(b, e')]⟩ (s ++ (sign b).char :: s')

/-- symbols with a meaning of their own -/
def Special (c : Char) : Prop := c ∈ ['+', '-', '*', '/', '^', '@', '(', ')', '<', '>', '=']

/-- white space -/
def White (c : Char) : Prop := c = ' ' ∨ c = '\t' ∨ c = '\n' ∨ c = '\r'

/-- Names of parameters: they begin neither with white space nor with a digit, do not end with white space, and contain no special symbol. -/
structure GoodName (s : List Char) : Prop where
  ne : s ≠ []
  plain : ∀ c ∈ s, ¬ Special c
  head : ∀ c, s.head? = some c → ¬ White c ∧ ¬ ('0' ≤ c ∧ c ≤ '9')
  last : ∀ c, s.getLast? = some c → ¬ White c

/-- Names of functions contain no special symbol and no white space, and do not begin with a digit. -/
structure GoodFn (s : List Char) : Prop where
  ne : s ≠ []
  plain : ∀ c ∈ s, ¬ Special c ∧ ¬ White c
  head : ∀ c, s.head? = some c → ¬ ('0' ≤ c ∧ c ≤ '9')

/-- `g` is the longest name of the list with which `s` begins -/
def LongestPrefix (l : List (List Char)) (s g : List Char) : Prop := g ∈ l ∧ g <+: s ∧ ∀ g' ∈ l, g' <+: s → g'.length ≤ g.length

/-- A text that cannot be the beginning of an expression: no name of a parameter or function, no digit, no special symbol. -/
structure NoStart (names fs : List (List Char)) (s : List Char) : Prop where
  head : ∀ c, s.head? = some c → ¬ White c ∧ ¬ ('0' ≤ c ∧ c ≤ '9') ∧ ¬ Special c
  noPar : ∀ n ∈ names, ¬ n <+: s
  noFn : ∀ f ∈ fs, ¬ f <+: s

/-- No confusion between parameters and functions: if a parameter begins like a function (the longest possible one), then the rest of its name is not empty and cannot be the beginning of an expression. -/
structure Clear (names fs : List (List Char)) : Prop where
  par : ∀ n ∈ names, GoodName n
  fn : ∀ f ∈ fs, GoodFn f
  clash : ∀ n ∈ names, ∀ g, LongestPrefix fs n g → ∃ m, n = g ++ m ∧ m ≠ [] ∧ NoStart names fs m

end Spec

namespace Spec
open BL

/-- how a relational operator is written -/
def relText : Rel → List Char
  | .ge => ['>', '=']
  | .gt => ['>']
  | .le => ['<', '=']
  | .lt => ['<']
  | .eq => ['=', '=']

/-- The parser is set up with these names of (hyper-)parameters and functions, and they cannot be confused.  `all`: the names offered by numpy and scipy.special. -/
structure ParserSetup {K : Type} [Field K] [LinearOrder K] (all : List String) (ss : List (PStudy K)) (names fs : List String) : Prop where
  names_eq : parserNames ss = .ok names
  fs_eq : functionsOf all names = fs
  clear : Clear (names.map String.toList) (fs.map String.toList)

end Spec
