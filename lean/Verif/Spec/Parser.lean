import Verif.Model.Parser

/-!
# Specification for queries of the parser

Queries as abstract syntax, the nested lists which the grammar returns for them, and their exact value for given values of the parameters.
-/

set_option linter.unusedSectionVars false

namespace Spec
open BL
variable {K : Type} [Field K] [LinearOrder K]

/-- the arithmetic operators -/
inductive Arith
  | add | sub | mul | div | pow
  deriving DecidableEq

/-- symbol of an operator -/
def Arith.op : Arith → Op
  | .add => .add
  | .sub => .sub
  | .mul => .mul
  | .div => .div
  | .pow => .pow

mutual
/-- Arithmetic expressions: numbers, parameters `s`, parameters at a time step `s@t`, signs, function calls, and chains of operators. -/
inductive Query (K : Type)
  | num (x : K)
  | par (s : String)
  | at (s : String) (t : K)
  | neg (e : Query K)
  | pos (e : Query K)
  | fn (s : String) (e : Query K)
  | chain (c : Chain K)

/-- Chains `a o b`, `a o b o c`, … of operators. -/
inductive Chain (K : Type)
  | two (a : Query K) (o : Arith) (b : Query K)
  | more (c : Chain K) (o : Arith) (b : Query K)
end

mutual
/-- what the grammar returns for an expression -/
def Query.tree : Query K → PTree K
  | .num x => .tok (.num x)
  | .par s => .tok (.name s)
  | .at s t => .list [.tok (.name s), .tok (.op .at), .tok (.num t)]
  | .neg e => .list [.tok (.op .sub), e.tree]
  | .pos e => .list [.tok (.op .add), e.tree]
  | .fn s e => .list [.tok (.fn s), e.tree]
  | .chain c => .list c.list

/-- the flat list of operands and operators of a chain -/
def Chain.list : Chain K → List (PTree K)
  | .two a o b => [a.tree, .tok (.op o.op), b.tree]
  | .more c o b => c.list ++ [.tok (.op o.op), b.tree]
end

mutual
/-- the parameters in an expression, from left to right, with the time step if one is given -/
def Query.refs : Query K → List (String × Option K)
  | .num _ => []
  | .par s => [(s, none)]
  | .at s t => [(s, some t)]
  | .neg e => e.refs
  | .pos e => e.refs
  | .fn _ e => e.refs
  | .chain c => c.refs

/-- the parameters in a chain -/
def Chain.refs : Chain K → List (String × Option K)
  | .two a _ b => a.refs ++ b.refs
  | .more c _ b => c.refs ++ b.refs
end

/-- a finite floating-point value -/
def finite? : FV K → Option K
  | .fin x => some x
  | _ => none

/-- exact arithmetic; undefined for division by zero and where the power is not a finite number -/
def Arith.exact (X : PExt K) : Arith → K → K → Option K
  | .add, x, y => some (x + y)
  | .sub, x, y => some (x - y)
  | .mul, x, y => some (x * y)
  | .div, x, y => if y = 0 then none else some (x / y)
  | .pow, x, y => finite? (X.pow (.fin x) (.fin y))

mutual
/-- Value of an expression if the parameters have the values `ρ`; operators of a chain from left to right. -/
def Query.value (X : PExt K) (ρ : String × Option K → K) : Query K → Option K
  | .num x => some x
  | .par s => some (ρ (s, none))
  | .at s t => some (ρ (s, some t))
  | .neg e => (e.value X ρ).map (- ·)
  | .pos e => e.value X ρ
  | .fn s e => (e.value X ρ).bind fun x => (X.fn s).bind fun f => finite? (f (.fin x))
  | .chain c => c.value X ρ

/-- value of a chain -/
def Chain.value (X : PExt K) (ρ : String × Option K → K) : Chain K → Option K
  | .two a o b => (a.value X ρ).bind fun x => (b.value X ρ).bind fun y => o.exact X x y
  | .more c o b => (c.value X ρ).bind fun x => (b.value X ρ).bind fun y => o.exact X x y
end

/-- A sum `l0 ± l1 ± l2 …` (or a single term): left side of a relational query.  Another expression is a single term. -/
structure Side (K : Type) where
  head : Query K
  tail : List (Bool × Query K)

/-- sign in a sum: `true` for `+` -/
def sign (b : Bool) : Arith := if b then .add else .sub

/-- the parameters of the left side -/
def Side.refs (l : Side K) : List (String × Option K) := l.head.refs ++ l.tail.flatMap fun q => q.2.refs

/-- value of the left side -/
def Side.value (X : PExt K) (ρ : String × Option K → K) (l : Side K) : Option K :=
  l.tail.foldl (fun x q => x.bind fun x => (q.2.value X ρ).bind fun y => (sign q.1).exact X x y) (l.head.value X ρ)

/-- the flat list of the left side, without its first term -/
def Side.rest (l : Side K) : List (Op × PTree K) := l.tail.map fun q => ((sign q.1).op, q.2.tree)

/-- `x rel y` -/
def Holds : Rel → K → K → Prop
  | .ge, x, y => x ≥ y
  | .gt, x, y => x > y
  | .le, x, y => x ≤ y
  | .lt, x, y => x < y
  | .eq, x, y => x = y

instance (r : Rel) (x y : K) : Decidable (Holds r x y) := by cases r <;> simp only [Holds] <;> infer_instance

/-- The user asks for the probability of `left rel right`. -/
def ask (X : PExt K) (n : ℕ) (ss : List (PStudy K)) (t : Option K) (left : Side K) (rel : Rel) (right : Query K) : Except PyErr (Option K) :=
  Parser.prob X n ss t rel left.head.tree left.rest right.tree

/-- A distribution: non-negative numbers with sum one. -/
def Dist (l : List K) : Prop := (∀ x ∈ l, 0 ≤ x) ∧ l.sum = 1

/-- one if both sides are defined and the relation holds, else zero -/
def indicator (rel : Rel) (x y : Option K) : K := match x, y with
  | some x, some y => if Holds rel x y then 1 else 0
  | _, _ => 0

/-- Expectation of `f` if the variables are independent; each variable has a list of values with probabilities.  Variables which are not listed are zero. -/
def expect {R : Type} [DecidableEq R] : List (R × List (K × K)) → ((R → K) → K) → K
  | [], f => f fun _ => 0
  | (r, tab) :: rest, f => (tab.map fun q => q.2 * expect rest fun ρ => f (Function.update ρ r q.1)).sum

/-- division by the sum -/
def share (l : List K) : List K := l.map fun x => x / l.sum

/-- What a parameter `r` of a query means: study `k`, whether it is a hyper-parameter, the time step (`none` for hyper-parameters which do not change), the values
and their probabilities.  `t` is the time argument of the query.
* `s@τ` and `s` with `t = τ`: posterior of the study at time stamp `τ`;
* `s` without time argument in an online study without history: latest posterior;
* hyper-parameters: (normalised) distribution of the hyper-parameters, in online studies those of the transition model at the time step. -/
inductive Reads (ss : List (PStudy K)) (t : Option K) : String × Option K → ℕ → Bool → Option K → List K → List K → Prop
  | at {k : ℕ} {s : PStudy K} {a : ℕ} {name : String} {τ : K} {i : ℕ} {vals post : List K} : t = none → ss[k]? = some s → s.store = true → s.names[a]? = some name → s.values[a]? = some vals → s.ts[i]? = some τ →
      s.posts[i]? = some post → Reads ss t (name, some τ) k false (some τ) vals post
  | global {k : ℕ} {s : PStudy K} {a : ℕ} {name : String} {τ : K} {i : ℕ} {vals post : List K} : t = some τ → ss[k]? = some s → s.names[a]? = some name → s.values[a]? = some vals → s.ts[i]? = some τ →
      s.posts[i]? = some post → Reads ss t (name, none) k false (some τ) vals post
  | latest {k : ℕ} {s : PStudy K} {a : ℕ} {name : String} {τ : K} {vals : List K} : t = none → ss[k]? = some s → s.store = false → s.names[a]? = some name → s.values[a]? = some vals → s.ts.getLast? = some τ →
      Reads ss t (name, none) k false (some τ) vals s.current
  | hyper {k : ℕ} {s : PStudy K} {cols : List (String × List K)} {dist : List K} {name : String} {vals : List K} : ss[k]? = some s → s.hyper = .static cols dist → (name, vals) ∈ cols →
      Reads ss t (name, none) k true none vals (share dist)
  | onlineAt {k : ℕ} {s : PStudy K} {ms : List (List (String × List K))} {hist : List (List (List K))} {cur : List (List K)} {j : ℕ}
      {m : List (String × List K)} {name : String} {vals : List K} {i : ℕ} {τ : K} {row : List (List K)} {dist : List K} : t = none → ss[k]? = some s → s.store = true → s.hyper = .online ms hist cur → ms[j]? = some m →
      (name, vals) ∈ m → s.ts[i]? = some τ → hist[i]? = some row → row[j]? = some dist → Reads ss t (name, some τ) k true (some τ) vals (share dist)
  | onlineGlobal {k : ℕ} {s : PStudy K} {ms : List (List (String × List K))} {hist : List (List (List K))} {cur : List (List K)} {j : ℕ}
      {m : List (String × List K)} {name : String} {vals : List K} {i : ℕ} {τ : K} {row : List (List K)} {dist : List K} : t = some τ → ss[k]? = some s → s.store = true → s.hyper = .online ms hist cur → ms[j]? = some m →
      (name, vals) ∈ m → s.ts[i]? = some τ → hist[i]? = some row → row[j]? = some dist → Reads ss t (name, none) k true (some τ) vals (share dist)
  | onlineLatest {k : ℕ} {s : PStudy K} {ms : List (List (String × List K))} {hist : List (List (List K))} {cur : List (List K)} {j : ℕ}
      {m : List (String × List K)} {name : String} {vals : List K} {τ : K} {dist : List K} : t = none → ss[k]? = some s → s.store = false → s.hyper = .online ms hist cur → ms[j]? = some m →
      (name, vals) ∈ m → cur[j]? = some dist → s.ts.getLast? = some τ → Reads ss t (name, none) k true (some τ) vals (share dist)

/-- Two (hyper-)parameters for which no joint distribution is stored: they belong to different studies, or one is a parameter and the other one a hyper-parameter, or they are one
parameter at different time steps.  `hy`: is it a hyper-parameter? `τ`: its time, `st`: its study. -/
def Separate (hy : String × Option K → Bool) (τ : String × Option K → Option K) (st : String × Option K → ℕ) (r r' : String × Option K) : Prop :=
  st r ≠ st r' ∨ hy r ≠ hy r' ∨ (hy r = false ∧ r.1 = r'.1 ∧ τ r ≠ τ r')

/-- Time stamps do not repeat; with a time argument, all studies have the same time stamps. -/
structure Stamps (ss : List (PStudy K)) (t : Option K) : Prop where
  nodup : ∀ s ∈ ss, s.ts.Nodup
  same : t.isSome → ∀ s ∈ ss, ∀ s' ∈ ss, s.ts = s'.ts

/-- The parser accepts the studies (no repeated names) and can load the distributions. -/
def Accepts (ss : List (PStudy K)) (t : Option K) : Prop := (∃ l, parserNames ss = .ok l) ∧ ∃ ps, loadAll ss t = .ok ps

end Spec
