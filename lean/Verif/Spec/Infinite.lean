import Verif.Spec.Parser

/-!
# Specification for queries with infinite values

Values of expressions which may be infinite (`1/x` at zero, `log(x)` at zero) or undefined (`0/0`): numbers together with minus and plus infinity.
-/

set_option linter.unusedSectionVars false

namespace Spec
open BL
variable {K : Type} [Field K] [LinearOrder K]

/-- numbers, minus infinity and plus infinity -/
inductive XNum (K : Type)
  | low
  | num (x : K)
  | high
  deriving DecidableEq

/-- the order: minus infinity, numbers, plus infinity -/
def XNum.Less : XNum K → XNum K → Prop
  | .low, .low => False
  | .low, _ => True
  | .num x, .num y => x < y
  | .num _, .high => True
  | _, _ => False

instance (x y : XNum K) : Decidable (x.Less y) := by cases x <;> cases y <;> simp only [XNum.Less] <;> infer_instance

/-- `x rel y` for numbers and infinities -/
def XHolds : Rel → XNum K → XNum K → Prop
  | .ge, x, y => y.Less x ∨ x = y
  | .gt, x, y => y.Less x
  | .le, x, y => x.Less y ∨ x = y
  | .lt, x, y => x.Less y
  | .eq, x, y => x = y

instance (r : Rel) (x y : XNum K) : Decidable (XHolds r x y) := by cases r <;> simp only [XHolds] <;> infer_instance

/-- sum; the sum of opposite infinities is undefined -/
def XNum.plus : XNum K → XNum K → Option (XNum K)
  | .num x, .num y => some (.num (x + y))
  | .high, .low => none
  | .low, .high => none
  | .high, _ => some .high
  | _, .high => some .high
  | .low, _ => some .low
  | _, .low => some .low

/-- difference; the difference of equal infinities is undefined -/
def XNum.minus : XNum K → XNum K → Option (XNum K)
  | .num x, .num y => some (.num (x - y))
  | .high, .high => none
  | .low, .low => none
  | .high, _ => some .high
  | _, .low => some .high
  | .low, _ => some .low
  | _, .high => some .low

/-- plus infinity if both or neither of the conditions hold, else minus infinity -/
def signed (p q : Prop) [Decidable p] [Decidable q] : XNum K := if p ↔ q then .high else .low

/-- product; zero times infinity is undefined -/
def XNum.times (x y : XNum K) : Option (XNum K) := match x, y with
  | .num x, .num y => some (.num (x * y))
  | x, y => if x = .num 0 ∨ y = .num 0 then none else some (signed (x.Less (.num 0)) (y.Less (.num 0)))

/-- quotient; zero has positive sign, and `0/0` and quotients of infinities are undefined -/
def XNum.over (x y : XNum K) : Option (XNum K) := match x, y with
  | .num x, .num y => if y ≠ 0 then some (.num (x / y)) else if x = 0 then none else some (signed (x < 0) False)
  | .num _, _ => some (.num 0)
  | x, .num y => some (signed (x.Less (.num 0)) (y < 0))
  | _, _ => none

/-- the floating-point number for a value; undefined values are nan -/
def XNum.float : Option (XNum K) → FV K
  | none => .nan
  | some .low => .ninf
  | some (.num x) => .fin x
  | some .high => .pinf

/-- the value of a floating-point number -/
def XNum.ofFloat : FV K → Option (XNum K)
  | .nan => none
  | .ninf => some .low
  | .fin x => some (.num x)
  | .pinf => some .high

/-- Arithmetic with infinities.  Powers are computed by the external function, also from undefined values. -/
def Arith.extended (X : PExt K) : Arith → Option (XNum K) → Option (XNum K) → Option (XNum K)
  | .add, x, y => x.bind fun x => y.bind fun y => x.plus y
  | .sub, x, y => x.bind fun x => y.bind fun y => x.minus y
  | .mul, x, y => x.bind fun x => y.bind fun y => x.times y
  | .div, x, y => x.bind fun x => y.bind fun y => x.over y
  | .pow, x, y => XNum.ofFloat (X.pow (XNum.float x) (XNum.float y))

mutual
/-- Value of an expression with infinities if the parameters have the values `ρ`; operators of a chain from left to right. -/
def Query.extended (X : PExt K) (ρ : String × Option K → K) : Query K → Option (XNum K)
  | .num x => some (.num x)
  | .par s => some (.num (ρ (s, none)))
  | .at s t => some (.num (ρ (s, some t)))
  | .neg e => (e.extended X ρ).bind fun x => XNum.minus (.num 0) x
  | .pos e => e.extended X ρ
  | .fn s e => (X.fn s).bind fun f => XNum.ofFloat (f (XNum.float (e.extended X ρ)))
  | .chain c => c.extended X ρ

/-- value of a chain with infinities -/
def Chain.extended (X : PExt K) (ρ : String × Option K → K) : Chain K → Option (XNum K)
  | .two a o b => o.extended X (a.extended X ρ) (b.extended X ρ)
  | .more c o b => o.extended X (c.extended X ρ) (b.extended X ρ)
end

/-- value of the left side with infinities -/
def Side.extended (X : PExt K) (ρ : String × Option K → K) (l : Side K) : Option (XNum K) :=
  l.tail.foldl (fun x q => (sign q.1).extended X x (q.2.extended X ρ)) (l.head.extended X ρ)

mutual
/-- Expressions which the parser can evaluate: all functions exist, and no number is divided by the number zero (a parameter may be zero). -/
def Query.Clean (X : PExt K) : Query K → Prop
  | .num _ => True
  | .par _ => True
  | .at _ _ => True
  | .neg e => e.Clean X
  | .pos e => e.Clean X
  | .fn s e => (X.fn s).isSome ∧ e.Clean X
  | .chain c => c.Clean X

/-- chains which the parser can evaluate -/
def Chain.Clean (X : PExt K) : Chain K → Prop
  | .two a o b => a.Clean X ∧ b.Clean X ∧ (o = .div → a.refs = [] → b.refs = [] → ∀ ρ, b.extended X ρ ≠ some (.num 0))
  | .more c o b => c.Clean X ∧ b.Clean X ∧ (o = .div → c.refs = [] → b.refs = [] → ∀ ρ, b.extended X ρ ≠ some (.num 0))
end

/-- left sides which the parser can evaluate -/
def Side.Clean (X : PExt K) (l : Side K) : Prop := l.head.Clean X ∧ ∀ q ∈ l.tail, q.2.Clean X

/-- one if both sides are defined and the relation holds, else zero -/
def xindicator (rel : Rel) (x y : Option (XNum K)) : K := match x, y with
  | some x, some y => if XHolds rel x y then 1 else 0
  | _, _ => 0

/-- the two sides are not the same infinity -/
def Comparable (x y : Option (XNum K)) : Prop := ¬ (x = some .high ∧ y = some .high) ∧ ¬ (x = some .low ∧ y = some .low)

end Spec
