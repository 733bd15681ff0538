import Verif.Props.C46

/-! # C50: chains of operators are evaluated from left to right -/

set_option linter.unusedSectionVars false

namespace Spec
open BL
variable {K : Type} [Field K] [LinearOrder K]

/-- Value of an operand: strings are converted, lists are evaluated (`n`: available nesting depth). -/
def operand (E : PEnv K) (n : ℕ) : PTree K → Except PyErr (PVal K)
  | .tok t => convert E t
  | .list l => evaluate E n (unary l)

/-- `((x o1 y1) o2 y2) …`, stops at the first exception -/
def leftToRight (E : PEnv K) : PVal K → List (Op × PVal K) → Except PyErr (PVal K)
  | x, [] => .ok x
  | x, (o, y) :: l => match operate E o x y with
      | .error e => .error e
      | .ok z => leftToRight E z l

/-- the list `[a, o1, b1, o2, b2, …]` -/
def chainList (a : PTree K) (l : List (Op × PTree K)) : List (PTree K) := a :: l.flatMap fun q => [.tok (.op q.1), q.2]

/-- The list does not begin with the name of a function (function calls are nested lists). -/
def NotFunction : PTree K → Prop
  | .tok (.fn _) => False
  | _ => True

end Spec

namespace BL
open Spec
variable {K : Type} [Field K] [LinearOrder K]

theorem operand_eq (E : PEnv K) (n : ℕ) (t : PTree K) : operand E n t = operandValue E n t := by
  cases t with
  | tok t => rfl
  | list l => rw [operandValue_list]; rfl

theorem mapE_mono {α β : Type} {f g : α → Except PyErr β} : ∀ {l : List α} {r : List β}, mapE f l = .ok r → (∀ x ∈ l, ∀ y, f x = .ok y → g x = .ok y) → mapE g l = .ok r
  | [], r, h, _ => h
  | a :: l, r, h, hg => by
      simp only [mapE, bind_ok] at h ⊢
      obtain ⟨y, h1, r', h2, h3⟩ := h
      exact ⟨y, hg a (by simp) y h1, r', mapE_mono h2 fun x hx => hg x (by simp [hx]), h3⟩

theorem evaluate_mono (E : PEnv K) : ∀ (n : ℕ) (l : List (PTree K)) (v : PVal K), evaluate E n l = .ok v → evaluate E (n + 1) l = .ok v
  | 0, l, v, h => by simp [evaluate] at h
  | n + 1, l, v, h => by
      rw [evaluate, bind_ok] at h
      obtain ⟨r, h1, h2⟩ := h
      rw [evaluate, bind_ok]
      refine ⟨r, mapE_mono h1 ?_, h2⟩
      intro x _ y hy
      cases x with
      | tok t => exact hy
      | list l =>
          simp only [evalElem, map_ok] at hy ⊢
          obtain ⟨a, h1, h2⟩ := hy
          exact ⟨a, evaluate_mono E n _ a h1, h2⟩

theorem operand_mono (E : PEnv K) (n : ℕ) (t : PTree K) (v : PVal K) (h : operand E n t = .ok v) : ∀ m, n ≤ m → operand E m t = .ok v := by
  intro m hm
  induction m, hm using Nat.le_induction with
  | base => exact h
  | succ m _ ih =>
      cases t with
      | tok t => exact ih
      | list l => exact evaluate_mono E m _ v ih

theorem leftToRight_snoc (E : PEnv K) (l : List (Op × PVal K)) (o : Op) (y : PVal K) : ∀ (x v : PVal K),
    leftToRight E x (l ++ [(o, y)]) = .ok v ↔ ∃ z, leftToRight E x l = .ok z ∧ operate E o z y = .ok v := by
  induction l with
  | nil =>
      intro x v
      simp only [List.nil_append, leftToRight]
      rcases h : operate E o x y with e | z <;> simp [h]
  | cons q l ih =>
      intro x v
      obtain ⟨o', y'⟩ := q
      simp only [List.cons_append, leftToRight]
      cases operate E o' x y' with
      | error e => simp
      | ok z => exact ih z v

end BL

namespace Props
open BL Spec
variable {K : Type} [Field K] [LinearOrder K]

/-- **C50.** For every non-empty list of operators and operands: if the operands `a, b1, b2, …` have the values `x, y1, y2, …`, then the chain `a o1 b1 o2 b2 …`
has the value `((x o1 y1) o2 y2) …`, and no value if one of these operations fails (provided that the recursion limit is not reached). -/
theorem C50 (E : PEnv K) (n : ℕ) (a : PTree K) (ha : NotFunction a) (x : PVal K) (hx : operand E n a = .ok x) (l : List (Op × PTree K × PVal K)) (hl : l ≠ [])
    (hy : ∀ q ∈ l, operand E n q.2.1 = .ok q.2.2) (m : ℕ) (hm : n + l.length ≤ m) (v : PVal K) :
    evaluate E m (chainList a (l.map fun q => (q.1, q.2.1))) = .ok v ↔ leftToRight E x (l.map fun q => (q.1, q.2.2)) = .ok v := by
  have ha' : NoFn a := by cases a with
    | tok t => cases t <;> simp_all [NoFn, NotFunction]
    | list l => trivial
  change evaluate E m (flatChain a (l.map fun q => (q.1, q.2.1))) = .ok v ↔ _
  induction l using List.reverseRecOn generalizing m v with
  | nil => exact absurd rfl hl
  | append_singleton l q ih =>
      obtain ⟨o, b, y⟩ := q
      have hb : operand E n b = .ok y := hy (o, b, y) (by simp)
      simp only [List.length_append, List.length_singleton] at hm
      obtain ⟨m, rfl⟩ : ∃ m', m = m' + 1 := ⟨m - 1, by omega⟩
      have hbm := operand_mono E n b y hb m (by omega)
      rw [operand_eq] at hbm
      simp only [List.map_append, List.map_cons, List.map_nil]
      rw [leftToRight_snoc]
      by_cases h0 : l = []
      · subst h0
        simp only [List.map_nil, List.nil_append, leftToRight]
        have hxm := operand_mono E n a x hx m (by omega)
        rw [operand_eq] at hxm
        change evaluate E (m + 1) [a, .tok (.op o), b] = .ok v ↔ _
        rw [evaluate_three, hxm, hbm]
        constructor
        · rintro ⟨x', y', h1, h2, h3⟩
          injection h1 with h1; injection h2 with h2; subst h1 h2
          exact ⟨_, rfl, h3⟩
        · rintro ⟨z, h1, h3⟩
          injection h1 with h1; subst h1
          exact ⟨_, _, rfl, rfl, h3⟩
      · rw [evaluate_snoc E m a _ o b ha' (by simpa using h0), hbm]
        have ih' := fun w => ih h0 (fun q hq => hy q (by simp [hq])) m (by omega) w
        constructor
        · rintro ⟨x', y', h1, h2, h3⟩
          injection h2 with h2; subst h2
          exact ⟨x', (ih' x').1 h1, h3⟩
        · rintro ⟨z, h1, h3⟩
          exact ⟨z, _, (ih' z).2 h1, rfl, h3⟩

open Ex in
/-- `8 - 4 - 2 - 1` is `((8 - 4) - 2) - 1 = 1` -/
example : evaluate (⟨pext, [], []⟩ : PEnv ℚ) 3 (chainList (.tok (.num 8)) [(.sub, .tok (.num 4)), (.sub, .tok (.num 2)), (.sub, .tok (.num 1))]) =
    .ok (.num (.fin 1) false) :=
  (C50 (⟨pext, [], []⟩ : PEnv ℚ) 0 (.tok (.num 8)) trivial (.num (.fin 8) false) rfl [(.sub, .tok (.num 4), .num (.fin 4) false),
    (.sub, .tok (.num 2), .num (.fin 2) false), (.sub, .tok (.num 1), .num (.fin 1) false)] (by simp) (by simp [operand, convert]) 3 (by simp) _).2 (by
      simp [leftToRight, operate, Op.arith?, arithOp, needsTime, directOp, FV.sub, FV.neg, FV.add]; norm_num)

end Props
