import Verif.Spec.Parser
import Verif.Lemmas.Cart
import Mathlib.Tactic.Ring
import Mathlib.Tactic.Linarith
import Mathlib.Algebra.Order.BigOperators.Group.List

/-! # Evaluation of nested lists -/

set_option linter.unusedSectionVars false

namespace BL
open Spec
variable {K : Type} [Field K] [LinearOrder K]

theorem bind_ok {α β : Type} {x : Except PyErr α} {f : α → Except PyErr β} {b : β} : (x >>= f) = .ok b ↔ ∃ a, x = .ok a ∧ f a = .ok b := by
  cases x <;> simp [bind, Except.bind]

theorem map_ok {α β : Type} {x : Except PyErr α} {f : α → β} {b : β} : x.map f = .ok b ↔ ∃ a, x = .ok a ∧ f a = b := by
  cases x <;> simp [Except.map]

/-- value of an operand -/
def operandValue (E : PEnv K) (n : ℕ) (t : PTree K) : Except PyErr (PVal K) := evalElem (evaluate E n) t >>= Elem.value E

theorem operandValue_tok (E : PEnv K) (n : ℕ) (t : Tok K) : operandValue E n (.tok t) = convert E t := rfl

theorem operandValue_list (E : PEnv K) (n : ℕ) (l : List (PTree K)) : operandValue E n (.list l) = evaluate E n (unary l) := by
  simp only [operandValue, evalElem]
  cases evaluate E n (unary l) <;> rfl

theorem regroup_short : ∀ (n : ℕ) (l : List (PTree K)), l.length ≤ 3 → regroup n l = l
  | 0, _, _ => rfl
  | n + 1, l, h => by rw [regroup, if_neg (by omega)]

theorem evaluate_three (E : PEnv K) (n : ℕ) (a : PTree K) (o : Op) (b : PTree K) (v : PVal K) :
    evaluate E (n + 1) [a, .tok (.op o), b] = .ok v ↔ ∃ x y, operandValue E n a = .ok x ∧ operandValue E n b = .ok y ∧ operate E o x y = .ok v := by
  have hrg : regroup 3 [a, .tok (.op o), b] = [a, .tok (.op o), b] := regroup_short _ _ (le_refl _)
  rw [evaluate]
  simp only [List.length_cons, List.length_nil, hrg, mapE]
  have hop : evalElem (evaluate E n) (.tok (.op o)) = .ok (.tok (.op o)) := rfl
  simp only [operandValue, hop]
  rcases ha : evalElem (evaluate E n) a with e | xa
  · simp [bind, Except.bind]
  rcases hb : evalElem (evaluate E n) b with e | xb
  · simp [bind, Except.bind]
  simp only [bind, Except.bind, operation]
  rcases Elem.value E xa with e | x
  · simp
  rcases Elem.value E xb with e | y
  · simp
  simp

/-- flat list of a chain, and the nested list after regrouping -/
def flatChain (a : PTree K) (l : List (Op × PTree K)) : List (PTree K) := a :: l.flatMap fun q => [.tok (.op q.1), q.2]

/-- first element is no function -/
def NoFn : PTree K → Prop
  | .tok (.fn _) => False
  | _ => True

theorem startsWithFn_of {a : PTree K} (h : NoFn a) (l : List (PTree K)) : startsWithFn (a :: l) = false := by
  cases a with
  | tok t => cases t <;> simp_all [NoFn, startsWithFn]
  | list l => rfl

/-- the left operand of a chain after regrouping all but the last operation -/
def nestChain (a : PTree K) (l : List (Op × PTree K)) : PTree K := l.foldl (fun e q => .list [e, .tok (.op q.1), q.2]) a

theorem flatChain_length (a : PTree K) (l : List (Op × PTree K)) : (flatChain a l).length = 1 + 2 * l.length := by
  induction l with
  | nil => rfl
  | cons q l ih => simp only [flatChain, List.flatMap_cons, List.length_cons, List.length_append] at ih ⊢; simp only [List.length_nil]; omega

theorem regroup_chain : ∀ (l : List (Op × PTree K)) (n : ℕ) (a : PTree K) (o : Op) (b : PTree K), NoFn a → l.length ≤ n →
    regroup n (flatChain a (l ++ [(o, b)])) = [nestChain a l, .tok (.op o), b]
  | [], n, a, o, b, _, _ => regroup_short _ _ (by simp [flatChain])
  | q :: l, 0, a, o, b, _, h => by simp at h
  | q :: l, n + 1, a, o, b, ha, h => by
      have hstep : regroup (n + 1) (flatChain a (q :: l ++ [(o, b)])) = regroup n (flatChain (.list [a, .tok (.op q.1), q.2]) (l ++ [(o, b)])) := by
        have hlen : (flatChain a (q :: l ++ [(o, b)])).length > 3 := by rw [flatChain_length]; simp; omega
        rw [regroup, if_pos hlen, regroupStep]
        have : startsWithFn (flatChain a (q :: l ++ [(o, b)])) = false := startsWithFn_of ha _
        rw [this]
        simp [flatChain]
      rw [hstep, regroup_chain l n (.list [a, .tok (.op q.1), q.2]) o b trivial (by simpa using h)]
      rfl

theorem evaluate_nest (E : PEnv K) (n : ℕ) (a : PTree K) (l : List (Op × PTree K)) (o : Op) (b : PTree K) (ha : NoFn a) :
    evaluate E n (flatChain a (l ++ [(o, b)])) = evaluate E n [nestChain a l, .tok (.op o), b] := by
  cases n with
  | zero => rfl
  | succ n =>
      rw [evaluate, evaluate, regroup_chain l _ a o b ha (by rw [flatChain_length]; simp; omega), regroup_short _ _ (by simp)]

theorem unary_three (l : List (PTree K)) (h : 3 ≤ l.length) : unary l = l := by
  match l, h with
  | a :: b :: d :: l, _ =>
    unfold unary
    split
    all_goals first | rfl | (rename_i hh; simp at hh)

theorem operandValue_nest (E : PEnv K) (n : ℕ) (a : PTree K) (l : List (Op × PTree K)) (ha : NoFn a) (hl : l ≠ []) :
    operandValue E n (nestChain a l) = evaluate E n (flatChain a l) := by
  obtain ⟨l, q, rfl⟩ : ∃ l' q, l = l' ++ [q] := ⟨l.dropLast, l.getLast hl, (List.dropLast_append_getLast hl).symm⟩
  rw [evaluate_nest E n a l q.1 q.2 ha, nestChain, List.foldl_append, List.foldl_cons, List.foldl_nil, operandValue_list, unary_three _ (by simp)]
  rfl

/-- one more operator at the end of a chain -/
theorem evaluate_snoc (E : PEnv K) (n : ℕ) (a : PTree K) (l : List (Op × PTree K)) (o : Op) (b : PTree K) (ha : NoFn a) (hl : l ≠ []) (v : PVal K) :
    evaluate E (n + 1) (flatChain a (l ++ [(o, b)])) = .ok v ↔
      ∃ x y, evaluate E n (flatChain a l) = .ok x ∧ operandValue E n b = .ok y ∧ operate E o x y = .ok v := by
  rw [evaluate_nest E (n + 1) a l o b ha, evaluate_three, operandValue_nest E n a l ha hl]

/-! ## Trees of queries -/

theorem query_noFn (q : Query K) : NoFn q.tree := by
  cases q <;> simp [Query.tree, NoFn]

/-- operands of a chain -/
def chainOps : Chain K → Query K × List (Op × PTree K)
  | .two a o b => (a, [(o.op, b.tree)])
  | .more c o b => ((chainOps c).1, (chainOps c).2 ++ [(o.op, b.tree)])

theorem chain_list : ∀ c : Chain K, c.list = flatChain (chainOps c).1.tree (chainOps c).2
  | .two a o b => by simp [Chain.list, chainOps, flatChain]
  | .more c o b => by rw [Chain.list, chain_list c]; simp [chainOps, flatChain]

theorem chainOps_ne (c : Chain K) : (chainOps c).2 ≠ [] := by cases c <;> simp [chainOps]

/-- value of a query at recursion depth `n` -/
def run (E : PEnv K) (n : ℕ) (q : Query K) : Except PyErr (PVal K) := operandValue E n q.tree

theorem unary_chain (c : Chain K) : unary c.list = c.list := by
  have h : 3 ≤ c.list.length := by
    rw [chain_list, flatChain_length]
    have := List.length_pos_of_ne_nil (chainOps_ne c)
    omega
  exact unary_three _ h

theorem run_chain (E : PEnv K) (n : ℕ) (c : Chain K) : run E n (.chain c) = evaluate E n c.list := by
  rw [run, Query.tree, operandValue_list, unary_chain]

theorem run_two (E : PEnv K) (n : ℕ) (a : Query K) (o : Arith) (b : Query K) (v : PVal K) :
    run E (n + 1) (.chain (.two a o b)) = .ok v ↔ ∃ x y, run E n a = .ok x ∧ run E n b = .ok y ∧ operate E o.op x y = .ok v := by
  rw [run_chain, Chain.list, evaluate_three]; rfl

theorem run_more (E : PEnv K) (n : ℕ) (c : Chain K) (o : Arith) (b : Query K) (v : PVal K) :
    run E (n + 1) (.chain (.more c o b)) = .ok v ↔ ∃ x y, run E n (.chain c) = .ok x ∧ run E n b = .ok y ∧ operate E o.op x y = .ok v := by
  rw [run_chain, Chain.list, chain_list c]
  have : flatChain (chainOps c).1.tree (chainOps c).2 ++ [.tok (.op o.op), b.tree] = flatChain (chainOps c).1.tree ((chainOps c).2 ++ [(o.op, b.tree)]) := by
    simp [flatChain]
  rw [this, evaluate_snoc E n _ _ _ _ (query_noFn _) (chainOps_ne c), run_chain, chain_list c]; rfl

theorem run_num (E : PEnv K) (n : ℕ) (x : K) : run E n (.num x) = .ok (.num (.fin x) false) := rfl

theorem run_par (E : PEnv K) (n : ℕ) (s : String) : run E n (.par s) = convert E (.name s) := rfl

theorem run_at (E : PEnv K) (n : ℕ) (s : String) (t : K) (v : PVal K) : run E (n + 1) (.at s t) = .ok v ↔
    ∃ x, convert E (.name s) = .ok x ∧ atOp E x (.num (.fin t) false) = .ok v := by
  rw [run, Query.tree, operandValue_list]
  change evaluate E (n + 1) [.tok (.name s), .tok (.op .at), .tok (.num t)] = _ ↔ _
  rw [evaluate_three]
  constructor
  · rintro ⟨x, y, h1, h2, h3⟩
    refine ⟨x, h1, ?_⟩
    have : y = .num (.fin t) false := by
      have : operandValue E n (.tok (.num t)) = .ok (.num (.fin t) false) := rfl
      rw [this] at h2; injection h2 with h2; exact h2.symm
    subst this; exact h3
  · rintro ⟨x, h1, h2⟩
    exact ⟨x, _, h1, rfl, h2⟩

theorem unary_neg (E : PEnv K) (n : ℕ) (x : K) (b : PTree K) (v : PVal K) :
    evaluate E (n + 1) [.tok (.num x), .tok (.op .mul), b] = .ok v ↔ ∃ y, operandValue E n b = .ok y ∧ operate E .mul (.num (.fin x) false) y = .ok v := by
  rw [evaluate_three]
  constructor
  · rintro ⟨x', y, h1, h2, h3⟩
    have : operandValue E n (.tok (.num x)) = .ok (.num (.fin x) false) := rfl
    rw [this] at h1; injection h1 with h1; subst h1
    exact ⟨y, h2, h3⟩
  · rintro ⟨y, h2, h3⟩
    exact ⟨_, y, rfl, h2, h3⟩

theorem run_neg (E : PEnv K) (n : ℕ) (e : Query K) (v : PVal K) : run E (n + 1) (.neg e) = .ok v ↔
    ∃ y, run E n e = .ok y ∧ operate E .mul (.num (.fin (-1)) false) y = .ok v := by
  rw [run, Query.tree, operandValue_list, unary, unary_neg]; rfl

theorem run_pos (E : PEnv K) (n : ℕ) (e : Query K) (v : PVal K) : run E (n + 1) (.pos e) = .ok v ↔
    ∃ y, run E n e = .ok y ∧ operate E .mul (.num (.fin 1) false) y = .ok v := by
  rw [run, Query.tree, operandValue_list, unary, unary_neg]; rfl

theorem run_fn (E : PEnv K) (n : ℕ) (s : String) (e : Query K) (v : PVal K) : run E (n + 1) (.fn s e) = .ok v ↔
    (E.ext.fn s).isSome ∧ ∃ y, run E n e = .ok y ∧ funcOp E (.fn s) y = .ok v := by
  rw [run, Query.tree, operandValue_list]
  change evaluate E (n + 1) [.tok (.fn s), .tok (.op .func), e.tree] = _ ↔ _
  rw [evaluate_three]
  have : operandValue E n (.tok (.fn s)) = if (E.ext.fn s).isSome then .ok (.fn s) else .error .valueError := rfl
  rw [this]
  constructor
  · rintro ⟨x, y, h1, h2, h3⟩
    split at h1
    · rename_i hh
      injection h1 with h1; subst h1
      exact ⟨hh, y, h2, h3⟩
    · simp at h1
  · rintro ⟨hs, y, h2, h3⟩
    exact ⟨.fn s, y, by rw [if_pos hs], h2, h3⟩

theorem run_zero (E : PEnv K) (q : Query K) (v : PVal K) (h : run E 0 q = .ok v) : (∃ x, q = .num x) ∨ ∃ s, q = .par s := by
  cases q with
  | num x => exact .inl ⟨x, rfl⟩
  | par s => exact .inr ⟨s, rfl⟩
  | chain c => rw [run_chain] at h; simp [evaluate] at h
  | _ => rw [run, Query.tree, operandValue_list] at h; simp [evaluate] at h

/-- a parameter as it stands in the query -/
def refValue (E : PEnv K) (r : String × Option K) : Except PyErr (PVal K) :=
  convert E (.name r.1) >>= fun x => match r.2 with
    | none => .ok x
    | some t => atOp E x (.num (.fin t) false)

/-- Induction over the successful evaluation of a query. -/
theorem run_induct (E : PEnv K) (P : Query K → PVal K → Prop)
    (hnum : ∀ x, P (.num x) (.num (.fin x) false))
    (hpar : ∀ s v, refValue E (s, none) = .ok v → P (.par s) v)
    (hat : ∀ s t v, refValue E (s, some t) = .ok v → P (.at s t) v)
    (hneg : ∀ e y v, P e y → operate E .mul (.num (.fin (-1)) false) y = .ok v → P (.neg e) v)
    (hpos : ∀ e y v, P e y → operate E .mul (.num (.fin 1) false) y = .ok v → P (.pos e) v)
    (hfn : ∀ s f e y v, E.ext.fn s = some f → P e y → funcOp E (.fn s) y = .ok v → P (.fn s e) v)
    (htwo : ∀ a o b x y v, P a x → P b y → operate E (Arith.op o) x y = .ok v → P (.chain (.two a o b)) v)
    (hmore : ∀ c o b x y v, P (.chain c) x → P b y → operate E (Arith.op o) x y = .ok v → P (.chain (.more c o b)) v) :
    ∀ (n : ℕ) (q : Query K) (v : PVal K), run E n q = .ok v → P q v := by
  intro n
  induction n with
  | zero =>
      intro q v h
      rcases run_zero E q v h with ⟨x, rfl⟩ | ⟨s, rfl⟩
      · rw [run_num] at h; injection h with h; subst h; exact hnum x
      · rw [run_par] at h
        exact hpar s v (by rw [refValue, h]; rfl)
  | succ n ih =>
      intro q v h
      cases q with
      | num x => rw [run_num] at h; injection h with h; subst h; exact hnum x
      | par s => rw [run_par] at h; exact hpar s v (by rw [refValue, h]; rfl)
      | «at» s t =>
          rw [run_at] at h
          obtain ⟨x, h1, h2⟩ := h
          exact hat s t v (by rw [refValue, h1]; exact h2)
      | neg e => rw [run_neg] at h; obtain ⟨y, h1, h2⟩ := h; exact hneg e y v (ih e y h1) h2
      | pos e => rw [run_pos] at h; obtain ⟨y, h1, h2⟩ := h; exact hpos e y v (ih e y h1) h2
      | fn s e =>
          rw [run_fn] at h
          obtain ⟨h0, y, h1, h2⟩ := h
          obtain ⟨f, hf⟩ := Option.isSome_iff_exists.1 h0
          exact hfn s f e y v hf (ih e y h1) h2
      | chain c =>
          cases c with
          | two a o b => rw [run_two] at h; obtain ⟨x, y, h1, h2, h3⟩ := h; exact htwo a o b x y v (ih a x h1) (ih b y h2) h3
          | more c o b => rw [run_more] at h; obtain ⟨x, y, h1, h2, h3⟩ := h; exact hmore c o b x y v (ih _ x h1) (ih b y h2) h3

/-! ## The query `-1*(right)+left` -/

/-- the chain for `-1*(right)+left` -/
def reducedChain (l0 : Query K) (ls : List (Bool × Query K)) (r : Query K) : Chain K :=
  ls.foldl (fun c q => .more c (sign q.1) q.2) (.two (.chain (.two (.neg (.num 1)) .mul r)) .add l0)

theorem foldl_chain_list (ls : List (Bool × Query K)) : ∀ c : Chain K, (ls.foldl (fun c q => Chain.more c (sign q.1) q.2) c).list =
    c.list ++ ls.flatMap fun q => [.tok (.op (sign q.1).op), q.2.tree] := by
  induction ls with
  | nil => intro c; simp
  | cons q ls ih => intro c; rw [List.foldl_cons, ih, Chain.list]; simp

theorem reducedChain_list (l : Side K) (r : Query K) : (reducedChain l.head l.tail r).list = reduced l.head.tree l.rest r.tree := by
  rw [reducedChain, foldl_chain_list]
  simp [reduced, Chain.list, Query.tree, Side.rest, Arith.op, List.flatMap_map]

theorem relQuery_eq (E : PEnv K) (n : ℕ) (rel : Rel) (l : Side K) (r : Query K) :
    relQuery E n rel l.head.tree l.rest r.tree = (run E n (.chain (reducedChain l.head l.tail r)) >>= fun v => match v with
      | .obj o => maskedSum o rel.test
      | .num _ _ => .error .attributeError
      | _ => .error .typeError) := by
  rw [run_chain, reducedChain_list]; rfl

theorem relQuery_ok (E : PEnv K) (n : ℕ) (rel : Rel) (l : Side K) (r : Query K) (p : Option K) (h : relQuery E n rel l.head.tree l.rest r.tree = .ok p) :
    ∃ o, run E n (.chain (reducedChain l.head l.tail r)) = .ok (.obj o) ∧ maskedSum o rel.test = .ok p := by
  rw [relQuery_eq, bind_ok] at h
  obtain ⟨v, h1, h2⟩ := h
  cases v with
  | obj o => exact ⟨o, h1, h2⟩
  | _ => simp at h2

end BL
