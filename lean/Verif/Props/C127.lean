import Verif.Props.C47
import Verif.Spec.Infinite

/-! # C127: queries with infinite or undefined values -/

set_option linter.unusedSectionVars false
set_option linter.unusedSimpArgs false

namespace BL
open Spec
variable {K : Type} [Field K] [LinearOrder K] [IsStrictOrderedRing K]

theorem float_ofFloat (v : FV K) : XNum.float (XNum.ofFloat v) = v := by cases v <;> rfl

theorem float_plus (x y : Option (XNum K)) : XNum.float (x.bind fun x => y.bind fun y => x.plus y) = FV.add (XNum.float x) (XNum.float y) := by
  rcases x with _ | (_ | x | _) <;> rcases y with _ | (_ | y | _) <;> rfl

theorem float_minus (x y : Option (XNum K)) : XNum.float (x.bind fun x => y.bind fun y => x.minus y) = FV.sub (XNum.float x) (XNum.float y) := by
  rcases x with _ | (_ | x | _) <;> rcases y with _ | (_ | y | _) <;> simp [XNum.float, XNum.minus, FV.sub, FV.add, FV.neg, sub_eq_add_neg]

theorem float_times (x y : Option (XNum K)) : XNum.float (x.bind fun x => y.bind fun y => x.times y) = FV.mul (XNum.float x) (XNum.float y) := by
  rcases x with _ | (_ | x | _) <;> rcases y with _ | (_ | y | _) <;> simp [XNum.float, XNum.times, FV.mul, FV.infMul, signed, XNum.Less]
  · rcases lt_trichotomy y 0 with h | rfl | h
    · simp [h, h.ne, not_le.2 h, h.not_gt]
    · simp
    · simp [h, h.ne', h.le, h.not_gt]
  · rcases lt_trichotomy x 0 with h | rfl | h
    · simp [h, h.ne, not_le.2 h, h.not_gt]
    · simp
    · simp [h, h.ne', h.le, h.not_gt]
  · rcases lt_trichotomy x 0 with h | rfl | h
    · simp [h, h.ne, not_le.2 h, h.not_gt]
    · simp
    · simp [h, h.ne', h.le, h.not_gt]
  · rcases lt_trichotomy y 0 with h | rfl | h
    · simp [h, h.ne, not_le.2 h, h.not_gt]
    · simp
    · simp [h, h.ne', h.le, h.not_gt]

theorem float_over (x y : Option (XNum K)) : XNum.float (x.bind fun x => y.bind fun y => x.over y) = FV.div (XNum.float x) (XNum.float y) := by
  rcases x with _ | (_ | x | _) <;> rcases y with _ | (_ | y | _) <;> simp [XNum.float, XNum.over, FV.div, FV.infMul, signed, XNum.Less]
  · rcases lt_or_ge y 0 with h | h
    · simp [h, not_le.2 h]
    · simp [h, not_lt.2 h]
  · by_cases h0 : y = 0
    · rcases lt_trichotomy x 0 with h | rfl | h
      · simp [h0, h, h.ne, not_le.2 h, h.not_gt]
      · simp [h0]
      · simp [h0, h, h.ne', h.le, h.not_gt]
    · simp [h0]
  · rcases lt_or_ge y 0 with h | h
    · simp [h, not_le.2 h]
    · simp [h, not_lt.2 h]

theorem float_arith (X : PExt K) (o : Arith) (x y : Option (XNum K)) : XNum.float (o.extended X x y) = fvOp X o (XNum.float x) (XNum.float y) := by
  cases o
  · exact float_plus x y
  · exact float_minus x y
  · exact float_times x y
  · exact float_over x y
  · exact float_ofFloat _

mutual
theorem float_query (X : PExt K) (ρ : String × Option K → K) : ∀ q : Query K, XNum.float (q.extended X ρ) = fvQ X (fun r => .fin (ρ r)) q
  | .num x => rfl
  | .par s => rfl
  | .at s t => rfl
  | .neg e => by
      rw [fvQ, ← float_query X ρ e, Query.extended]
      rcases e.extended X ρ with _ | (_ | x | _) <;> simp [XNum.float, XNum.minus, FV.mul, FV.infMul]
  | .pos e => by
      rw [fvQ, ← float_query X ρ e, Query.extended]
      rcases e.extended X ρ with _ | (_ | x | _) <;> simp [XNum.float, FV.mul, FV.infMul]
  | .fn s e => by
      rw [fvQ, ← float_query X ρ e, Query.extended]
      cases X.fn s with
      | none => rfl
      | some f => exact float_ofFloat _
  | .chain c => float_chain X ρ c

theorem float_chain (X : PExt K) (ρ : String × Option K → K) : ∀ c : Chain K, XNum.float (c.extended X ρ) = fvC X (fun r => .fin (ρ r)) c
  | .two a o b => by rw [fvC, ← float_query X ρ a, ← float_query X ρ b, Chain.extended, float_arith]
  | .more c o b => by rw [fvC, ← float_chain X ρ c, ← float_query X ρ b, Chain.extended, float_arith]
end

theorem fv_move_add (z r y : FV K) : FV.add (FV.sub z r) y = FV.sub (FV.add z y) r := by
  cases z <;> cases r <;> cases y <;> simp [FV.sub, FV.add, FV.neg]; ring

theorem fv_move_sub (z r y : FV K) : FV.sub (FV.sub z r) y = FV.sub (FV.sub z y) r := by
  cases z <;> cases r <;> cases y <;> simp [FV.sub, FV.add, FV.neg]; ring

theorem fv_swap (r z : FV K) : FV.add (FV.mul (.fin (-1)) r) z = FV.sub z r := by
  cases r <;> cases z <;> simp [FV.sub, FV.add, FV.neg, FV.mul, FV.infMul, not_lt.2 (zero_le_one (α := K))]; ring

/-- `left - right` in floating-point numbers, whatever the values are -/
theorem float_reduced (X : PExt K) (ρ : String × Option K → K) (l : Side K) (r : Query K) :
    fvC X (fun r => .fin (ρ r)) (reducedChain l.head l.tail r) = FV.sub (XNum.float (l.extended X ρ)) (XNum.float (r.extended X ρ)) := by
  obtain ⟨l0, ls⟩ := l
  have key : ∀ (ls : List (Bool × Query K)) (c : Chain K) (z : Option (XNum K)), fvC X (fun r => .fin (ρ r)) c = FV.sub (XNum.float z) (XNum.float (r.extended X ρ)) →
      fvC X (fun r => .fin (ρ r)) (ls.foldl (fun c q => Chain.more c (sign q.1) q.2) c) =
        FV.sub (XNum.float (ls.foldl (fun x q => (sign q.1).extended X x (q.2.extended X ρ)) z)) (XNum.float (r.extended X ρ)) := by
    intro ls
    induction ls with
    | nil => intro c z h; exact h
    | cons q ls ih =>
        intro c z h
        rw [List.foldl_cons, List.foldl_cons]
        refine ih _ _ ?_
        rw [fvC, h, float_arith, ← float_query]
        cases q.1
        · exact fv_move_sub _ _ _
        · exact fv_move_add _ _ _
  refine key ls _ (l0.extended X ρ) ?_
  simp only [fvC, fvQ, fvOp]
  rw [← float_query, ← float_query, ← fv_swap]
  congr 2
  simp [FV.mul]

theorem test_extended (rel : Rel) (x y : Option (XNum K)) (h : Comparable x y) (p : K) :
    (if rel.test (FV.sub (XNum.float x) (XNum.float y)) then p else 0) = p * xindicator rel x y := by
  have key : rel.test (FV.sub (XNum.float x) (XNum.float y)) = true ↔ ∃ a b, x = some a ∧ y = some b ∧ XHolds rel a b := by
    have fin : ∀ x y : K, rel.test (FV.sub (.fin x) (.fin y)) = true ↔ XHolds rel (.num x) (.num y) := by
      intro x y
      have : FV.sub (.fin x) (.fin y) = .fin (x - y) := by simp [FV.sub, FV.add, FV.neg, sub_eq_add_neg]
      rw [this, test_sub, decide_eq_true_iff]
      cases rel
      · exact (le_iff_lt_or_eq (a := y) (b := x)).trans (or_congr Iff.rfl (eq_comm.trans (by simp)))
      · exact Iff.rfl
      · exact (le_iff_lt_or_eq (a := x) (b := y)).trans (or_congr Iff.rfl (by simp))
      · exact Iff.rfl
      · simp [Holds, XHolds]
    rcases x with _ | (_ | x | _) <;> rcases y with _ | (_ | y | _)
    case some.num.some.num =>
      refine (fin x y).trans ⟨fun h => ⟨_, _, rfl, rfl, h⟩, ?_⟩
      rintro ⟨_, _, ⟨⟩, ⟨⟩, h⟩
      exact h
    all_goals first
      | (exfalso; simp [Comparable] at h; done)
      | (cases rel <;> simp [XNum.float, FV.sub, FV.add, FV.neg, Rel.test, XHolds, XNum.Less])
  by_cases hk : rel.test (FV.sub (XNum.float x) (XNum.float y)) = true
  · obtain ⟨a, b, rfl, rfl, hh⟩ := key.1 hk
    simp only [hk, if_true, xindicator, hh, mul_one]
  · rw [if_neg hk]
    rcases x with _ | x
    · simp [xindicator]
    rcases y with _ | y
    · simp [xindicator]
    have : ¬ XHolds rel x y := fun hh => hk (key.2 ⟨x, y, rfl, rfl, hh⟩)
    simp [xindicator, this]

/-! ## Queries that are answered -/

/-- arithmetic without exception, also for infinite numbers -/
theorem arith_answers (X : PExt K) (o : Arith) (x y : PVal K) (hx : (∃ a n, x = .num a n) ∨ ∃ a, x = .obj a) (hy : (∃ a n, y = .num a n) ∨ ∃ a, y = .obj a)
    (hxt : needsTime x = false) (hyt : needsTime y = false)
    (hz : ∀ a n b m, x = .num a n → y = .num b m → o = .div → b ≠ .fin 0)
    (hc : ∀ a b, x = .obj a → y = .obj b → compound a b = true ∨ a.vals.length = b.vals.length) : ∃ v, arithOp (fvOp X o) o.op x y = .ok v := by
  unfold arithOp
  rw [if_neg (by rw [hxt, hyt]; simp)]
  rcases hx with ⟨a, n, rfl⟩ | ⟨a, rfl⟩ <;> rcases hy with ⟨b, m, rfl⟩ | ⟨b, rfl⟩
  · simp only [directOp]
    split
    · rename_i hd
      exact absurd hd.2.1 (hz a n b m rfl rfl (by cases o <;> simp [Arith.op] at hd ⊢))
    · exact ⟨_, rfl⟩
  · simp only [directOp]; exact ⟨_, rfl⟩
  · simp only [directOp]; exact ⟨_, rfl⟩
  · simp only
    split
    · exact ⟨_, rfl⟩
    · rename_i hn
      rcases hc a b rfl rfl with h | h
      · exact absurd h hn
      · simp only [directOp, broadcast_same _ _ _ h]
        exact ⟨_, rfl⟩

/-- numbers come from expressions without parameters -/
def NumOnly (P : Query K → PVal K → Prop) : Prop := ∀ q x b, P q (.num x b) → q.refs = []

theorem bin_answers {E : PEnv K} {G : List (String × Option K) → Prop} {P : Query K → PVal K → Prop} (C : TotalCtx E G P) (hN : NumOnly P) {n m : ℕ} {a b : Query K} {o : Arith}
    {x y : PVal K} (hG : G (a.refs ++ b.refs)) (hx : run E n a = .ok x) (hy : run E m b = .ok y)
    (hz : o = .div → a.refs = [] → b.refs = [] → ∀ ρ, b.extended E.ext ρ ≠ some (.num 0)) : ∃ v, operate E o.op x y = .ok v := by
  have hPx := C.inv n a x (C.left _ _ hG) hx
  have hPy := C.inv m b y (C.right _ _ hG) hy
  rw [operate_arith]
  refine arith_answers E.ext o x y ((C.form a x hPx).imp (fun ⟨x, b, h, _⟩ => ⟨x, b, h⟩) id) ((C.form b y hPy).imp (fun ⟨x, b, h, _⟩ => ⟨x, b, h⟩) id)
    (run_fine E n a x hx (C.ref _ (C.left _ _ hG))) (run_fine E m b y hy (C.ref _ (C.right _ _ hG))) ?_ ?_
  · intro a1 n1 b1 m1 e1 e2 hd hb
    subst e1 e2 hb
    have h0 := hz hd (hN _ _ _ hPx) (hN _ _ _ hPy) fun _ => 0
    rcases C.form b _ hPy with ⟨x', b', h, h'⟩ | ⟨o, h⟩
    · injection h with h
      have h2 := h' fun _ => .fin 0
      rw [← h, ← float_query E.ext fun _ => 0] at h2
      apply h0
      generalize b.extended E.ext (fun _ => 0) = v at h2
      rcases v with _ | (_ | v | _) <;> simp [XNum.float] at h2
      rw [h2]
    · cases h
  · intro a' b' e1 e2
    subst e1 e2
    exact C.obj a b a' b' hG hPx hPy

mutual
theorem run_answers {E : PEnv K} {G : List (String × Option K) → Prop} {P : Query K → PVal K → Prop} (C : TotalCtx E G P) (hN : NumOnly P) :
    ∀ (q : Query K), G q.refs → q.Clean E.ext → ∀ n, depthQ q ≤ n → ∃ v, run E n q = .ok v
  | .num x, _, _, n, _ => ⟨_, rfl⟩
  | .par s, hG, _, n, _ => by
      obtain ⟨o, h1, -⟩ := C.ref _ hG (s, none) (by simp [Query.refs])
      rw [refValue, bind_ok] at h1
      obtain ⟨a, h1, -⟩ := h1
      exact ⟨a, h1⟩
  | .at s t, hG, _, n, hn => by
      obtain ⟨n, rfl⟩ : ∃ m, n = m + 1 := ⟨n - 1, by simp [depthQ] at hn; omega⟩
      obtain ⟨o, h1, -⟩ := C.ref _ hG (s, some t) (by simp [Query.refs])
      rw [refValue, bind_ok] at h1
      obtain ⟨a, h1, h2⟩ := h1
      exact ⟨_, (run_at E n s t (.obj o)).2 ⟨a, h1, h2⟩⟩
  | .neg e, hG, hv, n, hn => by
      obtain ⟨n, rfl⟩ : ∃ m, n = m + 1 := ⟨n - 1, by simp [depthQ] at hn; omega⟩
      obtain ⟨y, hy⟩ := run_answers C hN e hG (by simpa only [Query.Clean] using hv) n (by simpa [depthQ] using hn)
      obtain ⟨v, hv⟩ := bin_answers C hN (a := .num (-1)) (b := e) (o := .mul) (n := n) hG rfl hy (by simp)
      exact ⟨v, (run_neg E n e v).2 ⟨y, hy, hv⟩⟩
  | .pos e, hG, hv, n, hn => by
      obtain ⟨n, rfl⟩ : ∃ m, n = m + 1 := ⟨n - 1, by simp [depthQ] at hn; omega⟩
      obtain ⟨y, hy⟩ := run_answers C hN e hG (by simpa only [Query.Clean] using hv) n (by simpa [depthQ] using hn)
      obtain ⟨v, hv⟩ := bin_answers C hN (a := .num 1) (b := e) (o := .mul) (n := n) hG rfl hy (by simp)
      exact ⟨v, (run_pos E n e v).2 ⟨y, hy, hv⟩⟩
  | .fn s e, hG, hv, n, hn => by
      obtain ⟨n, rfl⟩ : ∃ m, n = m + 1 := ⟨n - 1, by simp [depthQ] at hn; omega⟩
      simp only [Query.Clean] at hv
      obtain ⟨f, hf⟩ := Option.isSome_iff_exists.1 hv.1
      obtain ⟨y, hy⟩ := run_answers C hN e hG hv.2 n (by simpa [depthQ] using hn)
      have : ∃ v, funcOp E (.fn s) y = .ok v := by
        rcases C.form e y (C.inv n e y hG hy) with ⟨x', b', rfl, h⟩ | ⟨o, rfl⟩ <;> simp only [funcOp, hf] <;> exact ⟨_, rfl⟩
      obtain ⟨v, hv⟩ := this
      exact ⟨v, (run_fn E n s e v).2 ⟨by rw [hf]; rfl, y, hy, hv⟩⟩
  | .chain c, hG, hv, n, hn => run_answersC C hN c hG (by simpa only [Query.Clean] using hv) n hn

theorem run_answersC {E : PEnv K} {G : List (String × Option K) → Prop} {P : Query K → PVal K → Prop} (C : TotalCtx E G P) (hN : NumOnly P) :
    ∀ (c : Chain K), G c.refs → c.Clean E.ext → ∀ n, depthC c ≤ n → ∃ v, run E n (.chain c) = .ok v
  | .two a o b, hG, hv, n, hn => by
      obtain ⟨n, rfl⟩ : ∃ m, n = m + 1 := ⟨n - 1, by simp [depthC] at hn; omega⟩
      simp only [Chain.Clean] at hv
      simp only [depthC] at hn
      obtain ⟨x', hx'⟩ := run_answers C hN a (C.left _ _ hG) hv.1 n (by omega)
      obtain ⟨y', hy'⟩ := run_answers C hN b (C.right _ _ hG) hv.2.1 n (by omega)
      obtain ⟨v, hv⟩ := bin_answers C hN (a := a) (b := b) hG hx' hy' hv.2.2
      exact ⟨v, (run_two E n a o b v).2 ⟨x', y', hx', hy', hv⟩⟩
  | .more c o b, hG, hv, n, hn => by
      obtain ⟨n, rfl⟩ : ∃ m, n = m + 1 := ⟨n - 1, by simp [depthC] at hn; omega⟩
      simp only [Chain.Clean] at hv
      simp only [depthC] at hn
      obtain ⟨x', hx'⟩ := run_answersC C hN c (C.left _ _ hG) hv.1 n (by omega)
      obtain ⟨y', hy'⟩ := run_answers C hN b (C.right _ _ hG) hv.2.1 n (by omega)
      obtain ⟨v, hv⟩ := bin_answers C hN (a := .chain c) (b := b) hG hx' hy' hv.2.2
      exact ⟨v, (run_more E n c o b v).2 ⟨x', y', hx', hy', hv⟩⟩
end

theorem reducedChain_clean (X : PExt K) (l : Side K) (r : Query K) (hl : l.Clean X) (hr : r.Clean X) : (reducedChain l.head l.tail r).Clean X := by
  obtain ⟨l0, ls⟩ := l
  have key : ∀ (ls : List (Bool × Query K)) (c : Chain K), c.Clean X → (∀ q ∈ ls, q.2.Clean X) → (ls.foldl (fun c q => Chain.more c (sign q.1) q.2) c).Clean X := by
    intro ls
    induction ls with
    | nil => intro c h _; exact h
    | cons q ls ih =>
        intro c h h'
        rw [List.foldl_cons]
        refine ih _ ?_ fun q' hq' => h' q' (by simp [hq'])
        rw [Chain.Clean]
        exact ⟨h, h' q (by simp), by cases q.1 <;> simp [sign]⟩
  refine key ls _ ?_ hl.2
  simp only [Chain.Clean, Query.Clean]
  exact ⟨⟨trivial, hr, by simp⟩, hl.1, by simp⟩

end BL

namespace Props
open BL Spec
variable {K : Type} [Field K] [LinearOrder K] [IsStrictOrderedRing K]

/-- **C127 (partial), parameters of one study.** For every query `left rel right` in which all parameters belong to one study and one time step (or all are hyper-parameters of one study and one time step): if the query is answered, the result is the probability of
`left rel right` under the joint distribution `w` of the parameters, where expressions may be infinite (and are compared as infinities) and values of the parameters for which a side is undefined do not count.  Missing: values (with non-vanishing probability) for which
both sides are the same infinity (`C127_refuted`). -/
theorem C127_partial (X : PExt K) (ss : List (PStudy K)) (t : Option K) (hS : Stamps ss t) (left : Side K) (rel : Rel) (right : Query K)
    (k : ℕ) (hy : Bool) (τ : Option K) (V : String × Option K → List K) (w : List K) (hne : left.refs ++ right.refs ≠ [])
    (hr : ∀ r ∈ left.refs ++ right.refs, Reads ss t r k hy τ (V r) w ∧ (V r).length = w.length)
    (hc : ∀ (i : ℕ) (h : i < w.length), w[i] ≠ 0 → Comparable (left.extended X fun r => (V r).getD i 0) (right.extended X fun r => (V r).getD i 0))
    (n : ℕ) (p : Option K) (ha : ask X n ss t left rel right = .ok p) :
    p = some (∑ i : Fin w.length, w[i] * xindicator rel (left.extended X fun r => (V r).getD i 0) (right.extended X fun r => (V r).getD i 0)) := by
  have ha' := ha
  unfold ask Parser.prob at ha'
  simp only [bind_ok] at ha'
  obtain ⟨ns, hn, l, hl, -⟩ := ha'
  let E : PEnv K := ⟨X, ss.map PStudy.ts, l⟩
  let V' : String × Option K → List (FV K) := fun r => (V r).map .fin
  let c := reducedChain left.head left.tail right
  have hrefs : c.refs = right.refs ++ left.refs := reducedChain_refs left right
  have hmem : ∀ r, r ∈ c.refs ↔ r ∈ left.refs ++ right.refs := by
    intro r; rw [hrefs, List.mem_append, List.mem_append, or_comm]
  obtain ⟨r0, hr0⟩ := List.exists_mem_of_ne_nil _ hne
  rw [ask_eq X n hn hl, relQuery_eq] at ha
  change (run E n (.chain c) >>= _) = _ at ha
  simp only [bind_ok] at ha
  obtain ⟨v, hv, ha⟩ := ha
  rcases run_same E hy w.length w τ k V' n (.chain c) v hv fun r h => ⟨reads_ref X hn hl hS (hr r ((hmem r).1 h)).1, by simp [V', (hr r ((hmem r).1 h)).2]⟩ with ⟨h0, -⟩ | ⟨nm, rfl⟩
  · exfalso
    have := (hmem r0).2 hr0
    rw [show c.refs = [] from h0] at this
    simp at this
  simp only at ha
  rw [maskedSum_eq _ _ rfl (by simp)] at ha
  injection ha with ha
  rw [← ha]
  congr 1
  rw [← List.sum_ofFn]
  congr 1
  apply List.ext_getElem
  · simp
  intro i h1 h2
  simp only [List.length_ofFn] at h2
  simp only [List.getElem_map, List.getElem_zip, List.getElem_range, List.getElem_ofFn, Fin.getElem_fin]
  by_cases hz : w[i] = 0
  · simp [hz]
  rw [← test_extended rel _ _ (hc i h2 hz), ← float_reduced]
  congr 2
  change rel.test (fvC X (cellEnv V' i) c) = rel.test (fvC X _ c)
  congr 1
  refine fvC_congr X _ _ c fun r h => ?_
  have hlen := (hr r ((hmem r).1 h)).2
  simp only [cellEnv, V', List.getElem?_map, List.getD_eq_getElem?_getD]
  rw [List.getElem?_eq_getElem (by omega)]
  rfl

/-- **C127, which queries are answered (parameters of one study).** If all functions of the query exist and no number is divided by the number zero, the query is answered (unless the recursion limit is reached), whatever infinite or undefined values occur. -/
theorem C127_answered (X : PExt K) (ss : List (PStudy K)) (t : Option K) (hA : Accepts ss t) (hS : Stamps ss t) (left : Side K) (rel : Rel) (right : Query K)
    (k : ℕ) (hy : Bool) (τ : Option K) (V : String × Option K → List K) (w : List K) (hne : left.refs ++ right.refs ≠ [])
    (hr : ∀ r ∈ left.refs ++ right.refs, Reads ss t r k hy τ (V r) w ∧ (V r).length = w.length) (hl : left.Clean X) (hrt : right.Clean X) :
    ∃ n0, ∀ n ≥ n0, ∃ p, ask X n ss t left rel right = .ok p := by
  obtain ⟨⟨ns, hn⟩, l, hl'⟩ := hA
  let E : PEnv K := ⟨X, ss.map PStudy.ts, l⟩
  let V' : String × Option K → List (FV K) := fun r => (V r).map .fin
  let c := reducedChain left.head left.tail right
  have hrefs : c.refs = right.refs ++ left.refs := reducedChain_refs left right
  have hmem : ∀ r, r ∈ c.refs ↔ r ∈ left.refs ++ right.refs := by
    intro r; rw [hrefs, List.mem_append, List.mem_append, or_comm]
  obtain ⟨r0, hr0⟩ := List.exists_mem_of_ne_nil _ hne
  have hG : SameRefs E hy w.length w τ k V' c.refs := by
    intro r h
    have h' := hr r ((hmem r).1 h)
    exact ⟨reads_ref X hn hl' hS h'.1, by simp [V', h'.2]⟩
  have C := same_total E hy w.length w τ k V' (reads_time (hr r0 hr0).1)
  refine ⟨depthC c, fun n hnn => ?_⟩
  obtain ⟨v, hv⟩ := run_answersC C (by
    rintro q x b (⟨h, -⟩ | ⟨nm, h⟩)
    · exact h
    · cases h) c hG (reducedChain_clean X left right hl hrt) n hnn
  rcases C.inv n (.chain c) v hG hv with ⟨h0, -⟩ | ⟨nm, rfl⟩
  · exfalso
    have := (hmem r0).2 hr0
    rw [show c.refs = [] from h0] at this
    simp at this
  rw [ask_eq X n hn hl', relQuery_eq, show run (⟨X, ss.map PStudy.ts, l⟩ : PEnv K) n (.chain (reducedChain left.head left.tail right)) = _ from hv]
  simp only [bind, Except.bind]
  rw [maskedSum_eq _ _ rfl (by simp)]
  exact ⟨_, rfl⟩

/-- **C127 (partial), separate parameters.** The same for every query in which any two parameters (or hyper-parameters) belong to different studies, or are one parameter at different time steps, or are a parameter and a hyper-parameter: if the query is answered, the
result is the probability of `left rel right` for independent parameters, with infinities compared as infinities. -/
theorem C127_separate_partial (X : PExt K) (ss : List (PStudy K)) (t : Option K) (hS : Stamps ss t) (left : Side K) (rel : Rel) (right : Query K)
    (st : String × Option K → ℕ) (hy : String × Option K → Bool) (τ : String × Option K → Option K) (V W : String × Option K → List K)
    (hne : right.refs ++ left.refs ≠ [])
    (hst : (right.refs ++ left.refs).Pairwise (Separate hy τ st))
    (hr : ∀ r ∈ right.refs ++ left.refs, Reads ss t r (st r) (hy r) (τ r) (V r) (W r) ∧ (V r).length = (W r).length ∧ Dist (W r))
    (hc : ∀ ρ : String × Option K → K, (∀ r ∈ right.refs ++ left.refs, ∃ p ≠ 0, (ρ r, p) ∈ (V r).zip (W r)) → Comparable (left.extended X ρ) (right.extended X ρ))
    (n : ℕ) (p : Option K) (ha : ask X n ss t left rel right = .ok p) :
    p = some (expect ((right.refs ++ left.refs).map fun r => (r, (V r).zip (W r))) fun ρ => xindicator rel (left.extended X ρ) (right.extended X ρ)) := by
  have ha' := ha
  unfold ask Parser.prob at ha'
  simp only [bind_ok] at ha'
  obtain ⟨ns, hn, l, hl, -⟩ := ha'
  let E : PEnv K := ⟨X, ss.map PStudy.ts, l⟩
  let T : String × Option K → List (K × K) := fun r => (V r).zip (W r)
  let T' : String × Option K → List (FV K × K) := fun r => (T r).map fun q => (.fin q.1, q.2)
  let c := reducedChain left.head left.tail right
  have hrefs : c.refs = right.refs ++ left.refs := reducedChain_refs left right
  have hsnd : ∀ r ∈ right.refs ++ left.refs, (T' r).map (·.2) = W r := by
    intro r h
    have h2 := (hr r h).2.1
    simp only [T', T, List.map_map]
    change ((V r).zip (W r)).map Prod.snd = W r
    rw [List.map_snd_zip]; omega
  have hfst : ∀ r ∈ right.refs ++ left.refs, (T' r).map (·.1) = (V r).map .fin := by
    intro r h
    have h2 := (hr r h).2.1
    simp only [T', T, List.map_map]
    change ((V r).zip (W r)).map (FV.fin ∘ Prod.fst) = (V r).map .fin
    rw [← List.map_map, List.map_fst_zip (by omega)]
  have hG : IndepRefs E T' hy τ st c.refs := by
    rw [hrefs]
    refine ⟨hst, fun r h => ⟨⟨?_, reads_time (hr r h).1⟩, ?_⟩⟩
    · rw [hfst r h, hsnd r h]
      exact reads_ref X hn hl hS (hr r h).1
    · rw [hsnd r h]; exact (hr r h).2.2.2
  have hrows : refRows T' c.refs = (cart ((right.refs ++ left.refs).map T)).map (List.map fun q : K × K => ((.fin q.1 : FV K), q.2)) := by
    rw [refRows, hrefs]
    have : (right.refs ++ left.refs).map T' = ((right.refs ++ left.refs).map T).map (List.map fun q : K × K => ((.fin q.1 : FV K), q.2)) := by
      rw [List.map_map]; rfl
    rw [this, cart_map]
  have hwt : ∀ row : List (K × K), rowWeight (row.map fun q : K × K => ((.fin q.1 : FV K), q.2)) = rowWeight row := by
    intro row; simp only [rowWeight, List.map_map]; rfl
  -- values in a row
  have hin : ∀ row ∈ cart ((right.refs ++ left.refs).map T), rowWeight row ≠ 0 →
      ∀ r ∈ right.refs ++ left.refs, ∃ p ≠ 0, (rowEnv 0 (right.refs ++ left.refs) row r, p) ∈ (V r).zip (W r) := by
    intro row hrow hw r h
    obtain ⟨q, m1, m2, m3⟩ := lookup_mem ((cart_mem _ _).1 hrow) r h
    refine ⟨q.2, row_weight_factor hw q m1, ?_⟩
    rw [rowEnv, m2]
    exact m3
  rw [ask_eq X n hn hl, relQuery_eq] at ha
  change (run E n (.chain c) >>= _) = _ at ha
  simp only [bind_ok] at ha
  obtain ⟨v, hv, ha⟩ := ha
  rcases (indep_total E T' hy τ st).inv n (.chain c) v hG hv with ⟨h0, -⟩ | ⟨hy', nm, τ', s, rfl, -⟩
  · exact absurd (hrefs ▸ h0) hne
  simp only at ha
  rw [maskedSum_eq _ _ rfl (by simp)] at ha
  injection ha with ha
  rw [← ha]
  congr 1
  rw [expect_rows T]
  simp only [Query.refs, hrows, List.map_map]
  rw [List.zip_map', List.map_map]
  congr 1
  apply List.map_congr_left
  intro row hrow
  simp only [Function.comp, hwt]
  by_cases hw : rowWeight row = 0
  · simp [hw]
  rw [← test_extended rel _ _ (hc _ (hin row hrow hw)), ← float_reduced]
  congr 2
  change rel.test (fvC X _ c) = rel.test (fvC X _ c)
  congr 1
  refine fvC_congr X _ _ c fun r hr' => ?_
  have hr'' : r ∈ right.refs ++ left.refs := hrefs ▸ hr'
  rw [hrefs]
  obtain ⟨q, m1, m2, m3⟩ := lookup_mem ((cart_mem _ _).1 hrow) r hr''
  simp only [rowEnv, m2, Option.elim_some]
  have : ∀ (a : List (String × Option K)) (row : List (K × K)), (a.zip (row.map fun q : K × K => ((.fin q.1 : FV K), q.2))).lookup r =
      ((a.zip row).lookup r).map fun q => ((.fin q.1 : FV K), q.2) := by
    intro a
    induction a with
    | nil => intro row; rfl
    | cons x a ih =>
        intro row
        cases row with
        | nil => rfl
        | cons y row =>
            simp only [List.map_cons, List.zip_cons_cons, List.lookup_cons]
            cases r == x
            · exact ih row
            · rfl
  rw [this, m2]
  rfl

/-- **C127, which queries are answered (separate parameters).** -/
theorem C127_separate_answered (X : PExt K) (ss : List (PStudy K)) (t : Option K) (hA : Accepts ss t) (hS : Stamps ss t) (left : Side K) (rel : Rel) (right : Query K)
    (st : String × Option K → ℕ) (hy : String × Option K → Bool) (τ : String × Option K → Option K) (V W : String × Option K → List K)
    (hne : right.refs ++ left.refs ≠ [])
    (hst : (right.refs ++ left.refs).Pairwise (Separate hy τ st))
    (hr : ∀ r ∈ right.refs ++ left.refs, Reads ss t r (st r) (hy r) (τ r) (V r) (W r) ∧ (V r).length = (W r).length ∧ Dist (W r)) (hlc : left.Clean X) (hrt : right.Clean X) :
    ∃ n0, ∀ n ≥ n0, ∃ p, ask X n ss t left rel right = .ok p := by
  obtain ⟨⟨ns, hn⟩, l, hl'⟩ := hA
  let E : PEnv K := ⟨X, ss.map PStudy.ts, l⟩
  let T : String × Option K → List (K × K) := fun r => (V r).zip (W r)
  let T' : String × Option K → List (FV K × K) := fun r => (T r).map fun q => (.fin q.1, q.2)
  let c := reducedChain left.head left.tail right
  have hrefs : c.refs = right.refs ++ left.refs := reducedChain_refs left right
  have hsnd : ∀ r ∈ right.refs ++ left.refs, (T' r).map (·.2) = W r := by
    intro r h
    have h2 := (hr r h).2.1
    simp only [T', T, List.map_map]
    change ((V r).zip (W r)).map Prod.snd = W r
    rw [List.map_snd_zip]; omega
  have hfst : ∀ r ∈ right.refs ++ left.refs, (T' r).map (·.1) = (V r).map .fin := by
    intro r h
    have h2 := (hr r h).2.1
    simp only [T', T, List.map_map]
    change ((V r).zip (W r)).map (FV.fin ∘ Prod.fst) = (V r).map .fin
    rw [← List.map_map, List.map_fst_zip (by omega)]
  have hG : IndepRefs E T' hy τ st c.refs := by
    rw [hrefs]
    refine ⟨hst, fun r h => ⟨⟨?_, reads_time (hr r h).1⟩, ?_⟩⟩
    · rw [hfst r h, hsnd r h]
      exact reads_ref X hn hl' hS (hr r h).1
    · rw [hsnd r h]; exact (hr r h).2.2.2
  refine ⟨depthC c, fun n hnn => ?_⟩
  obtain ⟨v, hv⟩ := run_answersC (indep_total E T' hy τ st) (by
    rintro q x b (⟨h, -⟩ | ⟨_, _, _, _, h, -⟩)
    · exact h
    · cases h) c hG (reducedChain_clean X left right hlc hrt) n hnn
  rcases (indep_total E T' hy τ st).inv n (.chain c) v hG hv with ⟨h0, -⟩ | ⟨hy', nm, τ', s, rfl, -⟩
  · exact absurd (hrefs ▸ h0) hne
  rw [ask_eq X n hn hl', relQuery_eq, show run (⟨X, ss.map PStudy.ts, l⟩ : PEnv K) n (.chain (reducedChain left.head left.tail right)) = _ from hv]
  simp only [bind, Except.bind]
  rw [maskedSum_eq _ _ rfl (by simp)]
  exact ⟨_, rfl⟩

end Props

namespace Ex
open BL Spec

/-- infinite where `x` is zero (probability 3/4): `1/x > 5` -/
example : ask pext 10 [studyA, studyB] none ⟨.chain (.two (.num 1) .div (.at "x" 1)), []⟩ .gt (.num 5) = .ok (some (3/4)) := by decide +kernel

example (p : Option ℚ) (h : ask pext 10 [studyA, studyB] none ⟨.at "y" 1, [(false, .chain (.two (.num 1) .div (.at "x" 1)))]⟩ .lt (.num 0) = .ok p) : p = some (7/8) := by
  rw [Props.C127_partial pext [studyA, studyB] none (stampsAB _) ⟨.at "y" 1, [(false, .chain (.two (.num 1) .div (.at "x" 1)))]⟩ .lt (.num 0)
    0 false (some 1) (fun r => if r.1 = "x" then [0, 0, 1, 1] else [0, 1, 0, 1]) [1/2, 1/4, 1/8, 1/8] (by simp [Side.refs, Query.refs, Chain.refs])
    (by
      intro r hr
      simp [Side.refs, Query.refs, Chain.refs] at hr
      rcases hr with rfl | rfl
      · exact ⟨.at (s := studyA) (a := 1) (i := 0) rfl rfl rfl rfl rfl rfl rfl, rfl⟩
      · exact ⟨.at (s := studyA) (a := 0) (i := 0) rfl rfl rfl rfl rfl rfl rfl, rfl⟩)
    (by intro i _ _; simp [Comparable, Query.extended]) 10 p h]
  decide +kernel

/-- the query above is answered: `y - 1/x < 0` holds unless `x = y = 1` -/
example : ask pext 10 [studyA, studyB] none ⟨.at "y" 1, [(false, .chain (.two (.num 1) .div (.at "x" 1)))]⟩ .lt (.num 0) = .ok (some (7/8)) := by decide +kernel

/-- parameters of two studies: `1/x > z` holds unless `x = z = 1` -/
example (p : Option ℚ) (h : ask pext 10 [studyA, studyB] none ⟨.chain (.two (.num 1) .div (.at "x" 1)), []⟩ .gt (.at "z" 2) = .ok p) : p = some (11/12) := by
  rw [Props.C127_separate_partial pext [studyA, studyB] none (stampsAB _) ⟨.chain (.two (.num 1) .div (.at "x" 1)), []⟩ .gt (.at "z" 2)
    (fun r => if r.1 = "x" then 0 else 1) (fun _ => false) (fun r => r.2) (fun r => if r.1 = "x" then [0, 0, 1, 1] else [-1, 0, 1])
    (fun r => if r.1 = "x" then [1/2, 1/4, 1/8, 1/8] else [1/3, 1/3, 1/3]) (by simp [Side.refs, Query.refs]) (by simp [Side.refs, Query.refs, Chain.refs, Separate])
    (by
      intro r hr
      simp [Side.refs, Query.refs, Chain.refs] at hr
      rcases hr with rfl | rfl
      · exact ⟨.at (s := studyB) (a := 0) (i := 1) rfl rfl rfl rfl rfl rfl rfl, rfl, by simp, by decide +kernel⟩
      · exact ⟨.at (s := studyA) (a := 0) (i := 0) rfl rfl rfl rfl rfl rfl rfl, rfl, by simp, by norm_num⟩)
    (by intro ρ _; simp [Comparable, Query.extended]) 10 p h]
  decide +kernel

/-- queries with division by a parameter are answered -/
example : ∃ n0, ∀ n ≥ n0, ∃ p, ask pext n [studyA, studyB] none ⟨.chain (.two (.num 1) .div (.at "x" 1)), []⟩ .gt (.at "y" 1) = .ok p := by
  refine Props.C127_answered pext [studyA, studyB] none acceptsAB (stampsAB _) ⟨.chain (.two (.num 1) .div (.at "x" 1)), []⟩ .gt (.at "y" 1)
    0 false (some 1) (fun r => if r.1 = "x" then [0, 0, 1, 1] else [0, 1, 0, 1]) [1/2, 1/4, 1/8, 1/8] (by simp [Side.refs, Query.refs, Chain.refs]) ?_
    (by simp [Side.Clean, Query.Clean, Chain.Clean, Query.refs]) (by simp [Query.Clean])
  intro r hr
  simp [Side.refs, Query.refs, Chain.refs] at hr
  rcases hr with rfl | rfl
  · exact ⟨.at (s := studyA) (a := 0) (i := 0) rfl rfl rfl rfl rfl rfl rfl, rfl⟩
  · exact ⟨.at (s := studyA) (a := 1) (i := 0) rfl rfl rfl rfl rfl rfl rfl, rfl⟩

example : ∃ n0, ∀ n ≥ n0, ∃ p, ask pext n [studyA, studyB] none ⟨.chain (.two (.num 1) .div (.at "x" 1)), []⟩ .gt (.at "z" 2) = .ok p := by
  refine Props.C127_separate_answered pext [studyA, studyB] none acceptsAB (stampsAB _) ⟨.chain (.two (.num 1) .div (.at "x" 1)), []⟩ .gt (.at "z" 2)
    (fun r => if r.1 = "x" then 0 else 1) (fun _ => false) (fun r => r.2) (fun r => if r.1 = "x" then [0, 0, 1, 1] else [-1, 0, 1])
    (fun r => if r.1 = "x" then [1/2, 1/4, 1/8, 1/8] else [1/3, 1/3, 1/3]) (by simp [Side.refs, Query.refs]) (by simp [Side.refs, Query.refs, Chain.refs, Separate]) ?_
    (by simp [Side.Clean, Query.Clean, Chain.Clean, Query.refs]) (by simp [Query.Clean])
  intro r hr
  simp [Side.refs, Query.refs, Chain.refs] at hr
  rcases hr with rfl | rfl
  · exact ⟨.at (s := studyB) (a := 0) (i := 1) rfl rfl rfl rfl rfl rfl rfl, rfl, by simp, by decide +kernel⟩
  · exact ⟨.at (s := studyA) (a := 0) (i := 0) rfl rfl rfl rfl rfl rfl rfl, rfl, by simp, by norm_num⟩

/-- the query above is answered -/
example : ask pext 10 [studyA, studyB] none ⟨.chain (.two (.num 1) .div (.at "x" 1)), []⟩ .gt (.at "z" 2) = .ok (some (11/12)) := by decide +kernel

end Ex

namespace Props
open BL Spec Ex

/-- **C127 is false if both sides are the same infinity.** `1/x >= 1/x` is true for all values of `x` (the two sides are equal, and defined), but gets probability 1/4: the values where `1/x` is infinite do not count, since the difference of the two sides is nan. -/
theorem C127_refuted : Accepts [studyA] none ∧ Stamps [studyA] none ∧
    (∀ ρ, ∃ v, (Query.chain (.two (.num 1) .div (.at "x" 1))).extended pext ρ = some v ∧ XHolds .ge v v) ∧
    ask pext 10 [studyA] none ⟨.chain (.two (.num 1) .div (.at "x" 1)), []⟩ .ge (.chain (.two (.num 1) .div (.at "x" 1))) = .ok (some (1/4)) := by
  refine ⟨⟨⟨_, rfl⟩, _, rfl⟩, ⟨?_, ?_⟩, ?_, by decide +kernel⟩
  · intro s hs; fin_cases hs; simp [studyA]
  · intro h; simp at h
  · intro ρ
    simp only [Query.extended, Chain.extended, Arith.extended, Option.bind_some, XNum.over]
    by_cases h : ρ ("x", some 1) = 0
    · exact ⟨.high, by simp [h, signed], .inr rfl⟩
    · exact ⟨.num (1 / ρ ("x", some 1)), by simp [h], .inr rfl⟩

end Props
