import Verif.Lemmas.Parser

/-! # Values of queries: one joint distribution, and independent distributions -/

set_option linter.unusedSectionVars false

namespace BL
open Spec
variable {K : Type} [Field K] [LinearOrder K]

/-- floating-point operation -/
def fvOp (X : PExt K) : Arith → FV K → FV K → FV K
  | .add => FV.add
  | .sub => FV.sub
  | .mul => FV.mul
  | .div => FV.div
  | .pow => X.pow

theorem operate_arith (E : PEnv K) (o : Arith) (x y : PVal K) : operate E o.op x y = arithOp (fvOp E.ext o) o.op x y := by cases o <;> rfl

mutual
/-- floating-point value of a query -/
def fvQ (X : PExt K) (ρ : String × Option K → FV K) : Query K → FV K
  | .num x => .fin x
  | .par s => ρ (s, none)
  | .at s t => ρ (s, some t)
  | .neg e => FV.mul (.fin (-1)) (fvQ X ρ e)
  | .pos e => FV.mul (.fin 1) (fvQ X ρ e)
  | .fn s e => match X.fn s with
      | some f => f (fvQ X ρ e)
      | none => .nan
  | .chain c => fvC X ρ c

/-- floating-point value of a chain -/
def fvC (X : PExt K) (ρ : String × Option K → FV K) : Chain K → FV K
  | .two a o b => fvOp X o (fvQ X ρ a) (fvQ X ρ b)
  | .more c o b => fvOp X o (fvC X ρ c) (fvQ X ρ b)
end

theorem finite?_some {v : FV K} {x : K} (h : finite? v = some x) : v = .fin x := by
  cases v <;> simp [finite?] at h; rw [h]

theorem exact_fv (X : PExt K) (o : Arith) (x y z : K) (h : o.exact X x y = some z) : fvOp X o (.fin x) (.fin y) = .fin z := by
  cases o with
  | add => simpa [Arith.exact, fvOp, FV.add] using h
  | sub => simpa [Arith.exact, fvOp, FV.sub, FV.neg, FV.add, sub_eq_add_neg] using h
  | mul => simpa [Arith.exact, fvOp, FV.mul] using h
  | div =>
      rw [Arith.exact] at h
      split at h
      · simp at h
      · rename_i hy
        simp only [fvOp, FV.div, if_neg hy]
        injection h with h; rw [h]
  | pow => exact finite?_some h

mutual
theorem fv_value (X : PExt K) (ρ : String × Option K → K) : ∀ (q : Query K) (x : K), q.value X ρ = some x → fvQ X (fun r => .fin (ρ r)) q = .fin x
  | .num x, y, h => by simpa [Query.value, fvQ] using h
  | .par s, y, h => by simpa [Query.value, fvQ] using h
  | .at s t, y, h => by simpa [Query.value, fvQ] using h
  | .neg e, y, h => by
      simp only [Query.value, Option.map_eq_some_iff] at h
      obtain ⟨x, h1, h2⟩ := h
      rw [fvQ, fv_value X ρ e x h1, ← h2]
      simp [FV.mul]
  | .pos e, y, h => by
      rw [fvQ, fv_value X ρ e y h]
      simp [FV.mul]
  | .fn s e, y, h => by
      simp only [Query.value, Option.bind_eq_some_iff] at h
      obtain ⟨x, h1, f, h2, h3⟩ := h
      rw [fvQ, fv_value X ρ e x h1, h2]
      exact finite?_some h3
  | .chain c, y, h => fv_valueC X ρ c y h

theorem fv_valueC (X : PExt K) (ρ : String × Option K → K) : ∀ (c : Chain K) (x : K), c.value X ρ = some x → fvC X (fun r => .fin (ρ r)) c = .fin x
  | .two a o b, z, h => by
      simp only [Chain.value, Option.bind_eq_some_iff] at h
      obtain ⟨x, h1, y, h2, h3⟩ := h
      rw [fvC, fv_value X ρ a x h1, fv_value X ρ b y h2, exact_fv X o x y z h3]
  | .more c o b, z, h => by
      simp only [Chain.value, Option.bind_eq_some_iff] at h
      obtain ⟨x, h1, y, h2, h3⟩ := h
      rw [fvC, fv_valueC X ρ c x h1, fv_value X ρ b y h2, exact_fv X o x y z h3]
end

mutual
theorem fvQ_congr (X : PExt K) (ρ ρ' : String × Option K → FV K) : ∀ (q : Query K), (∀ r ∈ q.refs, ρ r = ρ' r) → fvQ X ρ q = fvQ X ρ' q
  | .num x, h => rfl
  | .par s, h => h _ (by simp [Query.refs])
  | .at s t, h => h _ (by simp [Query.refs])
  | .neg e, h => by rw [fvQ, fvQ, fvQ_congr X ρ ρ' e h]
  | .pos e, h => by rw [fvQ, fvQ, fvQ_congr X ρ ρ' e h]
  | .fn s e, h => by rw [fvQ, fvQ, fvQ_congr X ρ ρ' e h]
  | .chain c, h => fvC_congr X ρ ρ' c h

theorem fvC_congr (X : PExt K) (ρ ρ' : String × Option K → FV K) : ∀ (c : Chain K), (∀ r ∈ c.refs, ρ r = ρ' r) → fvC X ρ c = fvC X ρ' c
  | .two a o b, h => by
      simp only [Chain.refs, List.mem_append] at h
      rw [fvC, fvC, fvQ_congr X ρ ρ' a fun r hr => h r (.inl hr), fvQ_congr X ρ ρ' b fun r hr => h r (.inr hr)]
  | .more c o b, h => by
      simp only [Chain.refs, List.mem_append] at h
      rw [fvC, fvC, fvC_congr X ρ ρ' c fun r hr => h r (.inl hr), fvQ_congr X ρ ρ' b fun r hr => h r (.inr hr)]
end

/-! ## `left - right` -/

theorem foldl_none {α β : Type} (f : β → α → Option α) (l : List β) : l.foldl (fun x q => x.bind (f q)) none = none := by
  induction l with
  | nil => rfl
  | cons a l ih => simpa using ih

theorem reducedChain_value (X : PExt K) (ρ : String × Option K → K) (l : Side K) (r : Query K) (x y : K) (hl : l.value X ρ = some x)
    (hr : r.value X ρ = some y) : (reducedChain l.head l.tail r).value X ρ = some (x - y) := by
  obtain ⟨l0, ls⟩ := l
  have key : ∀ (ls : List (Bool × Query K)) (c : Chain K) (z : Option K), c.value X ρ = z.map (· - y) →
      ls.foldl (fun x q => x.bind fun x => (q.2.value X ρ).bind fun y => (sign q.1).exact X x y) z = some x →
      (ls.foldl (fun c q => Chain.more c (sign q.1) q.2) c).value X ρ = some (x - y) := by
    intro ls
    induction ls with
    | nil => intro c z h h'; simp only [List.foldl_nil] at h' ⊢; rw [h, h']; rfl
    | cons q ls ih =>
        intro c z h h'
        rw [List.foldl_cons] at h' ⊢
        refine ih _ _ ?_ h'
        rw [Chain.value, h]
        cases z with
        | none => rfl
        | some z =>
            simp only [Option.map_some, Option.bind_some]
            cases q.2.value X ρ with
            | none => rfl
            | some w =>
                rcases q.1 <;> simp only [sign, Option.bind_some, Arith.exact, Option.map_some, Bool.false_eq_true, ↓reduceIte] <;> congr 1 <;> ring
  refine key ls _ (l0.value X ρ) ?_ hl
  simp only [Chain.value, Query.value, hr, Option.map_some, Option.bind_some, Arith.exact]
  cases l0.value X ρ with
  | none => rfl
  | some z => simp only [Option.bind_some, Option.map_some]; congr 1; ring

theorem reducedChain_refs (l : Side K) (r : Query K) : (reducedChain l.head l.tail r).refs = r.refs ++ l.refs := by
  obtain ⟨l0, ls⟩ := l
  have key : ∀ (ls : List (Bool × Query K)) (c : Chain K), (ls.foldl (fun c q => Chain.more c (sign q.1) q.2) c).refs =
      c.refs ++ ls.flatMap fun q => q.2.refs := by
    intro ls
    induction ls with
    | nil => intro c; simp
    | cons q ls ih => intro c; rw [List.foldl_cons, ih, Chain.refs]; simp
  rw [reducedChain, key]
  simp [Chain.refs, Query.refs, Side.refs]

theorem test_sub [IsStrictOrderedRing K] (rel : Rel) (x y : K) : rel.test (.fin (x - y)) = decide (Holds rel x y) := by
  cases rel <;> simp [Rel.test, Holds, sub_eq_zero]

/-! ## Operations on values -/

theorem arithOp_num_num {f : FV K → FV K → FV K} {o : Op} {x y : FV K} {n m : Bool} {v : PVal K} (h : arithOp f o (.num x n) (.num y m) = .ok v) :
    v = .num (f x y) (n || m) := by
  simp only [arithOp, needsTime, Bool.or_self, Bool.false_eq_true, ↓reduceIte, directOp] at h
  split at h
  · simp at h
  · injection h with h; exact h.symm

theorem arithOp_obj_num {f : FV K → FV K → FV K} {o : Op} {a : PObj K} {y : FV K} {m : Bool} {v : PVal K} (h : arithOp f o (.obj a) (.num y m) = .ok v) :
    v = .obj { a with vals := a.vals.map fun x => f x y } := by
  unfold arithOp at h
  split at h
  · simp at h
  · simp only [directOp] at h
    injection h with h; exact h.symm

theorem arithOp_num_obj {f : FV K → FV K → FV K} {o : Op} {x : FV K} {n : Bool} {b : PObj K} {v : PVal K} (h : arithOp f o (.num x n) (.obj b) = .ok v) :
    v = .obj { b with vals := b.vals.map fun y => f x y } := by
  unfold arithOp at h
  split at h
  · simp at h
  · simp only [directOp] at h
    injection h with h; exact h.symm

theorem arithOp_obj_obj {f : FV K → FV K → FV K} {o : Op} {a b : PObj K} {v : PVal K} (h : arithOp f o (.obj a) (.obj b) = .ok v) :
    (compound a b = true ∧ v = .obj (compoundOp f a b)) ∨
      (compound a b = false ∧ ∃ l, broadcast f a.vals b.vals = .ok l ∧ v = .obj { a with vals := l }) := by
  unfold arithOp at h
  split at h
  · simp at h
  · simp only at h
    split at h
    · rename_i hc
      left
      injection h with h; exact ⟨hc, h.symm⟩
    · rename_i hc
      right
      simp only [directOp, map_ok] at h
      obtain ⟨l, h1, h2⟩ := h
      exact ⟨by simpa using hc, l, h1, h2.symm⟩

theorem broadcast_same (f : FV K → FV K → FV K) (a b : List (FV K)) (h : a.length = b.length) : broadcast f a b = .ok (List.zipWith f a b) := by
  unfold broadcast; rw [if_pos h]

/-- other operands are errors or keep no value -/
theorem arithOp_cases {f : FV K → FV K → FV K} {o : Op} {x y v : PVal K} (h : arithOp f o x y = .ok v) :
    ((∃ a n, x = .num a n) ∨ ∃ a, x = .obj a) ∧ ((∃ a n, y = .num a n) ∨ ∃ a, y = .obj a) := by
  unfold arithOp at h
  split at h
  · simp at h
  · cases x <;> cases y <;> first | (exfalso; simp [directOp] at h; done) | exact ⟨by simp, by simp⟩

theorem funcOp_obj {E : PEnv K} {s : String} {f : FV K → FV K} (hf : E.ext.fn s = some f) {o : PObj K} {v : PVal K} (h : funcOp E (.fn s) (.obj o) = .ok v) :
    v = .obj { o with vals := o.vals.map f } := by
  simp only [funcOp, hf] at h
  injection h with h; exact h.symm

theorem funcOp_num {E : PEnv K} {s : String} {f : FV K → FV K} (hf : E.ext.fn s = some f) {x : FV K} {n : Bool} {v : PVal K}
    (h : funcOp E (.fn s) (.num x n) = .ok v) : v = .num (f x) true := by
  simp only [funcOp, hf] at h
  injection h with h; exact h.symm

theorem funcOp_cases {E : PEnv K} {s : String} {y v : PVal K} (h : funcOp E (.fn s) y = .ok v) : (∃ a n, y = .num a n) ∨ ∃ a, y = .obj a := by
  cases y <;> first | (simp; done) | (simp only [funcOp] at h; split at h <;> simp_all)

/-! ## One joint distribution -/

/-- values of the parameters in cell `i` -/
def cellEnv (V : String × Option K → List (FV K)) (i : ℕ) (r : String × Option K) : FV K := ((V r)[i]?).getD .nan

theorem range_map_get (l : List (FV K)) : (List.range l.length).map (fun i => (l[i]?).getD .nan) = l := by
  apply List.ext_getElem
  · simp
  · intro i h1 h2
    simp only [List.length_map, List.length_range] at h1
    simp [List.getElem?_eq_getElem h1]

/-- All parameters of the query belong to one study and one time step (or are hyper-parameters of one study): values by cell, with the distribution of the study. -/
theorem run_same (E : PEnv K) (hy : Bool) (N : ℕ) (w : List K) (τ : Option K) (k : ℕ) (V : String × Option K → List (FV K)) (n : ℕ) (q : Query K) (v : PVal K)
    (h : run E n q = .ok v)
    (hr : ∀ r ∈ q.refs, refValue E r = .ok (.obj ⟨hy, V r, .dist w, some r.1, τ, some k⟩) ∧ (V r).length = N) :
    (q.refs = [] ∧ ∃ x b, v = .num x b ∧ ∀ ρ, fvQ E.ext ρ q = x) ∨
      ∃ nm, v = .obj ⟨hy, (List.range N).map fun i => fvQ E.ext (cellEnv V i) q, .dist w, nm, τ, some k⟩ := by
  revert hr
  have bin : ∀ (a b q : Query K) (o : Arith) (x y v : PVal K), (∀ ρ, fvQ E.ext ρ q = fvOp E.ext o (fvQ E.ext ρ a) (fvQ E.ext ρ b)) →
      (a.refs = [] → b.refs = [] → q.refs = []) →
      ((a.refs = [] ∧ ∃ x' b', x = .num x' b' ∧ ∀ ρ, fvQ E.ext ρ a = x') ∨
        ∃ nm, x = .obj ⟨hy, (List.range N).map fun i => fvQ E.ext (cellEnv V i) a, .dist w, nm, τ, some k⟩) →
      ((b.refs = [] ∧ ∃ x' b', y = .num x' b' ∧ ∀ ρ, fvQ E.ext ρ b = x') ∨
        ∃ nm, y = .obj ⟨hy, (List.range N).map fun i => fvQ E.ext (cellEnv V i) b, .dist w, nm, τ, some k⟩) →
      operate E o.op x y = .ok v →
      (q.refs = [] ∧ ∃ x b, v = .num x b ∧ ∀ ρ, fvQ E.ext ρ q = x) ∨
        ∃ nm, v = .obj ⟨hy, (List.range N).map fun i => fvQ E.ext (cellEnv V i) q, .dist w, nm, τ, some k⟩ := by
    intro a b q o x y v hq hrefs hx hy' h
    rw [operate_arith] at h
    rcases hx with ⟨ra, x', n', rfl, hx⟩ | ⟨nm, rfl⟩ <;> rcases hy' with ⟨rb, y', m', rfl, hy'⟩ | ⟨nm', rfl⟩
    · left
      exact ⟨hrefs ra rb, _, _, arithOp_num_num h, fun ρ => by rw [hq, hx, hy']⟩
    · right
      refine ⟨nm', ?_⟩
      rw [arithOp_num_obj h]
      simp only [List.map_map]
      congr 2
      apply List.map_congr_left
      intro i _
      simp only [Function.comp, hq, hx]
    · right
      refine ⟨nm, ?_⟩
      rw [arithOp_obj_num h]
      simp only [List.map_map]
      congr 2
      apply List.map_congr_left
      intro i _
      simp only [Function.comp, hq, hy']
    · right
      refine ⟨nm, ?_⟩
      rcases arithOp_obj_obj h with ⟨hc, -⟩ | ⟨-, l, h1, h2⟩
      · exfalso
        cases hy <;> simp [compound] at hc
      · rw [broadcast_same _ _ _ (by simp)] at h1
        injection h1 with h1
        rw [h2, ← h1]
        simp only
        congr 2
        apply List.ext_getElem <;> simp [hq]
  have un : ∀ (e q : Query K) (o : Op) (c : K) (y v : PVal K), (o = .mul) → (∀ ρ, fvQ E.ext ρ q = FV.mul (.fin c) (fvQ E.ext ρ e)) → q.refs = e.refs →
      ((e.refs = [] ∧ ∃ x' b', y = .num x' b' ∧ ∀ ρ, fvQ E.ext ρ e = x') ∨
        ∃ nm, y = .obj ⟨hy, (List.range N).map fun i => fvQ E.ext (cellEnv V i) e, .dist w, nm, τ, some k⟩) →
      operate E o (.num (.fin c) false) y = .ok v →
      (q.refs = [] ∧ ∃ x b, v = .num x b ∧ ∀ ρ, fvQ E.ext ρ q = x) ∨
        ∃ nm, v = .obj ⟨hy, (List.range N).map fun i => fvQ E.ext (cellEnv V i) q, .dist w, nm, τ, some k⟩ := by
    intro e q o c y v ho hq hrefs hy' h
    subst ho
    refine bin (.num c) e q .mul (.num (.fin c) false) y v hq (fun _ h2 => by rw [hrefs, h2]) (.inl ⟨rfl, _, _, rfl, fun _ => rfl⟩) hy' h
  refine run_induct E (fun q v => (∀ r ∈ q.refs, refValue E r = .ok (.obj ⟨hy, V r, .dist w, some r.1, τ, some k⟩) ∧ (V r).length = N) →
    (q.refs = [] ∧ ∃ x b, v = .num x b ∧ ∀ ρ, fvQ E.ext ρ q = x) ∨
      ∃ nm, v = .obj ⟨hy, (List.range N).map fun i => fvQ E.ext (cellEnv V i) q, .dist w, nm, τ, some k⟩) ?_ ?_ ?_ ?_ ?_ ?_ ?_ ?_ n q v h
  · intro x _
    exact .inl ⟨rfl, _, _, rfl, fun _ => rfl⟩
  · intro s v h hr
    obtain ⟨h1, h2⟩ := hr (s, none) (by simp [Query.refs])
    rw [h1] at h; injection h with h
    right
    refine ⟨some s, ?_⟩
    rw [← h, ← h2]
    simp only [fvQ, cellEnv, range_map_get]
  · intro s t v h hr
    obtain ⟨h1, h2⟩ := hr (s, some t) (by simp [Query.refs])
    rw [h1] at h; injection h with h
    right
    refine ⟨some s, ?_⟩
    rw [← h, ← h2]
    simp only [fvQ, cellEnv, range_map_get]
  · intro e y v ih h hr
    exact un e _ .mul (-1) y v rfl (fun ρ => rfl) rfl (ih hr) h
  · intro e y v ih h hr
    exact un e _ .mul 1 y v rfl (fun ρ => rfl) rfl (ih hr) h
  · intro s f e y v hf ih h hr
    rcases ih hr with ⟨h1, x, b, rfl, h2⟩ | ⟨nm, rfl⟩
    · left
      exact ⟨h1, _, _, funcOp_num hf h, fun ρ => by rw [fvQ, hf, h2]⟩
    · right
      refine ⟨nm, ?_⟩
      rw [funcOp_obj hf h]
      simp only [List.map_map]
      congr 2
      apply List.map_congr_left
      intro i _
      simp only [Function.comp, fvQ, hf]
  · intro a o b x y v iha ihb h hr
    refine bin a b _ o x y v (fun ρ => rfl) (fun h1 h2 => by simp [Query.refs, Chain.refs, h1, h2]) (iha fun r hx => hr r ?_) (ihb fun r hx => hr r ?_) h
    · simp [Query.refs, Chain.refs, hx]
    · simp [Query.refs, Chain.refs, hx]
  · intro c o b x y v iha ihb h hr
    refine bin (.chain c) b _ o x y v (fun ρ => rfl) (fun h1 h2 => ?_) (iha fun r hx => hr r ?_) (ihb fun r hx => hr r ?_) h
    · simp only [Query.refs] at h1; simp [Query.refs, Chain.refs, h1, h2]
    · simp only [Query.refs] at hx; simp [Query.refs, Chain.refs, hx]
    · simp [Query.refs, Chain.refs, hx]

end BL
