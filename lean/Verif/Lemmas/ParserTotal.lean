import Verif.Lemmas.ParserIndep

/-! # Queries with defined values are evaluated without exception -/

set_option linter.unusedSectionVars false

namespace BL
open Spec
variable {K : Type} [Field K] [LinearOrder K]

mutual
/-- nesting depth -/
def depthQ : Query K → ℕ
  | .num _ => 0
  | .par _ => 0
  | .at _ _ => 1
  | .neg e => depthQ e + 1
  | .pos e => depthQ e + 1
  | .fn _ e => depthQ e + 1
  | .chain c => depthC c

/-- nesting depth of a chain -/
def depthC : Chain K → ℕ
  | .two a _ b => max (depthQ a) (depthQ b) + 1
  | .more c _ b => max (depthC c) (depthQ b) + 1
end

theorem run_fine (E : PEnv K) (n : ℕ) (q : Query K) (v : PVal K) (h : run E n q = .ok v)
    (hr : ∀ r ∈ q.refs, ∃ o, refValue E r = .ok (.obj o) ∧ needsTime (.obj o) = false) : needsTime v = false := by
  revert hr
  have bin : ∀ (o : Arith) (x y v : PVal K), needsTime x = false → needsTime y = false → operate E o.op x y = .ok v → needsTime v = false := by
    intro o x y v hx hy h
    rw [operate_arith] at h
    obtain ⟨⟨a, n, rfl⟩ | ⟨a, rfl⟩, ⟨b, m, rfl⟩ | ⟨b, rfl⟩⟩ := arithOp_cases h
    · rw [arithOp_num_num h]; rfl
    · rw [arithOp_num_obj h]; exact hy
    · rw [arithOp_obj_num h]; exact hx
    · rcases arithOp_obj_obj h with ⟨-, rfl⟩ | ⟨-, l, -, rfl⟩
      · simp [compoundOp, needsTime]
      · exact hx
  refine run_induct E (fun q v => (∀ r ∈ q.refs, ∃ o, refValue E r = .ok (.obj o) ∧ needsTime (.obj o) = false) → needsTime v = false) ?_ ?_ ?_ ?_ ?_ ?_ ?_ ?_
    n q v h
  · intro x _; rfl
  · intro s v h hr
    obtain ⟨o, h1, h2⟩ := hr (s, none) (by simp [Query.refs])
    rw [h1] at h; injection h with h; rw [← h]; exact h2
  · intro s t v h hr
    obtain ⟨o, h1, h2⟩ := hr (s, some t) (by simp [Query.refs])
    rw [h1] at h; injection h with h; rw [← h]; exact h2
  · intro e y v ih h hr; exact bin .mul _ _ v rfl (ih hr) h
  · intro e y v ih h hr; exact bin .mul _ _ v rfl (ih hr) h
  · intro s f e y v hf ih h hr
    rcases funcOp_cases h with ⟨a, n, rfl⟩ | ⟨a, rfl⟩
    · rw [funcOp_num hf h]; rfl
    · rw [funcOp_obj hf h]; exact ih hr
  · intro a o b x y v iha ihb h hr
    simp only [Query.refs, Chain.refs, List.mem_append] at hr
    exact bin o x y v (iha fun r hx => hr r (.inl hx)) (ihb fun r hx => hr r (.inr hx)) h
  · intro c o b x y v iha ihb h hr
    simp only [Query.refs, Chain.refs, List.mem_append] at hr
    exact bin o x y v (iha fun r hx => hr r (.inl hx)) (ihb fun r hx => hr r (.inr hx)) h

/-- Arithmetic without exception. -/
theorem arith_total (X : PExt K) (o : Arith) (x y : PVal K) (hx : (∃ a n, x = .num (.fin a) n) ∨ ∃ a, x = .obj a) (hy : (∃ a n, y = .num (.fin a) n) ∨ ∃ a, y = .obj a)
    (hxt : needsTime x = false) (hyt : needsTime y = false)
    (hz : ∀ a n b m, x = .num (.fin a) n → y = .num (.fin b) m → o = .div → b ≠ 0)
    (hc : ∀ a b, x = .obj a → y = .obj b → compound a b = true ∨ a.vals.length = b.vals.length) : ∃ v, arithOp (fvOp X o) o.op x y = .ok v := by
  unfold arithOp
  rw [if_neg (by rw [hxt, hyt]; simp)]
  rcases hx with ⟨a, n, rfl⟩ | ⟨a, rfl⟩ <;> rcases hy with ⟨b, m, rfl⟩ | ⟨b, rfl⟩
  · simp only [directOp]
    split
    · rename_i hd
      exfalso
      have ho : o = .div := by cases o <;> simp [Arith.op] at hd ⊢
      have hb := hz a n b m rfl rfl ho
      apply hb
      have := hd.2.1
      injection this
    · exact ⟨_, rfl⟩
  · simp only [directOp]; exact ⟨_, rfl⟩
  · simp only [directOp]; exact ⟨_, rfl⟩
  · simp only
    split
    · exact ⟨_, rfl⟩
    · rename_i hn
      rcases hc a b rfl rfl with h | h
      · exact absurd h hn
      · simp only [directOp, broadcast_same _ _ _ h]
        exact ⟨_, rfl⟩

/-- what is needed for an evaluation without exception -/
structure TotalCtx (E : PEnv K) (G : List (String × Option K) → Prop) (P : Query K → PVal K → Prop) : Prop where
  left : ∀ a b, G (a ++ b) → G a
  right : ∀ a b, G (a ++ b) → G b
  ref : ∀ l, G l → ∀ r ∈ l, ∃ o, refValue E r = .ok (.obj o) ∧ needsTime (.obj o) = false
  inv : ∀ n q v, G q.refs → run E n q = .ok v → P q v
  form : ∀ q v, P q v → (∃ x b, v = .num x b ∧ ∀ ρ, fvQ E.ext ρ q = x) ∨ ∃ o, v = .obj o
  obj : ∀ a b x y, G (a.refs ++ b.refs) → P a (.obj x) → P b (.obj y) → compound x y = true ∨ x.vals.length = y.vals.length

theorem TotalCtx.bin {E : PEnv K} {G : List (String × Option K) → Prop} {P : Query K → PVal K → Prop} (C : TotalCtx E G P) {n m : ℕ} {a b : Query K} {o : Arith}
    {x y : PVal K} (hG : G (a.refs ++ b.refs)) (hx : run E n a = .ok x) (hy : run E m b = .ok y) (ρ : String × Option K → K) {u w z : K}
    (ha : a.value E.ext ρ = some u) (hb : b.value E.ext ρ = some w) (ho : o.exact E.ext u w = some z) : ∃ v, operate E o.op x y = .ok v := by
  have hPx := C.inv n a x (C.left _ _ hG) hx
  have hPy := C.inv m b y (C.right _ _ hG) hy
  rw [operate_arith]
  have fx : (∃ a' n', x = .num (.fin a') n' ∧ a' = u) ∨ ∃ a', x = .obj a' := by
    rcases C.form a x hPx with ⟨x', b', rfl, h⟩ | h
    · left
      have := h (fun r => .fin (ρ r))
      rw [fv_value _ _ _ _ ha] at this
      exact ⟨u, b', by rw [this], rfl⟩
    · exact .inr h
  have fy : (∃ a' n', y = .num (.fin a') n' ∧ a' = w) ∨ ∃ a', y = .obj a' := by
    rcases C.form b y hPy with ⟨x', b', rfl, h⟩ | h
    · left
      have := h (fun r => .fin (ρ r))
      rw [fv_value _ _ _ _ hb] at this
      exact ⟨w, b', by rw [this], rfl⟩
    · exact .inr h
  refine arith_total E.ext o x y (fx.imp (fun ⟨a', n', h, _⟩ => ⟨a', n', h⟩) id) (fy.imp (fun ⟨a', n', h, _⟩ => ⟨a', n', h⟩) id)
    (run_fine E n a x hx (C.ref _ (C.left _ _ hG))) (run_fine E m b y hy (C.ref _ (C.right _ _ hG))) ?_ ?_
  · intro a1 n1 b1 m1 e1 e2 hd
    rcases fy with ⟨a', n', h, h'⟩ | ⟨a', h⟩
    · rw [h] at e2
      injection e2 with e2
      injection e2 with e2
      subst hd
      rw [← e2, h']
      intro h0
      rw [Arith.exact, if_pos h0] at ho
      simp at ho
    · rw [h] at e2; simp at e2
  · intro a' b' e1 e2
    subst e1 e2
    exact C.obj a b a' b' hG hPx hPy

theorem ok_of_iff {α β : Type} {x : Except PyErr α} {Q : α → Prop} (h : ∀ v, x = .ok v ↔ Q v) (hq : ∃ v, Q v) : ∃ v, x = .ok v :=
  hq.imp fun v hv => (h v).2 hv

mutual
theorem run_total {E : PEnv K} {G : List (String × Option K) → Prop} {P : Query K → PVal K → Prop} (C : TotalCtx E G P) (ρ : String × Option K → K) :
    ∀ (q : Query K) (x : K), G q.refs → q.value E.ext ρ = some x → ∀ n, depthQ q ≤ n → ∃ v, run E n q = .ok v
  | .num x, _, _, _, n, _ => ⟨_, rfl⟩
  | .par s, _, hG, _, n, _ => by
      obtain ⟨o, h1, -⟩ := C.ref _ hG (s, none) (by simp [Query.refs])
      rw [refValue, bind_ok] at h1
      obtain ⟨a, h1, -⟩ := h1
      exact ⟨a, h1⟩
  | .at s t, _, hG, _, n, hn => by
      obtain ⟨n, rfl⟩ : ∃ m, n = m + 1 := ⟨n - 1, by simp [depthQ] at hn; omega⟩
      obtain ⟨o, h1, -⟩ := C.ref _ hG (s, some t) (by simp [Query.refs])
      rw [refValue, bind_ok] at h1
      obtain ⟨a, h1, h2⟩ := h1
      exact ⟨_, (run_at E n s t (.obj o)).2 ⟨a, h1, h2⟩⟩
  | .neg e, x, hG, hv, n, hn => by
      obtain ⟨n, rfl⟩ : ∃ m, n = m + 1 := ⟨n - 1, by simp [depthQ] at hn; omega⟩
      simp only [Query.value, Option.map_eq_some_iff] at hv
      obtain ⟨u, hu, -⟩ := hv
      obtain ⟨y, hy⟩ := run_total C ρ e u hG hu n (by simpa [depthQ] using hn)
      obtain ⟨v, hv⟩ := C.bin (a := .num (-1)) (b := e) (o := .mul) (n := n) (u := -1) (z := (-1) * u) hG rfl hy ρ rfl hu rfl
      exact ⟨v, (run_neg E n e v).2 ⟨y, hy, hv⟩⟩
  | .pos e, x, hG, hv, n, hn => by
      obtain ⟨n, rfl⟩ : ∃ m, n = m + 1 := ⟨n - 1, by simp [depthQ] at hn; omega⟩
      obtain ⟨y, hy⟩ := run_total C ρ e x hG hv n (by simpa [depthQ] using hn)
      obtain ⟨v, hv⟩ := C.bin (a := .num 1) (b := e) (o := .mul) (n := n) (u := 1) (z := 1 * x) hG rfl hy ρ rfl hv rfl
      exact ⟨v, (run_pos E n e v).2 ⟨y, hy, hv⟩⟩
  | .fn s e, x, hG, hv, n, hn => by
      obtain ⟨n, rfl⟩ : ∃ m, n = m + 1 := ⟨n - 1, by simp [depthQ] at hn; omega⟩
      simp only [Query.value, Option.bind_eq_some_iff] at hv
      obtain ⟨u, hu, f, hf, -⟩ := hv
      obtain ⟨y, hy⟩ := run_total C ρ e u hG hu n (by simpa [depthQ] using hn)
      have : ∃ v, funcOp E (.fn s) y = .ok v := by
        rcases C.form e y (C.inv n e y hG hy) with ⟨x', b', rfl, h⟩ | ⟨o, rfl⟩ <;> simp only [funcOp, hf] <;> exact ⟨_, rfl⟩
      obtain ⟨v, hv⟩ := this
      exact ⟨v, (run_fn E n s e v).2 ⟨by rw [hf]; rfl, y, hy, hv⟩⟩
  | .chain c, x, hG, hv, n, hn => run_totalC C ρ c x hG hv n hn

theorem run_totalC {E : PEnv K} {G : List (String × Option K) → Prop} {P : Query K → PVal K → Prop} (C : TotalCtx E G P) (ρ : String × Option K → K) :
    ∀ (c : Chain K) (x : K), G c.refs → c.value E.ext ρ = some x → ∀ n, depthC c ≤ n → ∃ v, run E n (.chain c) = .ok v
  | .two a o b, x, hG, hv, n, hn => by
      obtain ⟨n, rfl⟩ : ∃ m, n = m + 1 := ⟨n - 1, by simp [depthC] at hn; omega⟩
      simp only [Chain.value, Option.bind_eq_some_iff] at hv
      obtain ⟨u, hu, w, hw, ho⟩ := hv
      simp only [depthC] at hn
      obtain ⟨x', hx'⟩ := run_total C ρ a u (C.left _ _ hG) hu n (by omega)
      obtain ⟨y', hy'⟩ := run_total C ρ b w (C.right _ _ hG) hw n (by omega)
      obtain ⟨v, hv⟩ := C.bin (a := a) (b := b) hG hx' hy' ρ hu hw ho
      exact ⟨v, (run_two E n a o b v).2 ⟨x', y', hx', hy', hv⟩⟩
  | .more c o b, x, hG, hv, n, hn => by
      obtain ⟨n, rfl⟩ : ∃ m, n = m + 1 := ⟨n - 1, by simp [depthC] at hn; omega⟩
      simp only [Chain.value, Option.bind_eq_some_iff] at hv
      obtain ⟨u, hu, w, hw, ho⟩ := hv
      simp only [depthC] at hn
      obtain ⟨x', hx'⟩ := run_totalC C ρ c u (C.left _ _ hG) hu n (by omega)
      obtain ⟨y', hy'⟩ := run_total C ρ b w (C.right _ _ hG) hw n (by omega)
      obtain ⟨v, hv⟩ := C.bin (a := .chain c) (b := b) hG hx' hy' ρ hu hw ho
      exact ⟨v, (run_more E n c o b v).2 ⟨x', y', hx', hy', hv⟩⟩
end

/-- parameters of one study and one time step -/
def SameRefs (E : PEnv K) (hy : Bool) (N : ℕ) (w : List K) (τ : Option K) (k : ℕ) (V : String × Option K → List (FV K)) (l : List (String × Option K)) : Prop :=
  ∀ r ∈ l, refValue E r = .ok (.obj ⟨hy, V r, .dist w, some r.1, τ, some k⟩) ∧ (V r).length = N

theorem same_total (E : PEnv K) (hy : Bool) (N : ℕ) (w : List K) (τ : Option K) (k : ℕ) (V : String × Option K → List (FV K)) (hτ : hy = true ∨ τ.isSome) :
    TotalCtx E (SameRefs E hy N w τ k V) fun q v => (q.refs = [] ∧ ∃ x b, v = .num x b ∧ ∀ ρ, fvQ E.ext ρ q = x) ∨
      ∃ nm, v = .obj ⟨hy, (List.range N).map fun i => fvQ E.ext (cellEnv V i) q, .dist w, nm, τ, some k⟩ where
  left := fun a b h r hr => h r (List.mem_append_left _ hr)
  right := fun a b h r hr => h r (List.mem_append_right _ hr)
  ref := fun l h r hr => ⟨_, (h r hr).1, by
    rcases hτ with rfl | h'
    · simp [needsTime, Prob.isSeq]
    · cases τ with
      | none => simp at h'
      | some τ => cases hy <;> simp [needsTime, Prob.isSeq]⟩
  inv := fun n q v hG h => run_same E hy N w τ k V n q v h hG
  form := by
    rintro q v (⟨-, x, b, rfl, h⟩ | ⟨nm, rfl⟩)
    · exact .inl ⟨x, b, rfl, h⟩
    · exact .inr ⟨_, rfl⟩
  obj := by
    rintro a b x y - (⟨-, _, _, h, -⟩ | ⟨nm, h⟩) (⟨-, _, _, h', -⟩ | ⟨nm', h'⟩)
    · simp at h
    · simp at h
    · simp at h'
    · injection h with h; injection h' with h'
      right
      rw [h, h']; simp

/-- parameters of different studies, or the same parameter at different times -/
def IndepRefs (E : PEnv K) (T : String × Option K → List (FV K × K)) (hy : String × Option K → Bool) (τ : String × Option K → Option K)
    (st : String × Option K → ℕ) (l : List (String × Option K)) : Prop :=
  l.Pairwise (Separate hy τ st) ∧
    ∀ r ∈ l, (refValue E r = .ok (.obj ⟨hy r, (T r).map (·.1), .dist ((T r).map (·.2)), some r.1, τ r, some (st r)⟩) ∧ (hy r = true ∨ (τ r).isSome)) ∧
      ((T r).map (·.2)).sum = 1

theorem indep_total (E : PEnv K) (T : String × Option K → List (FV K × K)) (hy : String × Option K → Bool) (τ : String × Option K → Option K)
    (st : String × Option K → ℕ) : TotalCtx E (IndepRefs E T hy τ st) fun q v => IndepResult E T hy τ st q v where
  left := fun a b h => ⟨(List.pairwise_append.1 h.1).1, fun r hr => h.2 r (List.mem_append_left _ hr)⟩
  right := fun a b h => ⟨(List.pairwise_append.1 h.1).2.1, fun r hr => h.2 r (List.mem_append_right _ hr)⟩
  ref := fun l h r hr => by
    obtain ⟨⟨h1, h2⟩, -⟩ := h.2 r hr
    refine ⟨_, h1, ?_⟩
    rcases h2 with h2 | h'
    · simp [needsTime, Prob.isSeq, h2]
    · cases hτ : τ r with
      | none => simp [hτ] at h'
      | some t => cases hy r <;> simp [needsTime, Prob.isSeq]
  inv := fun n q v hG h => run_indep E T hy τ st n q v h hG.1 fun r hr => ⟨(hG.2 r hr).1.1, (hG.2 r hr).2⟩
  form := by
    rintro q v (⟨-, x, b, rfl, h⟩ | ⟨hy, nm, τ, s, rfl, -⟩)
    · exact .inl ⟨x, b, rfl, h⟩
    · exact .inr ⟨_, rfl⟩
  obj := by
    rintro a b x y hG (⟨-, _, _, h, -⟩ | ⟨h1, nm, t, s, h, hs⟩) (⟨-, _, _, h', -⟩ | ⟨h1', nm', t', s', h', hs'⟩)
    · simp at h
    · simp at h
    · simp at h'
    · injection h with h; injection h' with h'
      left
      rw [h, h']
      exact compound_separate (List.pairwise_append.1 hG.1).2.2 hs hs'

end BL
