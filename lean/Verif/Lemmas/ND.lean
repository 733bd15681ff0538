import Verif.Model.HyperDist
import Verif.Lemmas.Cart

/-! # Sums over axes of arrays -/

set_option linter.unusedSectionVars false

namespace BL
variable {K : Type} [Field K] [LinearOrder K]

/-- sum over all entries -/
def total (shape : List ℕ) (f : List ℕ → K) : K := ((indices shape).map f).sum

theorem total_nil (f : List ℕ → K) : total [] f = f [] := by simp [total, indices, cart]

theorem sum_flatMap {α : Type} (l : List α) (g : α → List K) : (l.flatMap g).sum = (l.map fun x => (g x).sum).sum := by
  induction l with
  | nil => rfl
  | cons a l ih => rw [List.flatMap_cons, List.sum_append, ih]; rfl

theorem total_cons (n : ℕ) (ns : List ℕ) (f : List ℕ → K) :
    total (n :: ns) f = ((List.range n).map fun i => total ns fun idx => f (i :: idx)).sum := by
  unfold total indices
  rw [List.map_cons, cart, List.map_flatMap, sum_flatMap]
  simp only [List.map_map]
  rfl

theorem total_congr {shape : List ℕ} {f g : List ℕ → K} (h : ∀ idx ∈ indices shape, f idx = g idx) : total shape f = total shape g := by
  unfold total
  rw [List.map_congr_left h]

theorem total_sum {α : Type} (shape : List ℕ) (l : List α) (f : α → List ℕ → K) :
    total shape (fun idx => (l.map fun i => f i idx).sum) = (l.map fun i => total shape (f i)).sum := by
  induction l with
  | nil => simp [total]
  | cons a l ih =>
      simp only [List.map_cons, List.sum_cons, ← ih]
      unfold total
      rw [List.sum_map_add]

theorem total_sumAxis : ∀ (shape : List ℕ) (b : ℕ) (f : List ℕ → K), b < shape.length →
    total (shape.set b 1) (fun idx => ((List.range (shape.getD b 0)).map fun i => f (idx.set b i)).sum) = total shape f
  | [], b, f, h => by simp at h
  | n :: ns, 0, f, _ => by
      rw [List.set_cons_zero, total_cons, total_cons]
      simp only [List.range_one, List.map_cons, List.map_nil, List.sum_cons, List.sum_nil, add_zero, List.getD_cons_zero, List.set_cons_zero]
      rw [total_sum]
  | n :: ns, b + 1, f, h => by
      rw [List.set_cons_succ, total_cons, total_cons]
      congr 1
      apply List.map_congr_left
      intro i _
      simp only [List.getD_cons_succ, List.set_cons_succ]
      exact total_sumAxis ns b (fun idx => f (i :: idx)) (by simpa using h)

theorem mem_indices {shape idx : List ℕ} : idx ∈ indices shape ↔ List.Forall₂ (· < ·) idx shape := by
  unfold indices
  rw [cart_mem, List.forall₂_map_right_iff]
  simp only [List.mem_range]

theorem sumAxes_shape : ∀ (bs : List ℕ) (A : ND K) , ((A.sumAxes bs).shape).length = A.shape.length ∧
    ∀ a, a < A.shape.length → (A.sumAxes bs).shape[a]? = if a ∈ bs then some 1 else A.shape[a]?
  | [], A => by simp [ND.sumAxes]
  | b :: bs, A => by
      obtain ⟨h1, h2⟩ := sumAxes_shape bs (A.sumAxis b)
      have hl : (A.sumAxis b).shape.length = A.shape.length := by simp [ND.sumAxis]
      change ((A.sumAxis b).sumAxes bs).shape.length = _ ∧ ∀ a, _ → ((A.sumAxis b).sumAxes bs).shape[a]? = _
      refine ⟨by rw [h1, hl], fun a ha => ?_⟩
      rw [h2 a (by rw [hl]; exact ha)]
      by_cases hab : a = b
      · subst hab
        by_cases ha' : a ∈ bs
        · simp [ha']
        · simp [ha', ND.sumAxis, ha]
      · by_cases ha' : a ∈ bs
        · simp [ha']
        · simp [ha', hab, ND.sumAxis, List.getElem?_set_ne (Ne.symm hab)]

/-- sums over axes on which the selection `P` does not depend change no total -/
theorem total_sumAxes (P : List ℕ → Prop) [DecidablePred P] : ∀ (bs : List ℕ) (A : ND K), (∀ b ∈ bs, b < A.shape.length) →
    (∀ b ∈ bs, ∀ idx i, P (idx.set b i) ↔ P idx) →
    total (A.sumAxes bs).shape (fun idx => if P idx then (A.sumAxes bs).get idx else 0) =
      total A.shape fun idx => if P idx then A.get idx else 0
  | [], A, _, _ => rfl
  | b :: bs, A, hb, hP => by
      change total ((A.sumAxis b).sumAxes bs).shape (fun idx => if P idx then ((A.sumAxis b).sumAxes bs).get idx else 0) = _
      rw [total_sumAxes P bs (A.sumAxis b) (fun c hc => by simpa [ND.sumAxis] using hb c (by simp [hc]))
        (fun c hc => hP c (by simp [hc]))]
      rw [← total_sumAxis A.shape b (fun idx => if P idx then A.get idx else 0) (hb b (by simp))]
      unfold ND.sumAxis
      apply total_congr
      intro idx _
      have h1 : ∀ i, P (idx.set b i) ↔ P idx := hP b (by simp) idx
      simp only [h1]
      by_cases h : P idx
      · simp [h]
      · simp [h]

theorem flatMap_one {α : Type} (f : ℕ → List α) : (List.range 1).flatMap f = f 0 := by simp

theorem squeeze_flat : ∀ (shape : List ℕ) (f : List ℕ → K),
    (indices (shape.filter (· ≠ 1))).map (fun idx => f (unsqueeze shape idx)) = (indices shape).map f
  | [], f => by simp [indices, cart, unsqueeze]
  | n :: ns, f => by
      by_cases hn : n = 1
      · subst hn
        have ih := squeeze_flat ns (fun idx => f (0 :: idx))
        simp only [unsqueeze, ↓reduceIte]
        rw [List.filter_cons_of_neg (by simp), ih]
        unfold indices
        rw [List.map_cons, cart, flatMap_one, List.map_map]
        rfl
      · rw [List.filter_cons_of_pos (by simpa using hn)]
        unfold indices
        rw [List.map_cons, List.map_cons, cart, cart, List.map_flatMap, List.map_flatMap]
        apply List.flatMap_congr
        intro i _
        rw [List.map_map, List.map_map]
        have ih := squeeze_flat ns (fun idx => f (i :: idx))
        unfold indices at ih
        rw [Function.comp_def]
        simp only [unsqueeze, hn, ↓reduceIte]
        exact ih

theorem squeeze_flat' (A : ND K) : A.squeeze.flat = A.flat := squeeze_flat A.shape A.get

theorem scale_flat (A : ND K) (c : K) : (A.scale c).flat = A.flat.map (· * c) := by
  rw [ND.flat, ND.flat, List.map_map]; rfl

/-- all axes of length one -/
theorem indices_ones : ∀ shape : List ℕ, (∀ n ∈ shape, n = 1) → indices shape = [List.replicate shape.length 0]
  | [], _ => rfl
  | n :: ns, h => by
      have ih := indices_ones ns fun m hm => h m (by simp [hm])
      have hn : n = 1 := h n (by simp)
      subst hn
      unfold indices at *
      rw [List.map_cons, cart, flatMap_one, ih]
      rfl

/-- all axes but one of length one -/
theorem indices_one : ∀ (shape : List ℕ) (a n : ℕ), shape[a]? = some n → (∀ b m, b ≠ a → shape[b]? = some m → m = 1) →
    indices shape = (List.range n).map fun i => (List.replicate shape.length 0).set a i
  | [], a, n, h, _ => by simp at h
  | m :: ns, 0, n, h, hr => by
      simp only [List.getElem?_cons_zero, Option.some.injEq] at h
      subst h
      have ih := indices_ones ns (by
        intro k hk
        obtain ⟨b, hb⟩ := List.mem_iff_getElem?.1 hk
        exact hr (b + 1) k (by simp) (by simpa using hb))
      unfold indices at *
      rw [List.map_cons, cart, ih]
      simp only [List.map_cons, List.map_nil, List.length_cons, List.replicate_succ, List.set_cons_zero]
      exact List.flatMap_pure_eq_map _ _
  | m :: ns, a + 1, n, h, hr => by
      have hm : m = 1 := hr 0 m (by simp) rfl
      subst hm
      have ih := indices_one ns a n (by simpa using h) (by
        intro b k hb hk
        exact hr (b + 1) k (by simpa using hb) (by simpa using hk))
      unfold indices at *
      rw [List.map_cons, cart, flatMap_one, ih, List.map_map]
      rfl

/-- all axes but two of length one -/
theorem indices_two : ∀ (shape : List ℕ) (a b n m : ℕ), a < b → shape[a]? = some n → shape[b]? = some m →
    (∀ c k, c ≠ a → c ≠ b → shape[c]? = some k → k = 1) →
    indices shape = (List.range n).flatMap fun i => (List.range m).map fun j => ((List.replicate shape.length 0).set a i).set b j
  | [], a, b, n, m, _, h, _, _ => by simp at h
  | k :: ns, 0, b, n, m, hab, h1, h2, hr => by
      simp only [List.getElem?_cons_zero, Option.some.injEq] at h1
      subst h1
      obtain ⟨b, rfl⟩ : ∃ b', b = b' + 1 := ⟨b - 1, by omega⟩
      have ih := indices_one ns b m (by simpa using h2) (by
        intro c k' hc hk
        exact hr (c + 1) k' (by simp) (by simpa using hc) (by simpa using hk))
      unfold indices at *
      rw [List.map_cons, cart, ih]
      apply List.flatMap_congr
      intro i _
      rw [List.map_map]
      rfl
  | k :: ns, a + 1, b, n, m, hab, h1, h2, hr => by
      obtain ⟨b, rfl⟩ : ∃ b', b = b' + 1 := ⟨b - 1, by omega⟩
      have hk : k = 1 := hr 0 k (by simp) (by simp) rfl
      subst hk
      have ih := indices_two ns a b n m (by omega) (by simpa using h1) (by simpa using h2) (by
        intro c k' hca hcb hk
        exact hr (c + 1) k' (by simpa using hca) (by simpa using hcb) (by simpa using hk))
      unfold indices at *
      rw [List.map_cons, cart, flatMap_one, ih, List.map_flatMap]
      apply List.flatMap_congr
      intro i _
      rw [List.map_map]
      rfl

theorem filter_ones : ∀ shape : List ℕ, (∀ n ∈ shape, n = 1) → shape.filter (· ≠ 1) = []
  | [], _ => rfl
  | n :: ns, h => by
      rw [List.filter_cons_of_neg (by simp [h n])]
      exact filter_ones ns fun m hm => h m (by simp [hm])

theorem filter_one : ∀ (shape : List ℕ) (a n : ℕ), shape[a]? = some n → (∀ b m, b ≠ a → shape[b]? = some m → m = 1) →
    shape.filter (· ≠ 1) = [n].filter (· ≠ 1)
  | [], a, n, h, _ => by simp at h
  | m :: ns, 0, n, h, hr => by
      simp only [List.getElem?_cons_zero, Option.some.injEq] at h
      subst h
      have ih := filter_ones ns (by
        intro k hk
        obtain ⟨b, hb⟩ := List.mem_iff_getElem?.1 hk
        exact hr (b + 1) k (by simp) (by simpa using hb))
      rw [List.filter_cons, List.filter_cons, ih]
      rfl
  | m :: ns, a + 1, n, h, hr => by
      have hm : m = 1 := hr 0 m (by simp) rfl
      rw [List.filter_cons_of_neg (by simp [hm])]
      exact filter_one ns a n (by simpa using h) (by
        intro b k hb hk
        exact hr (b + 1) k (by simpa using hb) (by simpa using hk))

theorem filter_two : ∀ (shape : List ℕ) (a b n m : ℕ), a < b → shape[a]? = some n → shape[b]? = some m →
    (∀ c k, c ≠ a → c ≠ b → shape[c]? = some k → k = 1) → shape.filter (· ≠ 1) = [n, m].filter (· ≠ 1)
  | [], a, b, n, m, _, h, _, _ => by simp at h
  | k :: ns, 0, b, n, m, hab, h1, h2, hr => by
      simp only [List.getElem?_cons_zero, Option.some.injEq] at h1
      subst h1
      obtain ⟨b, rfl⟩ : ∃ b', b = b' + 1 := ⟨b - 1, by omega⟩
      have ih := filter_one ns b m (by simpa using h2) (by
        intro c k' hc hk
        exact hr (c + 1) k' (by simp) (by simpa using hc) (by simpa using hk))
      rw [List.filter_cons, List.filter_cons, ih]
  | k :: ns, a + 1, b, n, m, hab, h1, h2, hr => by
      obtain ⟨b, rfl⟩ : ∃ b', b = b' + 1 := ⟨b - 1, by omega⟩
      have hk : k = 1 := hr 0 k (by simp) (by simp) rfl
      rw [List.filter_cons_of_neg (by simp [hk])]
      exact filter_two ns a b n m (by omega) (by simpa using h1) (by simpa using h2) (by
        intro c k' hca hcb hk
        exact hr (c + 1) k' (by simpa using hca) (by simpa using hcb) (by simpa using hk))

/-! ## Rows of the hyper-grid and multi-indices -/

theorem indices_ravel : ∀ shape : List ℕ, (indices shape).map (ravel shape) = List.range shape.prod
  | [] => by simp [indices, cart, ravel]
  | n :: ns => by
      have ih := indices_ravel ns
      have h : (indices (n :: ns)).map (ravel (n :: ns)) = (List.range n).flatMap fun i => (List.range ns.prod).map fun j => i * ns.prod + j := by
        unfold indices at *
        rw [List.map_cons, cart, List.map_flatMap]
        apply List.flatMap_congr
        intro i _
        rw [List.map_map, ← ih, List.map_map]
        rfl
      rw [h, List.prod_cons]
      clear h ih
      induction n with
      | zero => simp
      | succ n ih =>
          rw [List.range_succ, List.flatMap_append, ih, List.flatMap_singleton, Nat.succ_mul, List.range_add]

/-- a flat array seen through multi-indices -/
theorem map_ravel (D : List K) (shape : List ℕ) (h : D.length = shape.prod) :
    (indices shape).map (fun idx => D.getD (ravel shape idx) 0) = D := by
  have : (indices shape).map (fun idx => D.getD (ravel shape idx) 0) = ((indices shape).map (ravel shape)).map fun k => D.getD k 0 := by
    rw [List.map_map]; rfl
  rw [this, indices_ravel, ← h]
  apply List.ext_getElem?
  intro k
  by_cases hk : k < D.length
  · simp [hk]
  · rw [List.getElem?_eq_none (by simp; omega), List.getElem?_eq_none (by omega)]

/-- row of a product of lists -/
def rowOf {α : Type} : List (List α) → List ℕ → List α
  | l :: ls, i :: idx => match l[i]? with
      | some x => x :: rowOf ls idx
      | none => []
  | _, _ => []

theorem flatMap_range {α β : Type} (g : α → List β) : ∀ l : List α,
    l.flatMap g = (List.range l.length).flatMap fun i => match l[i]? with
      | some x => g x
      | none => []
  | [] => rfl
  | a :: l => by
      rw [List.flatMap_cons, flatMap_range g l, List.length_cons, List.range_succ_eq_map, List.flatMap_cons, List.flatMap_map]
      rfl

theorem cart_indices {α : Type} : ∀ ls : List (List α), cart ls = (indices (ls.map List.length)).map (rowOf ls)
  | [] => rfl
  | l :: ls => by
      have ih := cart_indices ls
      unfold indices at *
      rw [List.map_cons, List.map_cons, cart, cart, List.map_flatMap, flatMap_range]
      apply List.flatMap_congr
      intro i hi
      have hi' := List.mem_range.1 hi
      rw [List.getElem?_eq_getElem hi']
      simp only
      rw [ih]
      generalize cart (List.map List.range (List.map List.length ls)) = q
      rw [List.map_map, List.map_map]
      apply List.map_congr_left
      intro idx _
      simp only [Function.comp, rowOf, List.getElem?_eq_getElem hi']

theorem rowOf_get {α : Type} : ∀ (ls : List (List α)) (idx : List ℕ), idx ∈ indices (ls.map List.length) → ∀ a, a < ls.length →
    (rowOf ls idx)[a]? = (ls[a]?).bind fun l => (idx[a]?).bind fun i => l[i]?
  | [], idx, _, a, h => by simp at h
  | l :: ls, idx, hm, a, ha => by
      rw [mem_indices] at hm
      cases hm with
      | cons h1 h2 =>
          rename_i i idx
          rw [rowOf, List.getElem?_eq_getElem h1]
          simp only
          cases a with
          | zero => simp [List.getElem?_eq_getElem h1]
          | succ a =>
              simp only [List.getElem?_cons_succ]
              exact rowOf_get ls idx (mem_indices.2 h2) a (by simpa using ha)

end BL
