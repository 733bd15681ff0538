import Verif.Lemmas.Evidence
import Verif.Lemmas.Resets

/-! # Path sums for constant parameters; path sums extended by one step -/

set_option linter.unusedSectionVars false

namespace Spec

variable {ι K : Type} [Fintype ι] [DecidableEq ι] [Field K]

theorem advance_stay' (L π : ι → K) : advance (fun x y => if x = y then (1 : K) else 0) L π = fun x => π x * L x := by
  funext y
  unfold advance
  rw [Finset.sum_eq_single y]
  · simp
  · intro b _ h; simp [h]
  · simp

theorem evidence_const {n : ℕ} : ∀ (π : ι → K) (L : Fin (n + 1) → ι → K),
    evidence π (fun _ x y => if x = y then (1 : K) else 0) L = ∑ x, π x * ∏ i, L i x := by
  induction n with
  | zero => intro π L; rw [evidence_zero]; simp
  | succ n ih =>
      intro π L
      rw [evidence_succ, ih, advance_stay']
      refine Finset.sum_congr rfl fun x _ => ?_
      rw [Fin.prod_univ_succ (fun i => L i x)]; ring

theorem marginal_const {n : ℕ} : ∀ (π : ι → K) (L : Fin (n + 1) → ι → K) (i : Fin (n + 1)) (x : ι),
    marginal π (fun _ x y => if x = y then (1 : K) else 0) L i x = π x * ∏ i, L i x := by
  induction n with
  | zero =>
      intro π L i x
      obtain rfl : i = 0 := Fin.fin_one_eq_zero i
      rw [marginal_zero]; simp [future]
  | succ n ih =>
      intro π L i x
      refine Fin.cases ?_ (fun i => ?_) i
      · rw [marginal_zero, Fin.prod_univ_succ (fun i => L i x), future, evidence_const,
          Finset.sum_eq_single x]
        · simp [mul_assoc]
        · intro b _ h; simp [Ne.symm h]
        · simp
      · rw [marginal_succ, ih, advance_stay', Fin.prod_univ_succ (fun i => L i x)]; ring

/-- the last step of a path: previous state, transition, likelihood -/
theorem marginal_last {n : ℕ} : ∀ (π : ι → K) (T : Fin (n + 1) → ι → ι → K) (L : Fin (n + 2) → ι → K) (y : ι),
    marginal π T L (Fin.last (n + 1)) y =
      (∑ x, marginal π (fun i : Fin n => T i.castSucc) (fun i => L i.castSucc) (Fin.last n) x * T (Fin.last n) x y) *
        L (Fin.last (n + 1)) y := by
  induction n with
  | zero =>
      intro π T L y
      have h : Fin.last (0 + 1) = Fin.succ 0 := rfl
      rw [h, marginal_succ, marginal_zero]
      have h0 : Fin.last 0 = 0 := rfl
      simp only [h0, marginal_zero, future, mul_one, advance]
      rfl
  | succ n ih =>
      intro π T L y
      have h : Fin.last (n + 1 + 1) = Fin.succ (Fin.last (n + 1)) := rfl
      rw [h, marginal_succ, ih]
      congr 1
      refine Finset.sum_congr rfl fun x _ => ?_
      have h2 : Fin.last (n + 1) = Fin.succ (Fin.last n) := rfl
      congr 1
      rw [h2, marginal_succ]
      rfl

/-- evidence of a sequence whose last data point is missing -/
theorem evidence_last_one {n : ℕ} (π : ι → K) (T : Fin (n + 1) → ι → ι → K) (L : Fin (n + 2) → ι → K)
    (hT : ∀ x, ∑ y, T (Fin.last n) x y = 1) (hL : ∀ x, L (Fin.last (n + 1)) x = 1) :
    evidence π T L = evidence π (fun i : Fin n => T i.castSucc) (fun i => L i.castSucc) := by
  rw [evidence_eq_sum_marginal π T L (Fin.last _)]
  simp only [marginal_last, hL, mul_one]
  rw [Finset.sum_comm]
  simp only [← Finset.mul_sum, hT, mul_one]
  rw [← evidence_eq_sum_marginal]

end Spec

namespace BL
open Spec
variable {K : Type} [Field K] [LinearOrder K] [IsStrictOrderedRing K] {d : ℕ} {gs : Fin d → ℕ}

theorem list_ofFn {α : Type} (l : List α) (h : l ≠ []) : ∃ (n : ℕ) (f : Fin (n + 1) → α), l = List.ofFn f := by
  obtain ⟨n, hn⟩ : ∃ n, l.length = n + 1 := ⟨l.length - 1, by have := List.length_pos_iff.2 h; omega⟩
  exact ⟨n, fun i => l[i.val]'(by omega), by
    apply List.ext_getElem
    · simp [hn]
    · intro i h1 h2; rw [List.getElem_ofFn]⟩

theorem ofFn_of_length {α : Type} {n : ℕ} (l : List α) (h : l.length = n) : ∃ f : Fin n → α, l = List.ofFn f :=
  ⟨fun i => l[i.val]'(by omega), by
    apply List.ext_getElem
    · simp [h]
    · intro i h1 h2; rw [List.getElem_ofFn]⟩

theorem kernel_static (E : Env K gs) (ρ : Idx gs → K) (nm : List String) (vs : List (HVal K)) (hpr : Option (Nest (HPrior K))) :
    kernel E ρ (.leaf .static nm vs hpr) = fun _ => stay := by
  funext t; rw [kernel]

theorem prod_ofFn_apply {n : ℕ} (L : Fin n → Idx gs → K) (x : Idx gs) :
    ((List.ofFn L).map (· x)).prod = ∏ i, L i x := by
  rw [List.map_ofFn, List.prod_ofFn]; rfl

/-- all fits with the Static model -/
theorem static_fit {E : Env K gs} {grid : (a : Fin d) → Fin (gs a) → K} (hE : Regular E)
    {nm : List String} {vs : List (HVal K)} {hpr : Option (Nest (HPrior K))}
    {S : FitState K gs} {π : Idx gs → K} (hp : PriorMass E.cell S.prior π) {Ls : List (Idx gs → K)} {ts : List K}
    (hne : Ls ≠ []) (hlen : ts.length = Ls.length) (hL0 : ∀ L ∈ Ls, ∀ x, 0 ≤ L x) (fo eo : Bool) :
    ∃ S', fit E grid (.leaf .static nm vs hpr) Ls ts fo eo S = .ok S' ∧
      S'.logEv.exp = ∑ x, π x * (Ls.map (· x)).prod ∧
      ((∑ x, π x * (Ls.map (· x)).prod) ≠ 0 → eo = false →
        (fo = false → S'.posts = List.replicate Ls.length (.val fun x => π x * (Ls.map (· x)).prod / ∑ y, π y * (Ls.map (· y)).prod) ∧
          ∀ a, S'.means a = List.replicate Ls.length (mean grid a fun x => π x * (Ls.map (· x)).prod / ∑ y, π y * (Ls.map (· y)).prod)) ∧
        (fo = true → S'.posts = (List.range Ls.length).map fun i => .val fun x =>
          π x * ((Ls.take (i + 1)).map (· x)).prod / ∑ y, π y * ((Ls.take (i + 1)).map (· y)).prod)) := by
  obtain ⟨n, L, rfl⟩ := list_ofFn Ls hne
  obtain ⟨τ, rfl⟩ := ofFn_of_length ts (by simpa using hlen)
  have hL0' : ∀ i x, 0 ≤ L i x := fun i => hL0 _ (List.mem_ofFn.2 ⟨i, rfl⟩)
  have hLin : Linear E (.leaf .static nm vs hpr) := by rw [Linear]; trivial
  have hRF : ResetFree (K := K) (.leaf .static nm vs hpr) := by rw [ResetFree] <;> simp
  have hR : ResetCond E (.leaf .static nm vs hpr) S.prior 1 π := Or.inl hRF
  have hmo : ∀ t s, massOut E 1 (.leaf .static nm vs hpr) t s = s := by intro t s; rw [massOut] <;> simp
  obtain ⟨S', h1, h2⟩ := linear_evidence (grid := grid) hE hLin hp hR hL0' (τ := τ) (fo := fo) (eo := eo)
    (Or.inr (Or.inr ⟨fun i => by rw [kernel_static], 0, Or.inl hRF⟩))
  have hev : ∀ {m : ℕ} (L : Fin (m + 1) → Idx gs → K) , evidence π (fun i : Fin m => (stay : Idx gs → Idx gs → K)) L =
      ∑ x, π x * ((List.ofFn L).map (· x)).prod := by
    intro m L
    simp only [prod_ofFn_apply]
    exact evidence_const π L
  rw [kernel_static] at h2
  simp only [hmo, Finset.prod_const_one, mul_one] at h2
  refine ⟨S', h1, h2.trans (hev L), ?_⟩
  intro hpos heo
  have hpos' : evidence π (fun i : Fin n => kernel E π (.leaf .static nm vs hpr) (τ i.castSucc)) L ≠ 0 := by
    rw [kernel_static, hev L]; exact hpos
  constructor
  · intro hfo
    subst hfo heo
    obtain ⟨S2, h3, h4, h5, -⟩ := linear_posterior (grid := grid) hE hLin hp hR hL0' (τ := τ) (fun i => by rw [kernel_static]) 0 (Or.inl hRF) hpos'
    rw [h1] at h3
    cases h3
    have hq : ∀ i, posterior π (fun i : Fin n => kernel E π (.leaf .static nm vs hpr) (τ i.castSucc)) L i =
        fun x => π x * ((List.ofFn L).map (· x)).prod / ∑ y, π y * ((List.ofFn L).map (· y)).prod := by
      intro i
      funext x
      rw [posterior, kernel_static, hev L]
      congr 1
      rw [prod_ofFn_apply]
      exact marginal_const π L i x
    simp only [hq] at h4 h5
    refine ⟨?_, ?_⟩
    · rw [h4, List.ofFn_const, List.length_ofFn]
    · intro a; rw [h5 a, List.ofFn_const, List.length_ofFn]
  · intro hfo
    subst hfo heo
    obtain ⟨S2, h3, h4, -⟩ := linear_filtering (grid := grid) hE hLin hp hR hL0' (τ := τ) hpos'
    rw [h1] at h3
    cases h3
    rw [kernel_static] at h4
    rw [h4]
    apply List.ext_getElem
    · simp
    · intro i hi1 hi2
      have hi : i < n + 1 := by simpa using hi1
      simp only [List.getElem_ofFn, List.getElem_map, List.getElem_range]
      congr 1
      funext x
      have htake : (List.ofFn L).take (i + 1) = List.ofFn (upTo ⟨i, hi⟩ L) := by
        apply List.ext_getElem
        · simp; omega
        · intro j hj1 hj2; rw [List.getElem_take, List.getElem_ofFn, List.getElem_ofFn]; rfl
      rw [htake, filtering, posterior, hev (upTo ⟨i, hi⟩ L), prod_ofFn_apply]
      congr 1
      exact marginal_const π (upTo ⟨i, hi⟩ L) (Fin.last _) x

end BL
