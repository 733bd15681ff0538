import Verif.Lemmas.FitMain

/-! # Evidence and posteriors of linear models, in terms of the path sums -/

set_option linter.unusedSectionVars false

namespace BL
open Spec
variable {K : Type} [Field K] [LinearOrder K] [IsStrictOrderedRing K] {d : ℕ} {gs : Fin d → ℕ}

theorem matched_ofFn {Ker : K → Idx gs → Idx gs → K} : ∀ {n : ℕ} (τ : Fin (n + 1) → K),
    (∀ i : Fin n, Ker (τ i.succ - 1) = Ker (τ i.castSucc)) → Matched Ker (List.ofFn τ)
  | 0, τ, _ => by simp [List.ofFn_succ, Matched]
  | n + 1, τ, h => by
      have ih := matched_ofFn (fun i : Fin (n + 1) => τ i.succ) fun i => by
        have := h i.succ
        rwa [Fin.castSucc_succ] at this
      rw [List.ofFn_succ] at ih ⊢
      rw [List.ofFn_succ]
      exact ⟨h 0, ih⟩

theorem matched_of_unit {Ker : K → Idx gs → Idx gs → K} {n : ℕ} {τ : Fin (n + 1) → K}
    (h : ∀ i : Fin n, τ i.succ = τ i.castSucc + 1) (i : Fin n) : Ker (τ i.succ - 1) = Ker (τ i.castSucc) := by
  rw [h i, add_sub_cancel_right]

theorem ofFn_nonneg {n : ℕ} {L : Fin n → Idx gs → K} (h : ∀ i x, 0 ≤ L i x) :
    ∀ l ∈ List.ofFn L, ∀ x, 0 ≤ l x := by
  intro l hl x
  obtain ⟨i, rfl⟩ := List.mem_ofFn.1 hl
  exact h i x

theorem dropLast_prod {n : ℕ} (τ : Fin (n + 1) → K) (f : K → K) :
    ((List.ofFn τ).dropLast.map f).prod = ∏ i : Fin n, f (τ i.castSucc) := by
  rw [List.ofFn_succ', List.concat_eq_append, List.dropLast_concat, List.map_ofFn, List.prod_ofFn]
  rfl

theorem linear_evidence {E : Env K gs} {grid : (a : Fin d) → Fin (gs a) → K} {tm : TM K}
    (hE : Regular E) (hL : Linear E tm) {R : K} {ρ : Idx gs → K} {S : FitState K gs} {π : Idx gs → K}
    (hp : PriorMass E.cell S.prior π) (hR : ResetCond E tm S.prior R ρ) {n : ℕ} {L : Fin (n + 1) → Idx gs → K} (hL0 : ∀ i x, 0 ≤ L i x)
    {τ : Fin (n + 1) → K} {fo eo : Bool}
    (hmode : eo = true ∨ fo = true ∨ ((∀ i : Fin n, kernel E ρ tm (τ i.succ - 1) = kernel E ρ tm (τ i.castSucc)) ∧ ∃ u, ResetFree tm ∨ ∀ x, ρ x = u)) :
    ∃ S', fit E grid tm (List.ofFn L) (List.ofFn τ) fo eo S = .ok S' ∧
      S'.logEv.exp = evidence π (fun i : Fin n => kernel E ρ tm (τ i.castSucc)) L *
        ∏ i : Fin n, massOut E R tm (τ i.castSucc) 1 := by
  haveI := hE.nonempty
  have hK := kernel_stoch hE hL hR
  have hlen : (List.ofFn τ).length = (List.ofFn L).length := by simp
  have hl0 := ofFn_nonneg hL0
  have hne : List.ofFn L ≠ [] := by simp [List.ofFn_succ]
  have hP := pathEv_ofFn hK π L τ
  rcases (pathEv_nonneg hK (List.ofFn L) (List.ofFn τ) π (priorMass_nonneg (cell_pos hE.lattice_pos) hp) hl0).lt_or_eq with hpos | hz
  · have hs := sumLog_eq hE hL hp hR hlen hl0 hne hpos
    rw [hP, dropLast_prod τ fun t => massOut E R tm t 1] at hs
    by_cases heo : eo = true
    · obtain ⟨S', h1, h2, -⟩ := fit_fwdOnly (grid := grid) hE hL hp hR hlen hl0 hpos true
      exact ⟨S', by rw [heo, fit_eo_irrel]; exact h1, by rw [h2, hs]⟩
    · have heo : eo = false := by simpa using heo
      by_cases hfo : fo = true
      · obtain ⟨S', h1, h2, -⟩ := fit_fwdOnly (grid := grid) hE hL hp hR hlen hl0 hpos false
        exact ⟨S', by rw [heo, hfo]; exact h1, by rw [h2, hs]⟩
      · have hfo : fo = false := by simpa using hfo
        obtain ⟨hU, u, hu⟩ := (hmode.resolve_left (by simp [heo])).resolve_left (by simp [hfo])
        obtain ⟨S', h1, h2, -⟩ := fit_full (grid := grid) hE hL hp hR u hu hlen (matched_ofFn τ hU) hl0 hpos
        exact ⟨S', by rw [heo, hfo]; exact h1, by rw [h2, hs]⟩
  · obtain ⟨S', h1, h2, -⟩ := fit_zero (grid := grid) hE hL hp hR hlen hl0 hne hz.symm fo eo
    refine ⟨S', h1, ?_⟩
    rw [h2, ← hP, ← hz]; simp

theorem linear_posterior {E : Env K gs} {grid : (a : Fin d) → Fin (gs a) → K} {tm : TM K}
    (hE : Regular E) (hL : Linear E tm) {R : K} {ρ : Idx gs → K} {S : FitState K gs} {π : Idx gs → K}
    (hp : PriorMass E.cell S.prior π) (hR : ResetCond E tm S.prior R ρ) {n : ℕ} {L : Fin (n + 1) → Idx gs → K} (hL0 : ∀ i x, 0 ≤ L i x)
    {τ : Fin (n + 1) → K} (hU : ∀ i : Fin n, kernel E ρ tm (τ i.succ - 1) = kernel E ρ tm (τ i.castSucc))
    (u : K) (hu : ResetFree tm ∨ ∀ x, ρ x = u)
    (hpos : evidence π (fun i : Fin n => kernel E ρ tm (τ i.castSucc)) L ≠ 0) :
    ∃ S', fit E grid tm (List.ofFn L) (List.ofFn τ) false false S = .ok S' ∧
      S'.posts = List.ofFn (fun i => .val (posterior π (fun i : Fin n => kernel E ρ tm (τ i.castSucc)) L i)) ∧
      (∀ a, S'.means a = List.ofFn fun i => mean grid a (posterior π (fun i : Fin n => kernel E ρ tm (τ i.castSucc)) L i)) ∧
      S'.locals = List.ofFn (fun i => localEv E (posterior π (fun i : Fin n => kernel E ρ tm (τ i.castSucc)) L i) (L i)) ∧
      (S.prior.isArray = false → S'.prior = S.prior) := by
  haveI := hE.nonempty
  have hK := kernel_stoch hE hL hR
  have hlen : (List.ofFn τ).length = (List.ofFn L).length := by simp
  have hl0 := ofFn_nonneg hL0
  have hP := pathEv_ofFn hK π L τ
  have h0 := (pathEv_nonneg hK (List.ofFn L) (List.ofFn τ) π (priorMass_nonneg (cell_pos hE.lattice_pos) hp) hl0)
  have hpos' : 0 < pathEv (kernel E ρ tm) π (List.ofFn L) (List.ofFn τ) := lt_of_le_of_ne h0 (by rw [hP]; exact hpos.symm)
  obtain ⟨S', h1, h2, h3, h4, h5, h6⟩ := fit_full (grid := grid) hE hL hp hR u hu hlen (matched_ofFn τ hU) hl0 hpos'
  have hsm := smooth_ofFn hK π L τ (matched_ofFn τ hU)
  rw [hsm] at h3 h4 h5
  refine ⟨S', h1, ?_, ?_, ?_, h6⟩
  · rw [h3, List.map_ofFn]; rfl
  · intro a; rw [h4 a, List.map_ofFn]; rfl
  · rw [h5]
    apply List.ext_getElem
    · simp
    · intro i h1 h2; simp only [List.getElem_zipWith, List.getElem_ofFn]

theorem fwdSteps_alpha {Ker : K → Idx gs → Idx gs → K} (hK : Stoch Ker) {m : K → K} :
    ∀ {n : ℕ} (c : K) (π : Idx gs → K) (L : Fin (n + 1) → Idx gs → K) (τ : Fin (n + 1) → K),
    (fwdSteps m Ker c π (List.ofFn L) (List.ofFn τ)).map Step.alpha =
      List.ofFn fun i => filtering π (fun j : Fin i.val => Ker (upTo i τ j.castSucc)) (upTo i L)
  | 0, c, π, L, τ => by
      simp only [List.ofFn_succ, List.ofFn_zero, fwdSteps, List.map_cons, List.map_nil]
      congr 1
      funext x
      rw [filtering, posterior]
      have h : Fin.last (Fin.val (0 : Fin (0 + 1))) = 0 := rfl
      rw [h, marginal_zero]
      have h2 : evidence π (fun j : Fin (Fin.val (0 : Fin (0 + 1))) => Ker (upTo 0 τ j.castSucc)) (upTo 0 L) = ∑ x, π x * L 0 x :=
        evidence_zero π _ _
      rw [h2]
      have h3 : future (fun j : Fin (Fin.val (0 : Fin (0 + 1))) => Ker (upTo 0 τ j.castSucc)) (upTo 0 L) x = 1 := rfl
      rw [h3, mul_one]
      rfl
  | n + 1, c, π, L, τ => by
      have ih := fwdSteps_alpha hK (m := m) (m (τ 0) / ∑ y, π y * L 0 y) (advance (Ker (τ 0)) (L 0) π) (fun i => L i.succ) (fun i => τ i.succ)
      rw [List.ofFn_succ (f := L), List.ofFn_succ (f := τ), fwdSteps, List.map_cons, ih]
      conv_rhs => rw [List.ofFn_succ]
      congr 1
      · funext x
        rw [filtering, posterior]
        have h : Fin.last (Fin.val (0 : Fin (n + 1 + 1))) = 0 := rfl
        rw [h, marginal_zero]
        have h2 : evidence π (fun j : Fin (Fin.val (0 : Fin (n + 1 + 1))) => Ker (upTo 0 τ j.castSucc)) (upTo 0 L) = ∑ x, π x * L 0 x :=
          evidence_zero π _ _
        rw [h2]
        have h3 : future (fun j : Fin (Fin.val (0 : Fin (n + 1 + 1))) => Ker (upTo 0 τ j.castSucc)) (upTo 0 L) x = 1 := rfl
        rw [h3, mul_one]
        rfl
      · congr 1
        funext i x
        rw [filtering, filtering, posterior, posterior]
        have h := marginal_succ π (fun j : Fin (i.val + 1) => Ker (upTo i.succ τ j.castSucc)) (upTo i.succ L) (Fin.last i.val) x
        have h2 := evidence_succ π (fun j : Fin (i.val + 1) => Ker (upTo i.succ τ j.castSucc)) (upTo i.succ L)
        have e : (marginal π (fun j : Fin i.succ.val => Ker (upTo i.succ τ j.castSucc)) (upTo i.succ L) (Fin.last i.succ.val) x /
            evidence π (fun j : Fin i.succ.val => Ker (upTo i.succ τ j.castSucc)) (upTo i.succ L)) =
          marginal π (fun j : Fin (i.val + 1) => Ker (upTo i.succ τ j.castSucc)) (upTo i.succ L) (Fin.last i.val).succ x /
            evidence π (fun j : Fin (i.val + 1) => Ker (upTo i.succ τ j.castSucc)) (upTo i.succ L) := rfl
        rw [e, h, h2]
        rfl

theorem linear_filtering {E : Env K gs} {grid : (a : Fin d) → Fin (gs a) → K} {tm : TM K}
    (hE : Regular E) (hL : Linear E tm) {R : K} {ρ : Idx gs → K} {S : FitState K gs} {π : Idx gs → K}
    (hp : PriorMass E.cell S.prior π) (hR : ResetCond E tm S.prior R ρ) {n : ℕ} {L : Fin (n + 1) → Idx gs → K} (hL0 : ∀ i x, 0 ≤ L i x)
    {τ : Fin (n + 1) → K} (hpos : evidence π (fun i : Fin n => kernel E ρ tm (τ i.castSucc)) L ≠ 0) :
    ∃ S', fit E grid tm (List.ofFn L) (List.ofFn τ) true false S = .ok S' ∧
      S'.posts = List.ofFn (fun i => .val (filtering π (fun j : Fin i.val => kernel E ρ tm (upTo i τ j.castSucc)) (upTo i L))) ∧
      (∀ a, S'.means a = List.ofFn fun i => mean grid a (filtering π (fun j : Fin i.val => kernel E ρ tm (upTo i τ j.castSucc)) (upTo i L))) ∧
      (S.prior.isArray = false → S'.prior = S.prior) := by
  haveI := hE.nonempty
  have hK := kernel_stoch hE hL hR
  have hlen : (List.ofFn τ).length = (List.ofFn L).length := by simp
  have hl0 := ofFn_nonneg hL0
  have hP := pathEv_ofFn hK π L τ
  have h0 := (pathEv_nonneg hK (List.ofFn L) (List.ofFn τ) π (priorMass_nonneg (cell_pos hE.lattice_pos) hp) hl0)
  have hpos' : 0 < pathEv (kernel E ρ tm) π (List.ofFn L) (List.ofFn τ) := lt_of_le_of_ne h0 (by rw [hP]; exact hpos.symm)
  obtain ⟨S', h1, h2, h3, h4, h5, h6⟩ := fit_fwdOnly (grid := grid) hE hL hp hR hlen hl0 hpos' false
  obtain ⟨h7, h8⟩ := h4 rfl
  have ha := fwdSteps_alpha hK (m := fun t => massOut E R tm t 1) (1 / E.cell) π L τ
  refine ⟨S', h1, ?_, ?_, h6⟩
  · rw [h7]
    have : (fwdSteps (fun t => massOut E R tm t 1) (kernel E ρ tm) (1 / E.cell) π (List.ofFn L) (List.ofFn τ)).map (fun s => Cell.val s.alpha) =
      ((fwdSteps (fun t => massOut E R tm t 1) (kernel E ρ tm) (1 / E.cell) π (List.ofFn L) (List.ofFn τ)).map Step.alpha).map Cell.val := by
      rw [List.map_map]; rfl
    rw [this, ha, List.map_ofFn]; rfl
  · intro a
    rw [h8 a]
    have : (fwdSteps (fun t => massOut E R tm t 1) (kernel E ρ tm) (1 / E.cell) π (List.ofFn L) (List.ofFn τ)).map (fun s => mean grid a s.alpha) =
      ((fwdSteps (fun t => massOut E R tm t 1) (kernel E ρ tm) (1 / E.cell) π (List.ofFn L) (List.ofFn τ)).map Step.alpha).map (mean grid a) := by
      rw [List.map_map]; rfl
    rw [this, ha, List.map_ofFn]; rfl

end BL
