import Verif.Props.Ex
import Verif.Lemmas.Static
import Verif.Lemmas.Nonneg

/-! # C13, C14: local evidences -/

set_option linter.unusedSectionVars false

namespace Spec
variable {ι K : Type} [Fintype ι] [DecidableEq ι] [Field K]

/-- probability of the data points `0..i` -/
def evidenceUpTo {n : ℕ} (π : ι → K) (T : Fin (n + 1) → ι → ι → K) (L : Fin (n + 1) → ι → K) (i : Fin (n + 1)) : K :=
  evidence π (fun j : Fin i.val => upTo i T j.castSucc) (upTo i L)

/-- probability of data point `i` given the preceding ones; `T i` = transition after data point `i` -/
def predictive {n : ℕ} (π : ι → K) (T : Fin (n + 1) → ι → ι → K) (L : Fin (n + 1) → ι → K) (i : Fin (n + 1)) : K :=
  Fin.cases (evidenceUpTo π T L 0) (fun j => evidenceUpTo π T L j.succ / evidenceUpTo π T L j.castSucc) i

/-- probability of data point `i` given all other ones (`Function.update L i 1`: data point `i` is not observed) -/
def leaveOneOut {n : ℕ} (π : ι → K) (T : Fin n → ι → ι → K) (L : Fin (n + 1) → ι → K) (i : Fin (n + 1)) : K :=
  evidence π T L / evidence π T (Function.update L i fun _ => 1)

theorem marginal_update {n : ℕ} (π : ι → K) (T : Fin n → ι → ι → K) (L : Fin (n + 1) → ι → K) (i : Fin (n + 1)) (x : ι) :
    marginal π T L i x = marginal π T (Function.update L i fun _ => 1) i x * L i x := by
  unfold marginal
  rw [Finset.sum_mul]
  refine Finset.sum_congr rfl fun z hz => ?_
  have hz : z i = x := by simpa using hz
  unfold pathWeight
  rw [← Finset.mul_prod_erase Finset.univ (fun i => L i (z i)) (Finset.mem_univ i),
    ← Finset.mul_prod_erase Finset.univ (fun j => Function.update L i (fun _ => 1) j (z j)) (Finset.mem_univ i)]
  have : ∏ j ∈ Finset.univ.erase i, Function.update L i (fun _ => (1 : K)) j (z j) = ∏ j ∈ Finset.univ.erase i, L j (z j) :=
    Finset.prod_congr rfl fun j hj => by rw [Function.update_of_ne (Finset.ne_of_mem_erase hj)]
  rw [this, hz]
  simp; ring

end Spec

namespace Props
open BL Spec

variable {K : Type} [Field K] [LinearOrder K] [IsStrictOrderedRing K] {d : ℕ} {gs : Fin d → ℕ}

theorem fwdSteps_norm {Ker : K → Idx gs → Idx gs → K} :
    ∀ {n : ℕ} (c : K) (π : Idx gs → K) (L : Fin (n + 1) → Idx gs → K) (τ : Fin (n + 1) → K),
    (fwdSteps (fun _ => 1) Ker c π (List.ofFn L) (List.ofFn τ)).map Step.norm =
      List.ofFn fun i : Fin (n + 1) => Fin.cases (motive := fun _ => K) (c * evidenceUpTo π (fun i => Ker (τ i)) L 0)
        (fun j => evidenceUpTo π (fun i => Ker (τ i)) L j.succ / evidenceUpTo π (fun i => Ker (τ i)) L j.castSucc) i
  | 0, c, π, L, τ => by
      simp only [List.ofFn_succ, List.ofFn_zero, fwdSteps, List.map_cons, List.map_nil, Fin.cases_zero]
      have h2 : evidenceUpTo π (fun i => Ker (τ i)) L 0 = ∑ x, π x * L 0 x := evidence_zero π _ _
      rw [h2]
  | n + 1, c, π, L, τ => by
      have ih := fwdSteps_norm (Ker := Ker) (1 / ∑ y, π y * L 0 y) (advance (Ker (τ 0)) (L 0) π) (fun i => L i.succ) (fun i => τ i.succ)
      have h0 : evidenceUpTo π (fun i => Ker (τ i)) L 0 = ∑ x, π x * L 0 x := evidence_zero π _ _
      have hs : ∀ j : Fin (n + 1), evidenceUpTo π (fun i => Ker (τ i)) L j.succ =
          evidenceUpTo (advance (Ker (τ 0)) (L 0) π) (fun i => Ker (τ i.succ)) (fun i => L i.succ) j := fun j =>
        evidence_succ π (fun k : Fin (j.val + 1) => Ker (upTo j.succ τ k.castSucc)) (upTo j.succ L)
      rw [List.ofFn_succ (f := L), List.ofFn_succ (f := τ), fwdSteps, List.map_cons, ih]
      conv_rhs => rw [List.ofFn_succ]
      congr 1
      · simp only [Fin.cases_zero]; rw [h0]
      · congr 1
        funext i
        refine Fin.cases ?_ (fun j => ?_) i
        · simp only [Fin.cases_zero, Fin.cases_succ]
          rw [hs 0, Fin.castSucc_zero, h0, one_div, inv_mul_eq_div]
        · simp only [Fin.cases_succ]
          rw [hs j.succ, ← Fin.succ_castSucc, hs j.castSucc]

/-- The claim C13 for one study. -/
def C13_claim {K : Type} [Field K] [LinearOrder K] {d : ℕ} {gs : Fin d → ℕ} (E : Env K gs) (grid : (a : Fin d) → Fin (gs a) → K) (tm : TM K) : Prop :=
  ∀ (S : FitState K gs) (π : Idx gs → K), PriorMass E.cell S.prior π →
    ∀ (n : ℕ) (L : Fin (n + 1) → Idx gs → K), (∀ i x, 0 ≤ L i x) → ∀ (τ : Fin (n + 1) → K),
    evidence π (fun i : Fin n => kernel E π tm (τ i.castSucc)) L ≠ 0 →
    ∃ S', fit E grid tm (List.ofFn L) (List.ofFn τ) true false S = .ok S' ∧
      S'.locals = List.ofFn fun i => .val (predictive π (fun i => kernel E π tm (τ i)) L i)

/-- **C13 (exact value).** Path-sum models, all data and priors: the local evidence stored by the forward-only fit is the predictive probability of
the data point, multiplied by the cell volume of the grid for every point but the first. -/
theorem C13_exact (E : Env K gs) (grid : (a : Fin d) → Fin (gs a) → K) (tm : TM K)
    (hE : Regular E) (hL : Linear E tm) (hR : ResetFree tm) (S : FitState K gs) (π : Idx gs → K) (hp : PriorMass E.cell S.prior π)
    {n : ℕ} (L : Fin (n + 1) → Idx gs → K) (hL0 : ∀ i x, 0 ≤ L i x) (τ : Fin (n + 1) → K)
    (hpos : evidence π (fun i : Fin n => kernel E π tm (τ i.castSucc)) L ≠ 0) :
    ∃ S', fit E grid tm (List.ofFn L) (List.ofFn τ) true false S = .ok S' ∧
      S'.locals = List.ofFn fun i => .val (predictive π (fun i => kernel E π tm (τ i)) L i * if i = 0 then 1 else E.cell) := by
  haveI := hE.nonempty
  have hRC : ResetCond E tm S.prior 1 π := Or.inl hR
  have hK := kernel_stoch hE hL hRC
  have hlen : (List.ofFn τ).length = (List.ofFn L).length := by simp
  have hl0 := ofFn_nonneg hL0
  have hP := pathEv_ofFn hK π L τ
  have h0 := (pathEv_nonneg hK (List.ofFn L) (List.ofFn τ) π (priorMass_nonneg (cell_pos hE.lattice_pos) hp) hl0)
  have hpos' : 0 < pathEv (kernel E π tm) π (List.ofFn L) (List.ofFn τ) := lt_of_le_of_ne h0 (by rw [hP]; exact hpos.symm)
  obtain ⟨S', h1, -, h3, -⟩ := fit_fwdOnly (grid := grid) hE hL hp hRC hlen hl0 hpos' false
  refine ⟨S', h1, ?_⟩
  have hmo : (fun t => massOut E 1 tm t 1) = fun _ => (1 : K) := funext fun t => massOut_resetFree tm hR t 1
  rw [hmo] at h3
  have : ∀ l : List (Step K gs), l.map (fun s => Cell.val (s.norm * E.cell)) = (l.map Step.norm).map fun v => .val (v * E.cell) := by
    intro l; rw [List.map_map]; rfl
  have hc : E.cell ≠ 0 := (cell_pos hE.lattice_pos).ne'
  rw [h3, this, fwdSteps_norm, List.map_ofFn]
  congr 1
  funext i
  refine Fin.cases ?_ (fun j => ?_) i
  · simp only [Function.comp, Fin.cases_zero, predictive, if_true]
    congr 1; field_simp
  · simp only [Function.comp, Fin.cases_succ, predictive, Fin.succ_ne_zero, if_false]

/-- **C13 (part that holds).** Exact for cell volume one. -/
theorem C13_partial (E : Env K gs) (grid : (a : Fin d) → Fin (gs a) → K) (tm : TM K)
    (hE : Regular E) (hL : Linear E tm) (hR : ResetFree tm) (hc : E.cell = 1) : C13_claim E grid tm := by
  intro S π hp n L hL0 τ hpos
  obtain ⟨S', h1, h2⟩ := C13_exact E grid tm hE hL hR S π hp L hL0 τ hpos
  exact ⟨S', h1, by rw [h2]; simp [hc]⟩

example : C13_claim (Ex.env Ex.gs3 1) (Ex.grid Ex.gs3) Ex.nested :=
  C13_partial _ _ _ (Ex.regular3 (by norm_num)) (Ex.nested_linear _ _) Ex.nested_resetFree (by decide +kernel)

/-- the numbers stored as local evidence -/
def localTable {gs : Fin 1 → ℕ} (r : Except PyErr (FitState ℚ gs)) : Option (List (Cell ℚ)) :=
  match r with
  | .ok s => some s.locals
  | .error _ => none

/-- **C13 refuted** for cell volume 1/2. -/
theorem C13_refuted : ¬ C13_claim (Ex.env Ex.gs2 (1 / 2)) (Ex.grid Ex.gs2) Ex.static := by
  intro h
  obtain ⟨S', h1, h2⟩ := h (Ex.S0 .none) _ .flat 1 ![Ex.v2 1 1, Ex.v2 1 1] (by decide +kernel) ![0, 1] (by decide +kernel)
  have e : localTable (fit (Ex.env Ex.gs2 (1 / 2)) (Ex.grid Ex.gs2) Ex.static (List.ofFn ![Ex.v2 1 1, Ex.v2 1 1]) (List.ofFn ![0, 1]) true false (Ex.S0 .none)) = some S'.locals := by
    rw [h1]; rfl
  rw [h2] at e
  revert e
  decide +kernel

/-- **C13 (product).** For EVERY transition model: the product of the stored forward local evidences is the evidence times the cell volume to
the power (number of data points − 1). -/
theorem C13_product (E : Env K gs) (grid : (a : Fin d) → Fin (gs a) → K) (tm : TM K) (Ls : List (Idx gs → K)) (ts : List K)
    (hne : Ls ≠ []) (S S' : FitState K gs) (h : fit E grid tm Ls ts true false S = .ok S') (hfin : S'.logEv ≠ LogV.ninf) :
    ∃ v : List K, S'.locals = v.map .val ∧ v.length = Ls.length ∧ v.prod = S'.logEv.exp * E.cell ^ (Ls.length - 1) := by
  simp only [fit, bind, Except.bind] at h
  split at h
  · simp at h
  · split at h
    · simp at h
    · rename_i _ ap hap _ r hr
      obtain ⟨-, hlen⟩ := fwdPass_sum _ _ _ _ _ _ hr
      split at h
      · cases h; simp at hfin
      · rename_i hst
        have hlen := hlen (by simpa using hst)
        simp only [Bool.false_eq_true, if_false, if_true] at h
        cases h
        refine ⟨r.steps.map fun s => s.norm * E.cell, by simp, by simp [hlen], ?_⟩
        rw [sumLog_exp]
        have : ∀ l : List (Step K gs), (l.map fun s => s.norm * E.cell).prod = normProd l * E.cell ^ l.length := by
          intro l
          induction l with
          | nil => simp [normProd]
          | cons s l ih =>
              simp only [normProd, List.map_cons, List.prod_cons, List.length_cons, pow_succ] at ih ⊢
              rw [ih]; ring
        rw [this, hlen]
        obtain ⟨n, hn⟩ : ∃ n, Ls.length = n + 1 := ⟨Ls.length - 1, by have := List.length_pos_iff.2 hne; omega⟩
        rw [hn, pow_succ, Nat.add_sub_cancel]; ring

example : ∃ S1, fit (Ex.env Ex.gs2 3) (Ex.grid Ex.gs2) Ex.regime [Ex.v2 1 2, Ex.v2 3 1] [0, 1] true false (Ex.S0 .none) = .ok S1 ∧ S1.logEv ≠ LogV.ninf :=
  Ex.ok_of_ev (by decide +kernel)

/-- The claim C14 for one study (unit-spaced timestamps). -/
def C14_claim {K : Type} [Field K] [LinearOrder K] {d : ℕ} {gs : Fin d → ℕ} (E : Env K gs) (grid : (a : Fin d) → Fin (gs a) → K) (tm : TM K)
    (pos : Prop) : Prop :=
  ∀ (S : FitState K gs) (π : Idx gs → K), PriorMass E.cell S.prior π →
    ∀ (n : ℕ) (L : Fin (n + 1) → Idx gs → K), (∀ i x, 0 ≤ L i x) → (pos → ∀ i x, L i x ≠ 0) →
    ∀ (τ : Fin (n + 1) → K), (∀ i : Fin n, τ i.succ = τ i.castSucc + 1) →
    evidence π (fun i : Fin n => kernel E π tm (τ i.castSucc)) L ≠ 0 →
    ∃ S', fit E grid tm (List.ofFn L) (List.ofFn τ) false false S = .ok S' ∧
      S'.locals = List.ofFn fun i => .val (leaveOneOut π (fun i : Fin n => kernel E π tm (τ i.castSucc)) L i)

theorem sum_div_lik {n : ℕ} {π : Idx gs → K} {T : Fin n → Idx gs → Idx gs → K} {L : Fin (n + 1) → Idx gs → K} (hpos : ∀ i x, L i x ≠ 0) (i : Fin (n + 1)) :
    ∑ x, posterior π T L i x / L i x = evidence π T (Function.update L i fun _ => 1) / evidence π T L := by
  rw [evidence_eq_sum_marginal π T (Function.update L i fun _ => 1) i, Finset.sum_div]
  refine Finset.sum_congr rfl fun x _ => ?_
  rw [posterior, marginal_update]
  have := hpos i x
  field_simp

/-- **C14 (exact value).** If no likelihood vanishes, the local evidence stored by the full fit is the leave-one-out predictive probability DIVIDED by the cell
volume. -/
theorem C14_exact (E : Env K gs) (grid : (a : Fin d) → Fin (gs a) → K) (tm : TM K)
    (hE : Regular E) (hL : Linear E tm) (hR : ResetFree tm) (S : FitState K gs) (π : Idx gs → K) (hp : PriorMass E.cell S.prior π)
    {n : ℕ} (L : Fin (n + 1) → Idx gs → K) (hL0 : ∀ i x, 0 < L i x) (τ : Fin (n + 1) → K)
    (hU : ∀ i : Fin n, τ i.succ = τ i.castSucc + 1)
    (hpos : evidence π (fun i : Fin n => kernel E π tm (τ i.castSucc)) L ≠ 0) :
    ∃ S', fit E grid tm (List.ofFn L) (List.ofFn τ) false false S = .ok S' ∧
      S'.locals = List.ofFn fun i => .val (leaveOneOut π (fun i : Fin n => kernel E π tm (τ i.castSucc)) L i / E.cell) := by
  haveI := hE.nonempty
  have hRC : ResetCond E tm S.prior 1 π := Or.inl hR
  obtain ⟨S', h1, -, -, h4, -⟩ := linear_posterior (grid := grid) hE hL hp hRC (fun i x => (hL0 i x).le) (τ := τ) (matched_of_unit hU) 0 (Or.inl hR) hpos
  refine ⟨S', h1, ?_⟩
  rw [h4]
  congr 1
  funext i
  have hne : ∀ i x, L i x ≠ 0 := fun i x => (hL0 i x).ne'
  have hK := kernel_stoch hE hL hRC
  have hupd : evidence π (fun i : Fin n => kernel E π tm (τ i.castSucc)) (Function.update L i fun _ => 1) ≠ 0 := by
    intro h0
    have hm : ∀ x, marginal π (fun i : Fin n => kernel E π tm (τ i.castSucc)) (Function.update L i fun _ => 1) i x = 0 := by
      intro x
      have hnn : ∀ y, 0 ≤ marginal π (fun i : Fin n => kernel E π tm (τ i.castSucc)) (Function.update L i fun _ => 1) i y := by
        intro y
        refine Finset.sum_nonneg fun z _ => pathWeight_nonneg (priorMass_nonneg (cell_pos hE.lattice_pos) hp) (fun j => hK.nonneg _) ?_ z
        intro j y
        by_cases hj : j = i
        · subst hj; simp
        · rw [Function.update_of_ne hj]; exact (hL0 j y).le
      have := (Finset.sum_eq_zero_iff_of_nonneg fun y _ => hnn y).1 ((evidence_eq_sum_marginal _ _ _ i).symm.trans h0) x (Finset.mem_univ x)
      exact this
    apply hpos
    rw [evidence_eq_sum_marginal _ _ _ i]
    exact Finset.sum_eq_zero fun x _ => by rw [marginal_update, hm x, zero_mul]
  have hc : E.cell ≠ 0 := (cell_pos hE.lattice_pos).ne'
  unfold localEv
  rw [if_neg (by rintro ⟨x, hx, -⟩; exact hne i x hx), if_neg (by rintro ⟨x, hx⟩; exact hne i x hx), sum_div_lik hne,
    if_neg (mul_ne_zero (div_ne_zero hupd hpos) hc)]
  congr 1
  unfold leaveOneOut
  field_simp

/-- **C14 (part that holds).** Exact for cell volume one and positive likelihoods. -/
theorem C14_partial (E : Env K gs) (grid : (a : Fin d) → Fin (gs a) → K) (tm : TM K)
    (hE : Regular E) (hL : Linear E tm) (hR : ResetFree tm) (hc : E.cell = 1) : C14_claim E grid tm True := by
  intro S π hp n L hL0 hne τ hU hpos
  obtain ⟨S', h1, h2⟩ := C14_exact E grid tm hE hL hR S π hp L (fun i x => lt_of_le_of_ne (hL0 i x) (hne trivial i x).symm) τ hU hpos
  exact ⟨S', h1, by rw [h2]; simp [hc]⟩

example : C14_claim (Ex.env Ex.gs3 1) (Ex.grid Ex.gs3) Ex.nested True :=
  C14_partial _ _ _ (Ex.regular3 (by norm_num)) (Ex.nested_linear _ _) Ex.nested_resetFree (by decide +kernel)

/-- **C14 refuted** for cell volume 1/2 (positive likelihoods). -/
theorem C14_refuted_cell : ¬ C14_claim (Ex.env Ex.gs2 (1 / 2)) (Ex.grid Ex.gs2) Ex.static True := by
  intro h
  obtain ⟨S', h1, h2⟩ := h (Ex.S0 .none) _ .flat 1 ![Ex.v2 1 2, Ex.v2 1 1] (by decide +kernel) (by decide +kernel) ![0, 1] (by decide +kernel) (by decide +kernel)
  have e : localTable (fit (Ex.env Ex.gs2 (1 / 2)) (Ex.grid Ex.gs2) Ex.static (List.ofFn ![Ex.v2 1 2, Ex.v2 1 1]) (List.ofFn ![0, 1]) false false (Ex.S0 .none)) = some S'.locals := by
    rw [h1]; rfl
  rw [h2] at e
  revert e
  decide +kernel

/-- **C14 refuted** for likelihoods with zeros (cell volume one): the stored value is `nan`. -/
theorem C14_refuted_zero : ¬ C14_claim (Ex.env Ex.gs2 1) (Ex.grid Ex.gs2) Ex.static False := by
  intro h
  obtain ⟨S', h1, h2⟩ := h (Ex.S0 .none) _ .flat 1 ![Ex.v2 1 0, Ex.v2 1 1] (by decide +kernel) (by decide) ![0, 1] (by decide +kernel) (by decide +kernel)
  have e : localTable (fit (Ex.env Ex.gs2 1) (Ex.grid Ex.gs2) Ex.static (List.ofFn ![Ex.v2 1 0, Ex.v2 1 1]) (List.ofFn ![0, 1]) false false (Ex.S0 .none)) = some S'.locals := by
    rw [h1]; rfl
  rw [h2] at e
  revert e
  decide +kernel

/-- the value in the refutation -/
example : localTable (fit (Ex.env Ex.gs2 1) (Ex.grid Ex.gs2) Ex.static [Ex.v2 1 0, Ex.v2 1 1] [0, 1] false false (Ex.S0 .none)) =
    some [.nan, .val 1] := by decide +kernel

end Props
