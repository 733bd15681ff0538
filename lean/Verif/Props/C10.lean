import Verif.Props.Ex
import Verif.Lemmas.Static
import Verif.Model.Observation

/-! # C10, C11: missing data; the Static model -/

set_option linter.unusedSectionVars false

namespace Props
open BL Spec

variable {K : Type} [Field K] [LinearOrder K] [IsStrictOrderedRing K] {d : ℕ} {gs : Fin d → ℕ}

/-- **C11.** With the Static model, for every prior, data and timestamps: the evidence is `Σ prior × product of all likelihoods`, and
all posteriors of the full fit are equal to the normalised `prior × product of all likelihoods`. -/
theorem C11_one_shot (E : Env K gs) (grid : (a : Fin d) → Fin (gs a) → K) (hE : Regular E)
    (nm : List String) (vs : List (HVal K)) (hpr : Option (Nest (HPrior K))) (S : FitState K gs) (π : Idx gs → K)
    (hp : PriorMass E.cell S.prior π) (Ls : List (Idx gs → K)) (ts : List K)
    (hne : Ls ≠ []) (hlen : ts.length = Ls.length) (hL0 : ∀ L ∈ Ls, ∀ x, 0 ≤ L x) (fo eo : Bool) :
    ∃ S', fit E grid (.leaf .static nm vs hpr) Ls ts fo eo S = .ok S' ∧
      S'.logEv.exp = ∑ x, π x * (Ls.map (· x)).prod ∧
      ((∑ x, π x * (Ls.map (· x)).prod) ≠ 0 → fo = false → eo = false →
        S'.posts = List.replicate Ls.length (.val fun x => π x * (Ls.map (· x)).prod / ∑ y, π y * (Ls.map (· y)).prod)) := by
  obtain ⟨S', h1, h2, h3⟩ := static_fit (grid := grid) (nm := nm) (vs := vs) (hpr := hpr) hE hp hne hlen hL0 fo eo
  exact ⟨S', h1, h2, fun h4 h5 h6 => ((h3 h4 h6).1 h5).1⟩

/-- **C11 (order).** Permuting the data changes neither the evidence (in any mode) nor the posteriors and means of the full fit nor the last posterior of
the forward-only fit. -/
theorem C11_order (E : Env K gs) (grid : (a : Fin d) → Fin (gs a) → K) (hE : Regular E)
    (nm : List String) (vs : List (HVal K)) (hpr : Option (Nest (HPrior K))) (S : FitState K gs) (π : Idx gs → K)
    (hp : PriorMass E.cell S.prior π) (Ls Ls' : List (Idx gs → K)) (ts ts' : List K) (hperm : Ls.Perm Ls')
    (hne : Ls ≠ []) (hlen : ts.length = Ls.length) (hlen' : ts'.length = Ls'.length) (hL0 : ∀ L ∈ Ls, ∀ x, 0 ≤ L x) (fo eo : Bool) :
    ∃ S1 S2, fit E grid (.leaf .static nm vs hpr) Ls ts fo eo S = .ok S1 ∧
      fit E grid (.leaf .static nm vs hpr) Ls' ts' fo eo S = .ok S2 ∧ S1.logEv = S2.logEv ∧
      (S1.logEv ≠ LogV.ninf → eo = false → (fo = false → S1.posts = S2.posts ∧ S1.means = S2.means) ∧
        S1.posts.getLast? = S2.posts.getLast?) := by
  have hne' : Ls' ≠ [] := fun h => hne (by rw [h] at hperm; exact hperm.eq_nil)
  obtain ⟨S1, h1, h2, h3⟩ := static_fit (grid := grid) (nm := nm) (vs := vs) (hpr := hpr) hE hp hne hlen hL0 fo eo
  obtain ⟨S2, g1, g2, g3⟩ := static_fit (grid := grid) (nm := nm) (vs := vs) (hpr := hpr) hE hp hne' hlen'
    (fun L h => hL0 L (hperm.mem_iff.2 h)) fo eo
  have hprod : ∀ x, (Ls.map (· x)).prod = (Ls'.map (· x)).prod := fun x => (hperm.map _).prod_eq
  simp only [← hprod, ← hperm.length_eq] at g2 g3
  refine ⟨S1, S2, h1, g1, LogV.ext_exp (h2.trans g2.symm), ?_⟩
  intro hfin heo
  have hpos : (∑ x, π x * (Ls.map (· x)).prod) ≠ 0 := by
    rw [← h2]; intro h; exact hfin (LogV.ext_exp h)
  have hn : 0 < Ls.length := List.length_pos_iff.2 hne
  cases fo with
  | false =>
      obtain ⟨a1, a2⟩ := (h3 hpos heo).1 rfl
      obtain ⟨b1, b2⟩ := (g3 hpos heo).1 rfl
      refine ⟨fun _ => ⟨a1.trans b1.symm, funext fun a => (a2 a).trans (b2 a).symm⟩, by rw [a1, b1]⟩
  | true =>
      refine ⟨by simp, ?_⟩
      rw [(h3 hpos heo).2 rfl, (g3 hpos heo).2 rfl, List.getLast?_map, List.getLast?_map]
      have : (List.range Ls.length).getLast? = some (Ls.length - 1) := by
        rw [List.getLast?_range, if_neg (by omega)]
      rw [this]
      simp only [Option.map_some]
      have e : Ls.length - 1 + 1 = Ls.length := by omega
      rw [e, List.take_length]
      conv_rhs => rw [hperm.length_eq, List.take_length]
      simp only [hprod]

example : ∃ S1 S2, fit (Ex.env Ex.gs2 (1 / 2)) (Ex.grid Ex.gs2) Ex.static [Ex.v2 1 2, Ex.v2 3 1, Ex.v2 0 1] [0, 1, 2] false false (Ex.S0 (.func (Ex.v2 1 3))) = .ok S1 ∧
      fit (Ex.env Ex.gs2 (1 / 2)) (Ex.grid Ex.gs2) Ex.static [Ex.v2 0 1, Ex.v2 3 1, Ex.v2 1 2] [0, 1, 5] false false (Ex.S0 (.func (Ex.v2 1 3))) = .ok S2 ∧
      S1.logEv = S2.logEv ∧
      (S1.logEv ≠ LogV.ninf → false = false → (false = false → S1.posts = S2.posts ∧ S1.means = S2.means) ∧
        S1.posts.getLast? = S2.posts.getLast?) :=
  C11_order _ _ (Ex.regular2 (by norm_num)) _ _ _ _ _
    (.func _ (by decide +kernel) (by decide +kernel) (Or.inl (by decide +kernel))) _ _ _ _
    (List.reverse_perm [Ex.v2 0 1, Ex.v2 3 1, Ex.v2 1 2]) (by simp) rfl rfl (by decide +kernel) _ _

/-- **C10 (likelihood).** A data segment with a missing value gets the likelihood one at every grid point. -/
theorem C10_missing (mult : Bool) (pdf : Seg K → Idx gs → K) (xs : List (Option K)) (h : none ∈ xs) :
    processedPdf mult pdf (.flat xs) = fun _ => 1 := by
  have : (Seg.flat xs).missing = true := by
    simp only [Seg.missing, List.any_eq_true]
    exact ⟨none, h, rfl⟩
  simp [processedPdf, pdfOrOnes, this]

/-- **C10 (components).** For multi-dimensional data the likelihood is the product of the likelihoods of those components
that have no missing value. -/
theorem C10_components (pdf : Seg K → Idx gs → K) (w : ℕ) (xs : List (Fin w → Option K)) (x : Idx gs) :
    processedPdf true pdf (.rows w xs) x =
      ∏ j : Fin w with ∀ r ∈ xs, r j ≠ none, pdf (.flat (xs.map fun r => r j)) x := by
  simp only [processedPdf, if_true]
  rw [← List.ofFn_eq_map, List.prod_ofFn, Finset.prod_filter]
  refine Finset.prod_congr rfl fun j _ => ?_
  unfold pdfOrOnes column
  by_cases h : ∀ r ∈ xs, r j ≠ none
  · have hm : ¬ (Seg.flat (xs.map fun r => r j)).missing = true := by
      simp only [Seg.missing, List.any_map, List.any_eq_true, Function.comp, not_exists, not_and]
      intro r hr; have := h r hr
      cases h' : r j with
      | none => exact absurd h' this
      | some v => simp
    rw [if_neg hm, if_pos h]
  · have hm : (Seg.flat (xs.map fun r => r j)).missing = true := by
      simp only [not_forall, not_not] at h
      obtain ⟨r, hr, h⟩ := h
      simp only [Seg.missing, List.any_map, List.any_eq_true, Function.comp]
      exact ⟨r, hr, by rw [h]; rfl⟩
    rw [if_pos hm, if_neg h]

/-- likelihood of the second component only -/
example : processedPdf (gs := Ex.gs2) true (fun s _ => match s with | .flat [some v] => v | _ => 0)
    (.rows 2 [![none, some (7 : ℚ)]]) = fun _ => 7 := by
  funext x
  rw [C10_components]
  decide +kernel +revert

/-- **C10 (evidence).** Path-sum models: the evidence is the sum over all paths of prior × transition probabilities × the likelihoods of the
observed data points only; `obs i = none`: data point `i` is missing. -/
theorem C10_evidence (E : Env K gs) (grid : (a : Fin d) → Fin (gs a) → K) (tm : TM K)
    (hE : Regular E) (hL : Linear E tm) (hR : ResetFree tm) (S : FitState K gs) (π : Idx gs → K) (hp : PriorMass E.cell S.prior π)
    (mult : Bool) (pdf : Seg K → Idx gs → K) (hpdf : ∀ s x, 0 ≤ pdf s x)
    {n : ℕ} (data : Fin (n + 1) → List (Option K)) (τ : Fin (n + 1) → K) (fo : Bool) :
    ∃ S', fit E grid tm (List.ofFn fun i => processedPdf mult pdf (.flat (data i))) (List.ofFn τ) true fo S = .ok S' ∧
      S'.logEv.exp = ∑ z : Fin (n + 1) → Idx gs, π (z 0) * (∏ i : Fin n, kernel E π tm (τ i.castSucc) (z i.castSucc) (z i.succ)) *
        ∏ i with none ∉ data i, pdf (.flat (data i)) (z i) := by
  have hL0 : ∀ i x, 0 ≤ processedPdf (gs := gs) mult pdf (.flat (data i)) x := by
    intro i x
    simp only [processedPdf, pdfOrOnes]
    split
    · exact zero_le_one
    · exact hpdf _ _
  obtain ⟨S', h1, h2⟩ := linear_evidence (grid := grid) hE hL hp (Or.inl hR : ResetCond E tm S.prior 1 π) hL0 (τ := τ) (fo := true) (eo := fo) (Or.inr (Or.inl rfl))
  refine ⟨S', h1, ?_⟩
  have hmo : ∀ t, massOut E 1 tm t 1 = 1 := fun t => massOut_resetFree tm hR t 1
  rw [h2]
  simp only [hmo, Finset.prod_const_one, mul_one, evidence, pathWeight]
  refine Finset.sum_congr rfl fun z _ => ?_
  congr 1
  rw [Finset.prod_filter]
  refine Finset.prod_congr rfl fun i _ => ?_
  by_cases h : none ∈ data i
  · rw [C10_missing mult pdf _ h]; simp [h]
  · rw [if_pos h]
    have hm : ¬ (Seg.flat (data i)).missing = true := by
      simp only [Seg.missing, List.any_eq_true, not_exists, not_and]
      intro r hr
      cases r with
      | none => exact absurd hr h
      | some v => simp
    simp [processedPdf, pdfOrOnes, hm]

/-- **C10 (prediction).** If the last data point is missing, the evidence is that of the preceding data, and the posterior stored for the
missing point is the preceding posterior moved by the transition probabilities. -/
theorem C10_prediction (E : Env K gs) (grid : (a : Fin d) → Fin (gs a) → K) (tm : TM K)
    (hE : Regular E) (hL : Linear E tm) (hR : ResetFree tm) (S : FitState K gs) (π : Idx gs → K) (hp : PriorMass E.cell S.prior π)
    {n : ℕ} (L : Fin (n + 1) → Idx gs → K) (hL0 : ∀ i x, 0 ≤ L i x) (τ : Fin (n + 1) → K) (t : K)
    (hpos : evidence π (fun i : Fin n => kernel E π tm (τ i.castSucc)) L ≠ 0) :
    ∃ S1 S2 p q, fit E grid tm (List.ofFn L) (List.ofFn τ) true false S = .ok S1 ∧
      fit E grid tm (List.ofFn L ++ [fun _ => 1]) (List.ofFn τ ++ [t]) true false S = .ok S2 ∧
      S2.logEv = S1.logEv ∧ S1.posts.getLast? = some (.val p) ∧ S2.posts = S1.posts ++ [.val q] ∧
      ∀ y, q y = ∑ x, p x * kernel E π tm (τ (Fin.last n)) x y := by
  haveI := hE.nonempty
  have hRC : ResetCond E tm S.prior 1 π := Or.inl hR
  have hKst := kernel_stoch hE hL hRC
  let L' : Fin (n + 2) → Idx gs → K := Fin.snoc (α := fun _ => Idx gs → K) L fun _ => 1
  let τ' : Fin (n + 2) → K := Fin.snoc (α := fun _ => K) τ t
  have eL : List.ofFn L ++ [fun _ => 1] = List.ofFn L' := by
    conv_rhs => rw [List.ofFn_succ', List.concat_eq_append]
    simp only [L', Fin.snoc_castSucc, Fin.snoc_last]
  have eτ : List.ofFn τ ++ [t] = List.ofFn τ' := by
    conv_rhs => rw [List.ofFn_succ', List.concat_eq_append]
    simp only [τ', Fin.snoc_castSucc, Fin.snoc_last]
  have hL0' : ∀ i x, 0 ≤ L' i x := by
    intro i x
    refine Fin.lastCases ?_ (fun i => ?_) i
    · simp [L']
    · simpa [L'] using hL0 i x
  have hcs : ∀ i : Fin (n + 1), τ' i.castSucc = τ i := fun i => by simp [τ']
  have hcsL : (fun i : Fin (n + 1) => L' i.castSucc) = L := funext fun i => by simp [L']
  have hev : evidence π (fun i : Fin (n + 1) => kernel E π tm (τ' i.castSucc)) L' =
      evidence π (fun i : Fin n => kernel E π tm (τ i.castSucc)) L := by
    rw [evidence_last_one _ _ _ (fun x => hKst.sum _ x) (fun x => by simp [L'])]
    simp only [hcs, hcsL]
  have hmo : ∀ t, massOut E 1 tm t 1 = 1 := fun t => massOut_resetFree tm hR t 1
  obtain ⟨S1, h1, h2⟩ := linear_evidence (grid := grid) hE hL hp hRC hL0 (τ := τ) (fo := true) (eo := false) (Or.inr (Or.inl rfl))
  obtain ⟨S1', h3, h4, -⟩ := linear_filtering (grid := grid) hE hL hp hRC hL0 (τ := τ) hpos
  rw [h1] at h3; cases h3
  obtain ⟨S2, g1, g2⟩ := linear_evidence (grid := grid) hE hL hp hRC hL0' (τ := τ') (fo := true) (eo := false) (Or.inr (Or.inl rfl))
  obtain ⟨S2', g3, g4, -⟩ := linear_filtering (grid := grid) hE hL hp hRC hL0' (τ := τ') (by rw [hev]; exact hpos)
  rw [g1] at g3; cases g3
  simp only [hmo, Finset.prod_const_one, mul_one] at h2 g2
  refine ⟨S1, S2, filtering π (fun i : Fin n => kernel E π tm (τ i.castSucc)) L,
    filtering π (fun i : Fin (n + 1) => kernel E π tm (τ' i.castSucc)) L', h1, by rw [eL, eτ]; exact g1,
    LogV.ext_exp (by rw [h2, g2, hev]), ?_, ?_, ?_⟩
  · rw [h4, List.ofFn_succ', List.concat_eq_append, List.getLast?_concat]
    rfl
  · rw [g4, h4, List.ofFn_succ', List.concat_eq_append]
    congr 1
    congr 1
    funext i
    congr 2
    · funext j
      have : upTo i.castSucc τ' j.castSucc = upTo i τ j.castSucc := by
        exact hcs (Fin.castLE i.isLt j.castSucc)
      rw [this]
    · funext j
      exact congrFun hcsL (Fin.castLE i.isLt j)
  · intro y
    rw [filtering, posterior, hev, marginal_last]
    have hl1 : L' (Fin.last (n + 1)) y = 1 := by simp [L']
    rw [hl1, mul_one, Finset.sum_div]
    refine Finset.sum_congr rfl fun x _ => ?_
    rw [filtering, posterior, hcs, hcsL]
    simp only [hcs]
    ring

example : ∃ S1 S2 p q, fit (Ex.env Ex.gs3 (1 / 2)) (Ex.grid Ex.gs3) Ex.nested (List.ofFn ![Ex.v3 1 2 3, Ex.v3 0 1 0]) (List.ofFn ![0, 4]) true false (Ex.S0 .none) = .ok S1 ∧
      fit (Ex.env Ex.gs3 (1 / 2)) (Ex.grid Ex.gs3) Ex.nested (List.ofFn ![Ex.v3 1 2 3, Ex.v3 0 1 0] ++ [fun _ => 1]) (List.ofFn ![0, 4] ++ [5]) true false (Ex.S0 .none) = .ok S2 ∧
      S2.logEv = S1.logEv ∧ S1.posts.getLast? = some (.val p) ∧ S2.posts = S1.posts ++ [.val q] ∧
      ∀ y, q y = ∑ x, p x * kernel (Ex.env Ex.gs3 (1 / 2)) (fun _ => 1 / (Fintype.card (Idx Ex.gs3) : ℚ)) Ex.nested (![(0 : ℚ), 4] (Fin.last 1)) x y :=
  C10_prediction _ _ _ (Ex.regular3 (by norm_num)) (Ex.nested_linear _ _) Ex.nested_resetFree _ _ .flat _
    (by decide +kernel) _ _ (by decide +kernel)

theorem prod_reduce (l : List (Option (Idx gs → K))) (x : Idx gs) :
    ((l.map fun o => o.getD fun _ => 1).map (· x)).prod = (l.reduceOption.map (· x)).prod := by
  induction l with
  | nil => rfl
  | cons o l ih =>
      cases o with
      | none => simp only [List.map_cons, Option.getD_none, List.prod_cons, one_mul, ih]; rfl
      | some v =>
          simp only [List.map_cons, Option.getD_some, List.prod_cons, ih]
          rfl

/-- **C10 (deletion).** Static model: removing all missing data points (`none`) from the series changes neither the evidence nor
the posterior and mean reported for the remaining points. -/
theorem C10_deletion (E : Env K gs) (grid : (a : Fin d) → Fin (gs a) → K) (hE : Regular E)
    (nm : List String) (vs : List (HVal K)) (hpr : Option (Nest (HPrior K))) (S : FitState K gs) (π : Idx gs → K)
    (hp : PriorMass E.cell S.prior π) (obs : List (Option (Idx gs → K))) (ts ts' : List K)
    (hne : obs.reduceOption ≠ []) (hlen : ts.length = obs.length) (hlen' : ts'.length = obs.reduceOption.length)
    (hL0 : ∀ L, some L ∈ obs → ∀ x, 0 ≤ L x) (fo eo : Bool) :
    ∃ S1 S2, fit E grid (.leaf .static nm vs hpr) (obs.map fun o => o.getD fun _ => 1) ts fo eo S = .ok S1 ∧
      fit E grid (.leaf .static nm vs hpr) obs.reduceOption ts' fo eo S = .ok S2 ∧ S1.logEv = S2.logEv ∧
      (S1.logEv ≠ LogV.ninf → eo = false → fo = false → ∃ c, ∃ m : Fin d → K,
        S1.posts = List.replicate obs.length c ∧ S2.posts = List.replicate obs.reduceOption.length c ∧
        ∀ a, S1.means a = List.replicate obs.length (m a) ∧ S2.means a = List.replicate obs.reduceOption.length (m a)) := by
  have hne1 : (obs.map fun o => o.getD fun _ => 1) ≠ [] := by
    intro h; apply hne; rw [List.map_eq_nil_iff.1 h]; rfl
  have h01 : ∀ L ∈ (obs.map fun o => o.getD fun _ => (1 : K)), ∀ x, 0 ≤ L x := by
    intro L hL x
    obtain ⟨o, ho, rfl⟩ := List.mem_map.1 hL
    cases o with
    | none => exact zero_le_one
    | some v => exact hL0 v ho x
  have h02 : ∀ L ∈ obs.reduceOption, ∀ x, 0 ≤ L x := fun L hL => hL0 L (by simpa [List.reduceOption] using hL)
  obtain ⟨S1, h1, h2, h3⟩ := static_fit (grid := grid) (nm := nm) (vs := vs) (hpr := hpr) hE hp hne1 (by simpa using hlen) h01 fo eo
  obtain ⟨S2, g1, g2, g3⟩ := static_fit (grid := grid) (nm := nm) (vs := vs) (hpr := hpr) hE hp hne hlen' h02 fo eo
  simp only [prod_reduce, List.length_map] at h2 h3
  refine ⟨S1, S2, h1, g1, LogV.ext_exp (h2.trans g2.symm), ?_⟩
  intro hfin heo hfo
  have hpos : (∑ x, π x * (obs.reduceOption.map (· x)).prod) ≠ 0 := by
    rw [← h2]; intro h; exact hfin (LogV.ext_exp h)
  obtain ⟨a1, a2⟩ := (h3 hpos heo).1 hfo
  obtain ⟨b1, b2⟩ := (g3 hpos heo).1 hfo
  exact ⟨_, _, a1, b1, fun a => ⟨a2 a, b2 a⟩⟩

example : (Ex.ev (fit (Ex.env Ex.gs2 (1 / 2)) (Ex.grid Ex.gs2) Ex.static
    ([none, some (Ex.v2 1 2), none, some (Ex.v2 3 1)].map fun o => o.getD fun _ => 1) [0, 1, 2, 3] false false (Ex.S0 .none))) = some (5 / 2) := by
  decide +kernel

end Props
