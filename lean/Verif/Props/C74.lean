import Verif.Props.C10
import Mathlib.Tactic.Ring
import Mathlib.Tactic.FieldSimp
import Mathlib.Tactic.Linarith

/-! # C74: data analysed in portions -/

set_option linter.unusedSectionVars false

namespace Props
open BL Spec

variable {K : Type} [Field K] [LinearOrder K] [IsStrictOrderedRing K] {d : ℕ} {gs : Fin d → ℕ}

/-- last posterior of a fit with the Static model, in every mode that stores posteriors -/
theorem static_last {E : Env K gs} {grid : (a : Fin d) → Fin (gs a) → K} (hE : Regular E)
    {nm : List String} {vs : List (HVal K)} {hpr : Option (Nest (HPrior K))}
    {S : FitState K gs} {π : Idx gs → K} (hp : PriorMass E.cell S.prior π) {Ls : List (Idx gs → K)} {ts : List K}
    (hne : Ls ≠ []) (hlen : ts.length = Ls.length) (hL0 : ∀ L ∈ Ls, ∀ x, 0 ≤ L x) (fo eo : Bool) :
    ∃ S', fit E grid (.leaf .static nm vs hpr) Ls ts fo eo S = .ok S' ∧ S'.logEv.exp = ∑ x, π x * (Ls.map (· x)).prod ∧
      ((∑ x, π x * (Ls.map (· x)).prod) ≠ 0 → eo = false →
        S'.posts.getLast? = some (.val fun x => π x * (Ls.map (· x)).prod / ∑ y, π y * (Ls.map (· y)).prod)) := by
  obtain ⟨S', h1, h2, h3⟩ := static_fit (grid := grid) (nm := nm) (vs := vs) (hpr := hpr) hE hp hne hlen hL0 fo eo
  refine ⟨S', h1, h2, fun hpos heo => ?_⟩
  have hn : 0 < Ls.length := List.length_pos_iff.2 hne
  cases fo with
  | false =>
      rw [((h3 hpos heo).1 rfl).1, List.getLast?_replicate, if_neg (by omega)]
  | true =>
      rw [(h3 hpos heo).2 rfl, List.getLast?_map, List.getLast?_range, if_neg (by omega)]
      have e : Ls.length - 1 + 1 = Ls.length := by omega
      simp only [Option.map_some, e, List.take_length]

/-- **C74 (partial).** Constant parameters (Static), any prior.  The data are analysed in two portions; the prior of the second analysis is an array with the values of the last posterior distribution of the first
one, times a constant `c`.  Unless this array sums to exactly one (`c = 1`) on cells of another volume than one: the evidences of the two portions multiply to the evidence of all data, and the last
posterior distribution is the one of the analysis of all data. -/
theorem C74_partial (E : Env K gs) (grid : (a : Fin d) → Fin (gs a) → K) (hE : Regular E) (nm : List String) (vs : List (HVal K)) (hpr : Option (Nest (HPrior K)))
    (S : FitState K gs) (π : Idx gs → K) (hp : PriorMass E.cell S.prior π) (hπ : ∀ x, 0 ≤ π x) (Ls Ms : List (Idx gs → K)) (ts us ws : List K) (hl : Ls ≠ []) (hm : Ms ≠ [])
    (hts : ts.length = Ls.length) (hus : us.length = Ms.length) (hws : ws.length = Ls.length + Ms.length) (hL0 : ∀ L ∈ Ls, ∀ x, 0 ≤ L x) (hM0 : ∀ L ∈ Ms, ∀ x, 0 ≤ L x) (fo fo' fo'' eo : Bool)
    (c : K) (hc : 0 < c) (hone : c ≠ 1 ∨ E.cell = 1) :
    ∃ S1, fit E grid (.leaf .static nm vs hpr) Ls ts fo false S = .ok S1 ∧ (S1.logEv ≠ LogV.ninf →
      ∃ p, S1.posts.getLast? = some (.val p) ∧ ∀ T : FitState K gs, T.prior = .array (some fun x => c * p x) →
        ∃ S2 S3, fit E grid (.leaf .static nm vs hpr) Ms us fo' eo T = .ok S2 ∧ fit E grid (.leaf .static nm vs hpr) (Ls ++ Ms) ws fo'' eo S = .ok S3 ∧
          S3.logEv.exp = S1.logEv.exp * S2.logEv.exp ∧ (S3.logEv ≠ LogV.ninf → eo = false → S2.posts.getLast? = S3.posts.getLast?)) := by
  obtain ⟨S1, a1, a2, a3⟩ := static_last (grid := grid) (nm := nm) (vs := vs) (hpr := hpr) hE hp hl hts hL0 fo false
  refine ⟨S1, a1, fun hfin => ?_⟩
  have hpos : (∑ x, π x * (Ls.map (· x)).prod) ≠ 0 := by
    rw [← a2]; intro h; exact hfin (LogV.ext_exp h)
  have hprod : ∀ x, 0 ≤ (Ls.map (· x)).prod := fun x => List.prod_nonneg (by
    intro y hy
    obtain ⟨L, hL, rfl⟩ := List.mem_map.1 hy
    exact hL0 L hL x)
  have hZ : 0 < ∑ x, π x * (Ls.map (· x)).prod := lt_of_le_of_ne (Finset.sum_nonneg fun x _ => mul_nonneg (hπ x) (hprod x)) (Ne.symm hpos)
  refine ⟨_, a3 hpos rfl, fun T hT => ?_⟩
  generalize hZ' : (∑ x, π x * (Ls.map (· x)).prod) = Z at *
  have hsum : ∑ x, c * (π x * (Ls.map (· x)).prod / Z) = c := by
    rw [← Finset.mul_sum, ← Finset.sum_div, hZ', div_self hpos, mul_one]
  have hp2 : PriorMass E.cell T.prior fun x => c * (π x * (Ls.map (· x)).prod / Z) / ∑ y, c * (π y * (Ls.map (· y)).prod / Z) := by
    rw [hT]
    exact .array _ (fun x => mul_nonneg hc.le (div_nonneg (mul_nonneg (hπ x) (hprod x)) hZ.le)) (by rw [hsum]; exact hc) (by rw [hsum]; exact hone)
  simp only [hsum, mul_div_cancel_left₀ _ hc.ne'] at hp2
  obtain ⟨S2, b1, b2, b3⟩ := static_last (grid := grid) (nm := nm) (vs := vs) (hpr := hpr) hE hp2 hm hus hM0 fo' eo
  obtain ⟨S3, c1, c2, c3⟩ := static_last (grid := grid) (nm := nm) (vs := vs) (hpr := hpr) hE hp (Ls := Ls ++ Ms) (ts := ws) (by simp [hl]) (by simpa using hws)
    (fun L h => (List.mem_append.1 h).elim (hL0 L) (hM0 L)) fo'' eo
  have e : ∀ x, π x * ((Ls ++ Ms).map (· x)).prod = Z * (π x * (Ls.map (· x)).prod / Z * (Ms.map (· x)).prod) := by
    intro x
    rw [List.map_append, List.prod_append]
    field_simp
  simp only [e, ← Finset.mul_sum] at c2 c3
  refine ⟨S2, S3, b1, c1, by rw [a2, b2, c2], ?_⟩
  intro h3 heo
  have h4 : Z * (∑ x, π x * (Ls.map (· x)).prod / Z * (Ms.map (· x)).prod) ≠ 0 := by
    rw [← c2]; intro h; exact h3 (LogV.ext_exp h)
  rw [b3 (right_ne_zero_of_mul h4) heo, c3 h4 heo]
  congr 2
  funext x
  rw [mul_div_mul_left _ _ hpos]

/-- The hypotheses can be met. -/
example := C74_partial (Ex.env Ex.gs3 (1 / 2)) (Ex.grid Ex.gs3) (Ex.regular3 (by norm_num)) [] [] none (Ex.S0 .none) _ .flat (by intro x; positivity) [Ex.v3 1 2 3] [Ex.v3 0 1 0, Ex.v3 1 1 2] [0] [1, 2] [0, 1, 2]
  (by simp) (by simp) rfl rfl rfl (by decide +kernel) (by decide +kernel) true false true false 2 (by norm_num) (Or.inl (by norm_num))

/-- **C74 refuted.** The posterior distribution itself as prior, on cells of volume 1/2: the evidence of the second portion is multiplied by 1/2. -/
theorem C74_refuted :
    ∃ S1 p S2 S3, fit (Ex.env Ex.gs2 (1 / 2)) (Ex.grid Ex.gs2) Ex.static [Ex.v2 1 3] [0] false false (Ex.S0 .none) = .ok S1 ∧ S1.posts.getLast? = some (.val p) ∧
      fit (Ex.env Ex.gs2 (1 / 2)) (Ex.grid Ex.gs2) Ex.static [Ex.v2 2 1] [0] false false (Ex.S0 (.array (some p))) = .ok S2 ∧
      fit (Ex.env Ex.gs2 (1 / 2)) (Ex.grid Ex.gs2) Ex.static [Ex.v2 1 3, Ex.v2 2 1] [0, 1] false false (Ex.S0 .none) = .ok S3 ∧
      S3.logEv.exp = 5 / 2 ∧ S1.logEv.exp = 2 ∧ S2.logEv.exp = 5 / 8 := by
  have key : ∀ r : Except PyErr (FitState ℚ Ex.gs2), ∀ v : ℚ, Ex.ev r = some v → ∃ S, r = .ok S ∧ S.logEv.exp = v := by
    intro r v h
    cases r with
    | error e => simp [Ex.ev] at h
    | ok S => exact ⟨S, rfl, by simpa [Ex.ev] using h⟩
  obtain ⟨S1, h1, -, h2⟩ := static_last (E := Ex.env Ex.gs2 (1 / 2)) (grid := Ex.grid Ex.gs2) (nm := []) (vs := []) (hpr := none) (Ex.regular2 (by norm_num)) (S := Ex.S0 .none) .flat
    (Ls := [Ex.v2 1 3]) (ts := [0]) (by simp) rfl (by decide +kernel) false false
  have h3 := h2 (by decide +kernel) rfl
  have hp : (fun x => (1 : ℚ) / (Fintype.card (Idx Ex.gs2) : ℚ) * ([Ex.v2 1 3].map (· x)).prod / ∑ y, (1 : ℚ) / (Fintype.card (Idx Ex.gs2) : ℚ) * ([Ex.v2 1 3].map (· y)).prod) = Ex.v2 (1 / 4) (3 / 4) := by
    funext x
    revert x
    decide +kernel
  obtain ⟨S1', g1, g2⟩ := key (fit (Ex.env Ex.gs2 (1 / 2)) (Ex.grid Ex.gs2) Ex.static [Ex.v2 1 3] [0] false false (Ex.S0 .none)) 2 (by decide +kernel)
  obtain ⟨S2, k1, k2⟩ := key (fit (Ex.env Ex.gs2 (1 / 2)) (Ex.grid Ex.gs2) Ex.static [Ex.v2 2 1] [0] false false (Ex.S0 (.array (some (Ex.v2 (1 / 4) (3 / 4)))))) (5 / 8) (by decide +kernel)
  obtain ⟨S3, l1, l2⟩ := key (fit (Ex.env Ex.gs2 (1 / 2)) (Ex.grid Ex.gs2) Ex.static [Ex.v2 1 3, Ex.v2 2 1] [0, 1] false false (Ex.S0 .none)) (5 / 2) (by decide +kernel)
  have e : S1 = S1' := by
    have := h1.symm.trans g1
    exact Except.ok.inj this
  subst e
  exact ⟨S1, _, S2, S3, h1, by rw [h3, hp], k1, l1, l2, g2, k2⟩

end Props
