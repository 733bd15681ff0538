import Verif.Props.C99
import Verif.Props.C30

/-! # C100: hyper-parameter distributions and averaged posteriors are calibrated -/

set_option linter.unusedSectionVars false

open MeasureTheory
open scoped ENNReal

namespace Spec
open BL
variable {d : ℕ} {gs : Fin d → ℕ}

/-- The probability that a fit of a hyper-study reports for a set of combinations of hyper-parameter values (reported density times volume of a cell of the hyper-grid). -/
noncomputable def hyperProbIn (r : Except PyErr (Option (HState ℝ gs))) (g : HyperGrid ℝ) (A : Finset (Fin g.rows.length)) : ℝ :=
  match r with
  | .ok (some R) => ∑ j ∈ A, (R.hpd.getD []).getD j 0 * g.hgc.prod
  | _ => 0

/-- the averaged posterior distributions of a fit of a hyper-study -/
def averaged (r : Except PyErr (Option (HState ℝ gs))) : Except PyErr (FitState ℝ gs) :=
  match r with
  | .ok (some R) => .ok R.S
  | .ok none => .error .configuration
  | .error e => .error e

/-- `HyperDraws P J Z X ρ π T law`: under `P`, a combination of hyper-parameter values is drawn with probabilities `ρ`, then a parameter path from `π` and the transition probabilities `T j` for this combination,
then independently for each time step a data point from the distribution that `law` assigns to the value of the path at this time step. -/
structure HyperDraws {Ω ι κ Y : Type} [MeasurableSpace Ω] [MeasurableSpace Y] {n : ℕ} (P : Measure Ω) (J : Ω → κ) (Z : Ω → Fin (n + 1) → ι) (X : Ω → Fin (n + 1) → Y) (ρ : κ → ℝ) (π : ι → ℝ)
    (T : κ → Fin n → ι → ι → ℝ) (law : ι → Measure Y) : Prop where
  unknown : ∀ j z, MeasurableSet {ω | J ω = j ∧ Z ω = z}
  data : Measurable X
  law : ∀ j z B, MeasurableSet B → P {ω | J ω = j ∧ Z ω = z ∧ X ω ∈ B} =
    ENNReal.ofReal (ρ j) * (ENNReal.ofReal (π (z 0) * ∏ i : Fin n, T j i (z i.castSucc) (z i.succ)) * Measure.pi (fun i => law (z i)) B)

end Spec

namespace BL
open Spec
variable {d : ℕ} {gs : Fin d → ℕ}

theorem joint_of_hyperDraws {Ω ι κ Y : Type} [MeasurableSpace Ω] [MeasurableSpace Y] [Fintype ι] [DecidableEq ι] {n : ℕ} {P : Measure Ω} {J : Ω → κ} {Z : Ω → Fin (n + 1) → ι} {X : Ω → Fin (n + 1) → Y} {ρ : κ → ℝ} {π : ι → ℝ}
    {T : κ → Fin n → ι → ι → ℝ} (μ : Measure Y) [SigmaFinite μ] (q : ι → Y → ℝ) (hq : ∀ x, Measurable (q x)) (hq0 : ∀ x y, 0 ≤ q x y) (hqi : ∀ x, Integrable (q x) μ) (hρ : ∀ j, 0 ≤ ρ j) (hπ : ∀ x, 0 ≤ π x)
    (hT : ∀ j i x y, 0 ≤ T j i x y) (h : HyperDraws P J Z X ρ π T fun x => μ.withDensity fun y => ENNReal.ofReal (q x y)) :
    Joint P (fun ω => (J ω, Z ω)) X (Measure.pi fun _ => μ) fun jz y => ρ jz.1 * pathWeight π (T jz.1) (fun i x => q x (y i)) jz.2 := by
  refine ⟨fun jz => ?_, h.data, fun jz B hB => ?_⟩
  · have := h.unknown jz.1 jz.2
    simpa only [Prod.ext_iff] using this
  · obtain ⟨j, z⟩ := jz
    have h0 : 0 ≤ π (z 0) * ∏ i : Fin n, T j i (z i.castSucc) (z i.succ) := mul_nonneg (hπ _) (Finset.prod_nonneg fun i _ => hT _ _ _ _)
    have e : {ω | (J ω, Z ω) = (j, z) ∧ X ω ∈ B} = {ω | J ω = j ∧ Z ω = z ∧ X ω ∈ B} := by
      ext ω
      simp [and_assoc]
    rw [e, h.law j z B hB, pi_withDensity μ (fun i => q (z i)) (fun i => hq0 _) fun i => hqi _, withDensity_apply _ hB, ← lintegral_const_mul _ (by fun_prop), ← lintegral_const_mul _ (by fun_prop)]
    refine lintegral_congr fun y => ?_
    rw [← ENNReal.ofReal_mul h0, ← ENNReal.ofReal_mul (hρ j)]
    rfl

end BL

namespace Props
open BL Spec
variable {d : ℕ} {gs : Fin d → ℕ} {Y : Type}

/-- list of single fits, in terms of evidences and probabilities of the combinations -/
theorem singles_table {I : FitIn ℝ gs} {H : HState ℝ gs} {g : HyperGrid ℝ} {ps : List ℝ} {As : List (FitState ℝ gs)} (h1 : Singles I H g.rows As) (hlen : ps.length = As.length) {ρ : Fin g.rows.length → ℝ}
    (hρ : ps.map (· * g.hgc.prod) = List.ofFn ρ) {ev : Fin g.rows.length → ℝ} (hev : ∀ (j : Fin g.rows.length) A, singleFit I H.tm H.S g.rows[j] = .ok A → A.logEv.exp = ev j) :
    (As.zip ps).map (fun q => (q.1.logEv.exp, q.2 * g.hgc.prod)) = List.ofFn fun j => (ev j, ρ j) := by
  obtain ⟨hl, hget⟩ := List.forall₂_iff_get.1 h1
  refine List.ext_getElem (by simp; omega) fun j h2 h3 => ?_
  have hj : j < g.rows.length := by simpa using h3
  have e1 := hev ⟨j, hj⟩ As[j] (hget j hj (by omega))
  have e2 : ps[j] * g.hgc.prod = ρ ⟨j, hj⟩ := by
    have h4 : (ps.map (· * g.hgc.prod))[j]? = (List.ofFn ρ)[j]? := by rw [hρ]
    rw [List.getElem?_map, List.getElem?_eq_getElem (by omega), List.getElem?_ofFn, dif_pos hj] at h4
    simpa using h4
  simp [e1, e2]

/-- Bayes rule for the combinations of hyper-parameter values -/
theorem hyper_bayes (I : FitIn ℝ gs) (nJobs : ℕ) (H R : HState ℝ gs) (g : HyperGrid ℝ) (ps : List ℝ) (hb : Built H.tm) (hsp : " " ∉ (entries H.tm).map (·.1)) (hn : H.S.prior.isArray = false) (hcell : 0 ≤ I.E.cell)
    (hg : createHyperGrid H.tm I.ts = .ok g) (hps : g.priors = some ps) (hr : 1 < g.rows.length) (hnn : ∀ p ∈ ps, 0 ≤ p) (h : hyperFit I nJobs H = .ok (some R)) (ρ : Fin g.rows.length → ℝ)
    (hρ : ps.map (· * g.hgc.prod) = List.ofFn ρ) (ev : Fin g.rows.length → ℝ) (hev : ∀ (j : Fin g.rows.length) A, singleFit I H.tm H.S g.rows[j] = .ok A → A.logEv.exp = ev j) (hpos : ∑ j, ρ j * ev j ≠ 0) :
    R.S.logEv ≠ LogV.ninf ∧ ∃ (As : List (FitState ℝ gs)) (D : List ℝ), Singles I H g.rows As ∧ R.hpd = some D ∧ D.map (· * g.hgc.prod) = List.ofFn fun j => ρ j * ev j / ∑ i, ρ i * ev i := by
  obtain ⟨As, a1, -, a3, a4⟩ := C29_partial I nJobs H R g ps hb hsp hn hg hps hr h
  have htab := singles_table a1 a3 hρ hev
  have hsum : R.S.logEv.exp = ∑ j, ρ j * ev j := by
    have : (As.zip ps).map (fun q => q.1.logEv.exp * (q.2 * g.hgc.prod)) = List.ofFn fun j => ρ j * ev j := by
      have := congrArg (List.map fun q : ℝ × ℝ => q.2 * q.1) htab
      rw [List.map_map, List.map_ofFn] at this
      simpa only [Function.comp_def, mul_comm] using this
    rw [a4, this, List.sum_ofFn]
  have hfin : R.S.logEv ≠ LogV.ninf := by
    intro hc
    rw [hc] at hsum
    exact hpos hsum.symm
  refine ⟨hfin, ?_⟩
  obtain ⟨As', W, D, c1, c2, c3, c4, -⟩ := C31_partial I nJobs H R g ps hb hsp hn hcell hg hps hr hnn h hfin
  obtain ⟨hl, hget⟩ := List.forall₂_iff_get.1 c1
  have htab' := singles_table c1 (by
    obtain ⟨hl', -⟩ := List.forall₂_iff_get.1 a1
    omega) hρ hev
  refine ⟨As', D, c1, c2, ?_⟩
  rw [c3, c4]
  have := congrArg (List.map fun q : ℝ × ℝ => q.2 * q.1 / ∑ i, ρ i * ev i) htab'
  rw [List.map_map, List.map_ofFn] at this
  rw [hsum]
  simpa only [Function.comp_def, mul_comm] using this

/-- the averaged posterior distribution in terms of the posterior distributions `F j` of the combinations -/
theorem hyper_average (I : FitIn ℝ gs) (nJobs : ℕ) (H R : HState ℝ gs) (g : HyperGrid ℝ) (ps : List ℝ) (hb : Built H.tm) (hsp : " " ∉ (entries H.tm).map (·.1)) (hn : H.S.prior.isArray = false) (hcell : 0 ≤ I.E.cell)
    (hg : createHyperGrid H.tm I.ts = .ok g) (hps : g.priors = some ps) (hr : 1 < g.rows.length) (hnn : ∀ p ∈ ps, 0 ≤ p) (h : hyperFit I nJobs H = .ok (some R)) (ρ : Fin g.rows.length → ℝ)
    (hρ : ps.map (· * g.hgc.prod) = List.ofFn ρ) (ev : Fin g.rows.length → ℝ) (hev : ∀ (j : Fin g.rows.length) A, singleFit I H.tm H.S g.rows[j] = .ok A → A.logEv.exp = ev j) (hpos : ∑ j, ρ j * ev j ≠ 0)
    (heo : I.evidenceOnly = false) (hε : 0 < I.ε) [Nonempty (Idx gs)] {k : ℕ} (hk : k < I.liks.length) (F : Fin g.rows.length → Idx gs → ℝ)
    (hF : ∀ (j : Fin g.rows.length) A, singleFit I H.tm H.S g.rows[j] = .ok A → ev j ≠ 0 → A.posts[k]? = some (.val (F j)) ∧ (∀ x, 0 ≤ F j x) ∧ ∑ x, F j x = 1) :
    ∃ p, R.S.posts[k]? = some (.val p) ∧ (∀ a, (R.S.means a)[k]? = some (mean I.grid a p)) ∧ ∀ x, |p x - (∑ j, ρ j * ev j * F j x) / ∑ j, ρ j * ev j| ≤ (Fintype.card (Idx gs) : ℝ) * I.ε := by
  obtain ⟨hfin, -, D, -, d2, d3⟩ := hyper_bayes I nJobs H R g ps hb hsp hn hcell hg hps hr hnn h ρ hρ ev hev hpos
  obtain ⟨As, W, D', c1, c2, c3, c4, c5, c6, -, Q, p1, p2⟩ := C30_partial I nJobs H R g ps hb hsp hn hcell hg hps hr hnn h hfin heo hε inferInstance
  rw [d2] at c2
  cases c2
  obtain ⟨hl, hget⟩ := List.forall₂_iff_get.1 c1
  have hW : W = List.ofFn fun j => ρ j * ev j / ∑ i, ρ i * ev i := by rw [← c3, d3]
  have hsel : ∀ (j : ℕ) (hj : j < g.rows.length) A w, As[j]? = some A → W[j]? = some w → w = ρ ⟨j, hj⟩ * ev ⟨j, hj⟩ / (∑ i, ρ i * ev i) ∧
      (w ≠ 0 → postOf A k = F ⟨j, hj⟩ ∧ (∀ x, 0 ≤ F ⟨j, hj⟩ x) ∧ ∑ x, F ⟨j, hj⟩ x = 1) := by
    intro j hj A w hA hw
    rw [hW, List.getElem?_ofFn, dif_pos hj] at hw
    cases hw
    refine ⟨rfl, fun h0 => ?_⟩
    have hAj : singleFit I H.tm H.S g.rows[j] = .ok A := by
      have := hget j hj (by omega)
      rw [List.getElem?_eq_getElem (by omega)] at hA
      cases hA
      exact this
    obtain ⟨f1, f2, f3⟩ := hF ⟨j, hj⟩ A hAj fun h1 => h0 (by rw [h1]; simp)
    exact ⟨by unfold postOf; rw [f1], f2, f3⟩
  have hlt : ∀ (j : ℕ) A, As[j]? = some A → j < g.rows.length := fun j A hA => by
    have := (List.getElem?_eq_some_iff.1 hA).1
    omega
  have hmeans : ∀ a, (R.S.means a)[k]? = some (mean I.grid a (Q k)) := by
    intro a
    rcases hyperFit_spec I nJobs H g ps hb hsp hn hg hps hr with ⟨e, he⟩ | ⟨As', a1, a2, a3, R', r0, -, -, -, -, -, -, -, r8⟩
    · rw [he] at h; cases h
    rw [r0] at h
    cases h
    rw [(r8 heo).2]
    change (List.filterMap (fun c : Cell (Idx gs → ℝ) => Option.map (mean I.grid a) c.get?) R.S.posts)[k]? = _
    rw [p1, List.filterMap_map]
    have : ((fun c : Cell (Idx gs → ℝ) => Option.map (mean I.grid a) c.get?) ∘ fun t => Cell.val (Q t)) = fun t => some (mean I.grid a (Q t)) := rfl
    rw [this, List.filterMap_eq_map']
    simp [hk]
  refine ⟨Q k, by rw [p1]; simp [hk], hmeans, fun x => ?_⟩
  obtain ⟨-, q2, -⟩ := p2 k hk
  have hmix : (mixture As W fun A => postOf A k x) = (∑ j, ρ j * ev j * F j x) / ∑ j, ρ j * ev j := by
    have : ((As.zip W).map fun q => q.2 * postOf q.1 k x) = List.ofFn fun j => ρ j * ev j / (∑ i, ρ i * ev i) * F j x := by
      refine List.ext_getElem (by simp; omega) fun j h2 h3 => ?_
      have hj : j < g.rows.length := by simpa using h3
      obtain ⟨s1, s2⟩ := hsel j hj As[j] W[j] (by simp) (by simp)
      rw [List.getElem_map, List.getElem_zip, List.getElem_ofFn]
      by_cases h0 : W[j] = 0
      · simp only [h0, zero_mul]
        rw [← s1, h0, zero_mul]
      · simp only [(s2 h0).1]
        rw [s1]
    rw [Spec.mixture, this, List.sum_ofFn, Finset.sum_div]
    exact Finset.sum_congr rfl fun j _ => by rw [div_mul_eq_mul_div]
  rw [q2 x, ← hmix]
  refine floor_error c4 c5 c6 hε k (fun j A w hA hw h0 => ?_) x
  obtain ⟨-, s2⟩ := hsel j (hlt j A hA) A w hA hw
  rw [(s2 h0).1]
  exact (s2 h0).2

/-- settings for which the fit is not rejected -/
theorem hyperFit_ok (I : FitIn ℝ gs) (nJobs : ℕ) (H : HState ℝ gs) (g : HyperGrid ℝ) (ps : List ℝ) (hb : Built H.tm) (hsp : " " ∉ (entries H.tm).map (·.1)) (hn : H.S.prior.isArray = false)
    (hg : createHyperGrid H.tm I.ts = .ok g) (hps : g.priors = some ps) (hr : 1 < g.rows.length) (hsh : sharedPoints H.tm g = false) (hd : (duplicates H.tm.flatNames).length = 0)
    (hall : ∀ row ∈ g.rows, ∃ A, singleFit I H.tm H.S row = .ok A) : ∃ R, hyperFit I nJobs H = .ok (some R) := by
  have hm := Built.matched hb
  have hp := hm.proper
  obtain ⟨e1, e2, -, e4⟩ := Props.createHyperGrid_eq hp hg
  have hne : entries H.tm ≠ [] := by
    intro h0
    rw [if_pos h0] at e4
    rw [e4] at hr
    simp at hr
  rw [if_neg hne] at e4
  have hdef : hyperFit I nJobs H = (hyperCore I nJobs g.flat g.rows g.hgc ps H).bind fun r => .ok (some r) := by
    unfold hyperFit
    rw [hg]
    simp only [bind, Except.bind, hps, hsh, hd]
    rfl
  rw [hdef]
  have hnd : ((entries H.tm).map (·.1)).Nodup := by
    rw [← entries_names H.tm hp]
    exact (Props.duplicates_eq_nil _).1 (List.length_eq_zero_iff.1 (by omega))
  have hw : WellNamed H.tm := ⟨hp, hnd, hsp⟩
  have hpl := weights_len hm hne hg hps
  have hlen : ∀ r ∈ g.rows, r.length = (entries H.tm).length := by
    intro r hr
    rw [e4, cart_mem] at hr
    rw [hr.length_eq, axes, List.length_map]
  have hfl : g.flat.length = (entries H.tm).length := by rw [e1, List.length_map, entries_values H.tm hp, List.length_map]
  have hfp : ∀ v ∈ g.flat, Plain v := by
    intro v hv
    rw [e1] at hv
    obtain ⟨w, hw, rfl⟩ := List.mem_map.1 hv
    exact expandAll_plain (entries_plain H.tm hp w hw)
  have hcore := hyperCore_spec I nJobs g.flat g.rows g.hgc ps H hw hn hr hpl hlen hfl hfp
  cases hA : mapE (singleFit I H.tm H.S) g.rows with
  | error e =>
      exfalso
      have : ∃ As, List.Forall₂ (fun row A => singleFit I H.tm H.S row = .ok A) g.rows As := by
        clear * - hall
        generalize g.rows = rows at hall
        induction rows with
        | nil => exact ⟨[], .nil⟩
        | cons r rs ih =>
            obtain ⟨A, hA⟩ := hall r (by simp)
            obtain ⟨As, hAs⟩ := ih fun r' hr' => hall r' (by simp [hr'])
            exact ⟨A :: As, .cons hA hAs⟩
      obtain ⟨As, hAs⟩ := this
      rw [mapE_ok.2 hAs] at hA
      cases hA
  | ok As =>
      rw [hA] at hcore
      simp only at hcore
      obtain ⟨R, r1, -⟩ := hcore
      exact ⟨R, by rw [r1]; rfl⟩

/-- the settings are accepted or not, whatever the data are -/
theorem hyperFit_accepts (I I' : FitIn ℝ gs) (nJobs : ℕ) (H R : HState ℝ gs) (g : HyperGrid ℝ) (ps : List ℝ) (hb : Built H.tm) (hsp : " " ∉ (entries H.tm).map (·.1)) (hn : H.S.prior.isArray = false)
    (hts : I'.ts = I.ts) (hg : createHyperGrid H.tm I.ts = .ok g) (hps : g.priors = some ps) (hr : 1 < g.rows.length) (h : hyperFit I nJobs H = .ok (some R))
    (hall : ∀ row ∈ g.rows, ∃ A, singleFit I' H.tm H.S row = .ok A) : ∃ R', hyperFit I' nJobs H = .ok (some R') := by
  have hdef : hyperFit I nJobs H = if sharedPoints H.tm g then .error .configuration
      else if (duplicates H.tm.flatNames).length > 0 then .error .configuration
      else (hyperCore I nJobs g.flat g.rows g.hgc ps H).bind fun r => .ok (some r) := by
    unfold hyperFit
    rw [hg]
    simp only [bind, Except.bind, hps]
  rw [hdef] at h
  by_cases hsh : sharedPoints H.tm g = true
  · rw [if_pos hsh] at h; cases h
  by_cases hd : (duplicates H.tm.flatNames).length > 0
  · rw [if_neg hsh, if_pos hd] at h; cases h
  exact hyperFit_ok I' nJobs H g ps hb hsp hn (by rw [hts]; exact hg) hps hr (by simpa using hsh) (by omega) hall

/-- **C100.** One of the combinations of hyper-parameter values of the hyper-grid is drawn with its prior probability `ρ` (prior value times volume of a cell of the hyper-grid), then a parameter path from prior and transition
model with these values, then the data.  The distribution of the hyper-parameters that a hyper-study reports is calibrated.  The averaged posterior probabilities and mean values are, up to the floor `ε` (smallest positive
floating point number), the conditional probabilities and expectations given all data: at all time steps of a full fit, at the last time step of a forward-only fit. -/
theorem C100 {Ω : Type} [MeasurableSpace Ω] [MeasurableSpace Y] (E : Env ℝ gs) (grid : (a : Fin d) → Fin (gs a) → ℝ) (nJobs : ℕ) (H : HState ℝ gs) (g : HyperGrid ℝ) (ps : List ℝ) (hb : Built H.tm)
    (hsp : " " ∉ (entries H.tm).map (·.1)) (hn : H.S.prior.isArray = false) {n : ℕ} (τ : Fin (n + 1) → ℝ) (hg : createHyperGrid H.tm (List.ofFn τ) = .ok g) (hps : g.priors = some ps) (hr : 1 < g.rows.length)
    (hnn : ∀ p ∈ ps, 0 ≤ p) (ρ : Fin g.rows.length → ℝ) (hρ : ps.map (· * g.hgc.prod) = List.ofFn ρ) (π : Idx gs → ℝ) (μ : Measure Y) [SigmaFinite μ] (q : Idx gs → Y → ℝ) (fo eo : Bool) (ε : ℝ)
    (hv : ∀ row ∈ g.rows, (Candidate.mk d gs E grid (modelAt H.tm row) H.S.prior π q).Valid μ τ fo eo)
    (hok : ∃ (y : Fin (n + 1) → Y) (R : HState ℝ gs), hyperFit ⟨E, grid, List.ofFn fun i x => q x (y i), List.ofFn τ, fo, eo, ε⟩ nJobs H = .ok (some R))
    (P : Measure Ω) [IsProbabilityMeasure P] (J : Ω → Fin g.rows.length) (Z : Ω → Fin (n + 1) → Idx gs) (X : Ω → Fin (n + 1) → Y)
    (hD : HyperDraws P J Z X ρ π (fun j i => kernel E π (modelAt H.tm g.rows[j]) (τ i.castSucc)) fun x => μ.withDensity fun y => ENNReal.ofReal (q x y)) :
    (Calibrated P J X fun ω => hyperProbIn (hyperFit ⟨E, grid, List.ofFn fun i x => q x (X ω i), List.ofFn τ, fo, eo, ε⟩ nJobs H) g) ∧
    (eo = false → 0 < ε → ∀ k : Fin (n + 1), (fo = true → k = Fin.last n) →
      (∀ A : Finset (Idx gs), ∀ᵐ ω ∂P, |probIn (averaged (hyperFit ⟨E, grid, List.ofFn fun i x => q x (X ω i), List.ofFn τ, fo, eo, ε⟩ nJobs H)) k A -
        (P[{ω | Z ω k ∈ A}.indicator fun _ => (1 : ℝ) | MeasurableSpace.comap X inferInstance]) ω| ≤ A.card * (Fintype.card (Idx gs) * ε)) ∧
      ∀ a, ∀ᵐ ω ∂P, |meanAt (averaged (hyperFit ⟨E, grid, List.ofFn fun i x => q x (X ω i), List.ofFn τ, fo, eo, ε⟩ nJobs H)) k a -
        (P[fun ω => grid a (Z ω k a) | MeasurableSpace.comap X inferInstance]) ω| ≤ (∑ x : Idx gs, |grid a (x a)|) * (Fintype.card (Idx gs) * ε)) := by
  have h0v := hv g.rows[0] (List.getElem_mem _)
  have hE : Regular E := h0v.regular
  have hp : PriorMass E.cell H.S.prior π := h0v.mass
  have hq : ∀ x, Measurable (q x) := h0v.measurable
  have hq0 : ∀ x y, 0 ≤ q x y := h0v.nonneg
  have hqi : ∀ x, Integrable (q x) μ := h0v.integrable
  have := hE.nonempty
  have hcell : 0 ≤ E.cell := (cell_pos hE.lattice_pos).le
  have hπ : ∀ x, 0 ≤ π x := priorMass_nonneg (cell_pos hE.lattice_pos) hp
  have hvj : ∀ j : Fin g.rows.length, (Candidate.mk d gs E grid (modelAt H.tm g.rows[j]) H.S.prior π q).Valid μ τ fo eo := fun j => hv _ (List.getElem_mem _)
  have hst : ∀ j : Fin g.rows.length, Stoch (kernel E π (modelAt H.tm g.rows[j])) := fun j => kernel_stoch hE (hvj j).linear (hvj j).resetCond
  obtain ⟨L, hLdef⟩ : ∃ L : (Fin (n + 1) → Y) → Fin (n + 1) → Idx gs → ℝ, L = fun y i x => q x (y i) := ⟨_, rfl⟩
  obtain ⟨T, hTdef⟩ : ∃ T : Fin g.rows.length → Fin n → Idx gs → Idx gs → ℝ, T = fun j i => kernel E π (modelAt H.tm g.rows[j]) (τ i.castSucc) := ⟨_, rfl⟩
  obtain ⟨I, hI⟩ : ∃ I : (Fin (n + 1) → Y) → FitIn ℝ gs, I = fun y => ⟨E, grid, List.ofFn (L y), List.ofFn τ, fo, eo, ε⟩ := ⟨_, rfl⟩
  have hL0 : ∀ y i x, 0 ≤ L y i x := fun y i x => by rw [hLdef]; exact hq0 _ _
  have hsingle : ∀ y (j : Fin g.rows.length), ∃ A, singleFit (I y) H.tm H.S g.rows[j] = .ok A ∧ A.logEv.exp = evidence π (T j) (L y) := by
    intro y j
    rw [hI, hTdef]
    rcases (hvj j).exact with h1 | h1
    · exact C01_evidence_is_path_sum E grid _ hE (hvj j).linear h1.1 H.S π hp (L y) (hL0 y) τ fo eo h1.2
    · exact C02_partial E grid _ hE (hvj j).linear h1.1 H.S π hp h1.2.1 (L y) (hL0 y) τ fo eo h1.2.2
  have hev : ∀ y (j : Fin g.rows.length) A, singleFit (I y) H.tm H.S g.rows[j] = .ok A → A.logEv.exp = evidence π (T j) (L y) := by
    intro y j A hA
    obtain ⟨A', h1, h2⟩ := hsingle y j
    rw [hA] at h1
    cases h1
    exact h2
  have hfit : ∀ y, ∃ R, hyperFit (I y) nJobs H = .ok (some R) := by
    intro y
    obtain ⟨y0, R0, h0⟩ := hok
    refine hyperFit_accepts (I y0) (I y) nJobs H R0 g ps hb hsp hn (by rw [hI]) (by rw [hI]; exact hg) hps hr (by rw [hI, hLdef]; exact h0) fun row hrow => ?_
    obtain ⟨j, hj, rfl⟩ := List.getElem_of_mem hrow
    obtain ⟨A, hA, -⟩ := hsingle y ⟨j, hj⟩
    exact ⟨A, hA⟩
  have hρ0 : ∀ j, 0 ≤ ρ j := by
    intro j
    have hmem : ρ j ∈ ps.map (· * g.hgc.prod) := by rw [hρ]; exact List.mem_ofFn.2 ⟨j, rfl⟩
    obtain ⟨p, hp, h1⟩ := List.mem_map.1 hmem
    rw [← h1]
    exact mul_nonneg (hnn p hp) (hgc_nonneg (Built.matched hb).proper hg)
  have hT0 : ∀ j i x y, 0 ≤ T j i x y := fun j i x y => by rw [hTdef]; exact (hst j).nonneg _ _ _
  have hJ : Joint P (fun ω => (J ω, Z ω)) X (Measure.pi fun _ => μ) fun jz y => ρ jz.1 * pathWeight π (T jz.1) (L y) jz.2 := by
    rw [hLdef]
    exact joint_of_hyperDraws μ q hq hq0 hqi hρ0 hπ hT0 (hTdef ▸ hD)
  have hw : ∀ jz : Fin g.rows.length × (Fin (n + 1) → Idx gs), Measurable fun y => ρ jz.1 * pathWeight π (T jz.1) (L y) jz.2 := fun jz => by
    rw [hLdef]
    unfold pathWeight
    fun_prop
  have hpw : ∀ j z y, 0 ≤ pathWeight π (T j) (L y) z := fun j z y => mul_nonneg (mul_nonneg (hπ _) (Finset.prod_nonneg fun i _ => hT0 _ _ _ _)) (Finset.prod_nonneg fun i _ => hL0 _ _ _)
  have hw0 : ∀ (jz : Fin g.rows.length × (Fin (n + 1) → Idx gs)) y, 0 ≤ ρ jz.1 * pathWeight π (T jz.1) (L y) jz.2 := fun jz y => mul_nonneg (hρ0 _) (hpw _ _ _)
  have htot : ∀ y, ∑ jz : Fin g.rows.length × (Fin (n + 1) → Idx gs), ρ jz.1 * pathWeight π (T jz.1) (L y) jz.2 = ∑ j, ρ j * evidence π (T j) (L y) := fun y => by
    rw [Fintype.sum_prod_type]
    exact Finset.sum_congr rfl fun j _ => by rw [evidence, Finset.mul_sum]
  have hpos := joint_ae_pos hJ hw hw0
  have hIE : ∀ y, (⟨E, grid, List.ofFn fun i x => q x (y i), List.ofFn τ, fo, eo, ε⟩ : FitIn ℝ gs) = I y := fun y => by rw [hI, hLdef]
  simp only [hIE]
  refine ⟨calibrated_of_given hJ hw hw0 Prod.fst _ ?_, fun heo hε k hk => ?_⟩
  · filter_upwards [hpos] with ω hω A
    rw [htot] at hω
    obtain ⟨R, hR⟩ := hfit (X ω)
    obtain ⟨-, -, D, -, d2, d3⟩ := hyper_bayes (I (X ω)) nJobs H R g ps hb hsp hn (by rw [hI]; exact hcell) (by rw [hI]; exact hg) hps hr hnn hR ρ hρ _ (hev (X ω)) hω.ne'
    rw [hR]
    simp only [hyperProbIn, d2, Option.getD_some, given, htot]
    have hDj : ∀ j : Fin g.rows.length, D.getD j 0 * g.hgc.prod = ρ j * evidence π (T j) (L (X ω)) / ∑ i, ρ i * evidence π (T i) (L (X ω)) := by
      intro j
      have h1 : (D.map (· * g.hgc.prod))[(j : ℕ)]? = (List.ofFn fun j => ρ j * evidence π (T j) (L (X ω)) / ∑ i, ρ i * evidence π (T i) (L (X ω)))[(j : ℕ)]? := by rw [d3]
      rw [List.getElem?_map, List.getElem?_ofFn, dif_pos j.isLt] at h1
      obtain ⟨v, hv1, hv2⟩ := Option.map_eq_some_iff.1 h1
      rw [List.getD_eq_getElem?_getD, hv1]
      exact hv2
    simp only [hDj]
    rw [← Finset.sum_div, Fintype.sum_prod_type]
    congr 1
    simp only [mul_ite, mul_one, mul_zero]
    have : ∀ j, (∑ z : Fin (n + 1) → Idx gs, if j ∈ A then ρ j * pathWeight π (T j) (L (X ω)) z else 0) = if j ∈ A then ρ j * evidence π (T j) (L (X ω)) else 0 := fun j => by
      by_cases hj : j ∈ A
      · simp only [hj, if_true]
        rw [evidence, Finset.mul_sum]
      · simp [hj]
    simp only [this]
    rw [Finset.sum_ite_mem, Finset.univ_inter]
  · have hposts : ∀ y (j : Fin g.rows.length) A, singleFit (I y) H.tm H.S g.rows[j] = .ok A → evidence π (T j) (L y) ≠ 0 →
        A.posts[(k : ℕ)]? = some (.val (posterior π (T j) (L y) k)) := by
      intro y j A hA hne
      rw [hI] at hA
      rw [hTdef] at hne ⊢
      unfold singleFit at hA
      simp only [heo] at hA
      cases hfo : fo with
      | false =>
          rw [hfo] at hA
          have hex : ResetFree (modelAt H.tm g.rows[j]) ∧ ∀ i : Fin n, τ i.succ = τ i.castSucc + 1 := by
            rcases (hvj j).exact with h1 | h1
            · refine ⟨h1.1, ?_⟩
              simpa [heo, hfo] using h1.2
            · simp [heo, hfo] at h1
          obtain ⟨R, h1, h2, -⟩ := linear_posterior (S := H.S) (grid := grid) hE (hvj j).linear hp (Or.inl hex.1) (R := 1) (ρ := π) (hL0 y) (matched_of_unit hex.2) 0 (Or.inl hex.1) hne
          rw [hA] at h1
          cases h1
          rw [h2, List.getElem?_ofFn, dif_pos k.isLt]
      | true =>
          rw [hfo] at hA
          obtain ⟨R, h1, h2, -⟩ := linear_filtering (S := H.S) (grid := grid) hE (hvj j).linear hp (hvj j).resetCond (L := L y) (hL0 y) hne
          rw [hA] at h1
          cases h1
          have hkl := hk hfo
          subst hkl
          rw [h2, List.getElem?_ofFn, dif_pos (Fin.last n).isLt]
          rfl
    have hpost : ∀ y j (f : Idx gs → ℝ), evidence π (T j) (L y) * ∑ x, posterior π (T j) (L y) k x * f x = ∑ z, pathWeight π (T j) (L y) z * f (z k) := by
      intro y j f
      rw [posterior_given]
      by_cases h0 : ∑ z, pathWeight π (T j) (L y) z = 0
      · have hz := (Finset.sum_eq_zero_iff_of_nonneg fun z _ => hpw j z y).1 h0
        rw [evidence, h0, zero_mul]
        exact (Finset.sum_eq_zero fun z hz' => by rw [hz z hz', zero_mul]).symm
      · rw [evidence, mul_div_cancel₀ _ h0]
    have hp1 : ∀ y j, evidence π (T j) (L y) ≠ 0 → (∀ x, 0 ≤ posterior π (T j) (L y) k x) ∧ ∑ x, posterior π (T j) (L y) k x = 1 := by
      intro y j hne
      refine ⟨fun x => ?_, ?_⟩
      · have hnn : ∀ S : Finset (Fin (n + 1) → Idx gs), 0 ≤ ∑ z ∈ S, pathWeight π (T j) (L y) z := fun S => Finset.sum_nonneg fun z _ => hpw j z y
        exact div_nonneg (hnn _) (hnn _)
      · have := hpost y j fun _ => 1
        simp only [mul_one] at this
        exact mul_left_cancel₀ hne (this.trans (mul_one _).symm)
    have key : ∀ᵐ ω ∂P, ∃ R p, hyperFit (I (X ω)) nJobs H = .ok (some R) ∧ R.S.posts[(k : ℕ)]? = some (.val p) ∧ (∀ a, (R.S.means a)[(k : ℕ)]? = some (mean grid a p)) ∧
        ∀ f : Idx gs → ℝ, |∑ x, p x * f x - given (fun (jz : Fin g.rows.length × (Fin (n + 1) → Idx gs)) y => ρ jz.1 * pathWeight π (T jz.1) (L y) jz.2) (fun jz => f (jz.2 k)) (X ω)| ≤
          (∑ x, |f x|) * (Fintype.card (Idx gs) * ε) := by
      filter_upwards [hpos] with ω hω
      rw [htot] at hω
      obtain ⟨R, hR⟩ := hfit (X ω)
      obtain ⟨p, h1, h2, h3⟩ := hyper_average (I (X ω)) nJobs H R g ps hb hsp hn (by rw [hI]; exact hcell) (by rw [hI]; exact hg) hps hr hnn hR ρ hρ _ (hev (X ω)) hω.ne' (by rw [hI]; exact heo) (by rw [hI]; exact hε)
        (k := k) (by rw [hI]; simpa using Nat.le_of_lt_succ k.isLt) (fun j => posterior π (T j) (L (X ω)) k) fun j A hA hne => ⟨hposts _ j A hA hne, hp1 _ j hne⟩
      refine ⟨R, p, hR, h1, by rw [hI] at h2; exact h2, fun f => ?_⟩
      have hgiv : given (fun (jz : Fin g.rows.length × (Fin (n + 1) → Idx gs)) y => ρ jz.1 * pathWeight π (T jz.1) (L y) jz.2) (fun jz => f (jz.2 k)) (X ω) =
          ∑ x, (∑ j, ρ j * evidence π (T j) (L (X ω)) * posterior π (T j) (L (X ω)) k x) / (∑ j, ρ j * evidence π (T j) (L (X ω))) * f x := by
        rw [given, htot, Fintype.sum_prod_type]
        have : ∀ j, (∑ z, ρ j * pathWeight π (T j) (L (X ω)) z * f (z k)) = ∑ x, ρ j * evidence π (T j) (L (X ω)) * posterior π (T j) (L (X ω)) k x * f x := fun j => by
          have := congrArg (ρ j * ·) (hpost (X ω) j f)
          simp only [Finset.mul_sum] at this
          simp only [mul_assoc]
          exact this.symm
        simp only [this]
        rw [Finset.sum_comm, Finset.sum_div]
        exact Finset.sum_congr rfl fun x _ => by rw [← Finset.sum_mul]; ring
      rw [hgiv, ← Finset.sum_sub_distrib, Finset.sum_mul]
      refine (Finset.abs_sum_le_sum_abs _ _).trans (Finset.sum_le_sum fun x _ => ?_)
      rw [← sub_mul, abs_mul, mul_comm]
      refine mul_le_mul_of_nonneg_left ?_ (abs_nonneg _)
      have := h3 x
      rw [hI] at this
      exact this
    refine ⟨fun A => ?_, fun a => ?_⟩
    · have e : ({ω | Z ω k ∈ A}.indicator fun _ => (1 : ℝ)) = fun ω => if Z ω k ∈ A then (1 : ℝ) else 0 := by
        funext ω
        simp [Set.indicator]
      rw [e]
      filter_upwards [key, joint_condExp hJ hw hw0 fun jz => if jz.2 k ∈ A then (1 : ℝ) else 0] with ω h1 h2
      obtain ⟨R, p, r1, r2, -, r4⟩ := h1
      rw [h2, r1]
      have := r4 fun x => if x ∈ A then 1 else 0
      simpa [averaged, probIn, r2, abs_ite] using this
    · filter_upwards [key, joint_condExp hJ hw hw0 fun jz => grid a (jz.2 k a)] with ω h1 h2
      obtain ⟨R, p, r1, -, r3, r4⟩ := h1
      rw [h2, r1]
      simp only [averaged, meanAt, r3, Option.getD_some]
      exact r4 fun x => grid a (x a)

/-- Such draws exist. -/
theorem exists_hyperDraws {ι κ Y : Type} [Fintype ι] [DecidableEq ι] [Fintype κ] [DecidableEq κ] [MeasurableSpace Y] {n : ℕ} (ρ : κ → ℝ) (hρ : ∀ j, 0 ≤ ρ j) (h1 : ∑ j, ρ j = 1) (π : ι → ℝ) (T : κ → Fin n → ι → ι → ℝ)
    (law : ι → Measure Y) [∀ x, IsProbabilityMeasure (law x)] (hπ : ∀ x, 0 ≤ π x) (hT : ∀ j i x y, 0 ≤ T j i x y) (ht : ∀ j, ∑ z : Fin (n + 1) → ι, (π (z 0) * ∏ i : Fin n, T j i (z i.castSucc) (z i.succ)) = 1) :
    ∃ (Ω : Type) (_ : MeasurableSpace Ω) (P : Measure Ω) (J : Ω → κ) (Z : Ω → Fin (n + 1) → ι) (X : Ω → Fin (n + 1) → Y), IsProbabilityMeasure P ∧ HyperDraws P J Z X ρ π T law := by
  have h := fun j => exists_draws (Y := Y) π (T j) law hπ (hT j) (ht j)
  choose Ω mΩ P Z X hP hD using h
  letI : MeasurableSpace (Fin (n + 1) → ι) := ⊤
  have hZ : ∀ j, @Measurable _ _ (mΩ j) ⊤ (Z j) := fun j => by
    letI := mΩ j
    exact measurable_to_countable' fun z => (hD j).unknown z
  have hm : ∀ j, @Measurable _ _ (mΩ j) _ fun ω => (Z j ω, X j ω) := fun j => by
    letI := mΩ j
    exact (hZ j).prodMk (hD j).data
  have hpr : ∀ j, IsProbabilityMeasure (@Measure.map _ _ (mΩ j) _ (fun ω => (Z j ω, X j ω)) (P j)) := fun j => by
    letI := mΩ j
    haveI := hP j
    exact Measure.isProbabilityMeasure_map (hm j).aemeasurable
  obtain ⟨Ω', mΩ', P', M, W, hP', hM, hW, hl⟩ := exists_mixture ρ hρ h1 fun j => @Measure.map _ _ (mΩ j) _ (fun ω => (Z j ω, X j ω)) (P j)
  have hz : ∀ z : Fin (n + 1) → ι, MeasurableSet ({z} : Set (Fin (n + 1) → ι)) := fun z => MeasurableSpace.measurableSet_top
  refine ⟨Ω', mΩ', P', M, fun ω => (W ω).1, fun ω => (W ω).2, hP', ⟨fun j z => ?_, hW.snd, fun j z B hB => ?_⟩⟩
  · exact (hM j).inter (hW.fst (hz z))
  · have e : {ω | M ω = j ∧ (W ω).1 = z ∧ (W ω).2 ∈ B} = {ω | M ω = j ∧ W ω ∈ ({z} : Set (Fin (n + 1) → ι)) ×ˢ B} := by
      ext ω
      simp
    letI := mΩ j
    rw [e, hl j _ ((hz z).prod hB), Measure.map_apply (hm j) ((hz z).prod hB), ← (hD j).law z B hB]
    congr 2

/-- a Gaussian random walk with two possible step sizes -/
noncomputable def _root_.Ex.twoWalks : HState ℝ Ex.gs3 where
  tm := .leaf (.grw "x") ["sigma"] [.array [1, 2]] (some (.item .none))
  S := FitState.init .none
  evs := []
  hpd := none

theorem _root_.Ex.twoWalks_grid (ts : List ℝ) : createHyperGrid Ex.twoWalks.tm ts = .ok ⟨[.array [1, 2]], ["sigma"], [[1], [2]], [1], some [1 / 2, 1 / 2]⟩ := by
  have h1 : hyperConst [(1 : ℝ), 2] = 1 := by
    simp [hyperConst, diff]
    norm_num
  have h2 : normPrior [(1 : ℝ), 1] 1 = some [1 / 2, 1 / 2] := by
    simp [normPrior]
    norm_num
  have : createHyperGrid Ex.twoWalks.tm ts = .ok ⟨[.array [1, 2]], ["sigma"], [[1], [2]], [hyperConst [(1 : ℝ), 2]], (allSome [normPrior [(1 : ℝ), 1] (hyperConst [(1 : ℝ), 2])]).map fun l => (cart l).map List.prod⟩ := rfl
  rw [this, h1, h2]
  simp [allSome, cart]

/-- The hypotheses are met: white noise whose standard deviation follows one of the two random walks. -/
example : ∃ (Ω : Type) (_ : MeasurableSpace Ω) (P : Measure Ω) (J : Ω → Fin 2) (X : Ω → Fin 3 → ℝ), IsProbabilityMeasure P ∧
    Calibrated P J X fun ω => hyperProbIn (g := ⟨[.array [1, 2]], ["sigma"], [[1], [2]], [1], some [1 / 2, 1 / 2]⟩)
      (hyperFit ⟨Ex.realEnv, fun _ (i : Fin 3) => (i.val : ℝ) + 1, List.ofFn fun i x => normalDensity 0 ((x 0 : Fin 3).val + 1) (X ω i), List.ofFn ![0, 1, 2], true, false, 1 / 10 ^ 300⟩ 1 Ex.twoWalks) := by
  have := Ex.realEnv_regular.nonempty
  obtain ⟨g, hgdef⟩ : ∃ g : HyperGrid ℝ, g = ⟨[.array [1, 2]], ["sigma"], [[1], [2]], [1], some [1 / 2, 1 / 2]⟩ := ⟨_, rfl⟩
  have hrows : g.rows.length = 2 := by rw [hgdef]; rfl
  have hb : Built Ex.twoWalks.tm := .grw (name := "sigma") (value := .val (.array [1, 2])) (target := some "x") (prior := .item .none) rfl trivial rfl
  have hsp : " " ∉ (entries Ex.twoWalks.tm).map (·.1) := by simp [Ex.twoWalks, entries]
  have hax : Ex.realEnv.axis "x" = .ok 0 := by simp [Env.axis, Ex.realEnv, List.finRange_succ]
  have hlin : ∀ row ∈ g.rows, Linear Ex.realEnv (modelAt Ex.twoWalks.tm row) := by
    intro row hrow
    rw [hgdef] at hrow
    have : row = [1] ∨ row = [2] := by simpa using hrow
    rcases this with rfl | rfl
    · change Linear Ex.realEnv (.leaf (.grw "x") ["sigma"] [.scalar 1] (some (.item .none)))
      simp [Linear, hax]
    · change Linear Ex.realEnv (.leaf (.grw "x") ["sigma"] [.scalar 2] (some (.item .none)))
      simp [Linear, hax]
  have hv : ∀ row ∈ g.rows, (Ex.noise (modelAt Ex.twoWalks.tm row)).Valid volume ![0, 1, 2] true false := fun row hrow => Ex.noise_valid _ (hlin row hrow)
  have hlaw : ∀ x : Idx Ex.gs3, IsProbabilityMeasure (volume.withDensity fun y => ENNReal.ofReal (normalDensity 0 ((x 0 : Fin 3).val + 1) y)) := fun x => ⟨by
    have hd : IsDensity (normalDensity 0 ((x 0 : Fin 3).val + 1)) := normal_isDensity (by positivity) _
    rw [withDensity_apply _ MeasurableSet.univ, Measure.restrict_univ, ← ofReal_integral_eq_lintegral_ofReal hd.integrable (.of_forall hd.nonneg), hd.total, ENNReal.ofReal_one]⟩
  have hst : ∀ j : Fin g.rows.length, Stoch (kernel Ex.realEnv (fun _ => 1 / (Fintype.card (Idx Ex.gs3) : ℝ)) (modelAt Ex.twoWalks.tm g.rows[j])) := fun j =>
    kernel_stoch Ex.realEnv_regular (hlin _ (List.getElem_mem _)) (hv _ (List.getElem_mem _)).resetCond
  have hone : ∑ _ : Idx Ex.gs3, 1 / (Fintype.card (Idx Ex.gs3) : ℝ) = 1 := by
    rw [Finset.sum_const, Finset.card_univ, nsmul_eq_mul, mul_one_div_cancel (Nat.cast_ne_zero.2 Fintype.card_ne_zero)]
  obtain ⟨Ω, hΩ, P, J, Z, X, hP, hD⟩ := exists_hyperDraws (n := 2) (Y := ℝ) (fun _ : Fin g.rows.length => (1 / 2 : ℝ)) (fun _ => by positivity) (by simp [hrows]) (fun _ => 1 / (Fintype.card (Idx Ex.gs3) : ℝ))
    (fun j i => kernel Ex.realEnv (fun _ => 1 / (Fintype.card (Idx Ex.gs3) : ℝ)) (modelAt Ex.twoWalks.tm g.rows[j]) (![0, 1, 2] i.castSucc)) (fun x => volume.withDensity fun y => ENNReal.ofReal (normalDensity 0 ((x 0 : Fin 3).val + 1) y))
    (fun _ => by positivity) (fun j i => (hst j).nonneg _) fun j => by
      have := evidence_ones (fun _ => 1 / (Fintype.card (Idx Ex.gs3) : ℝ)) (fun i : Fin 2 => kernel Ex.realEnv (fun _ => 1 / (Fintype.card (Idx Ex.gs3) : ℝ)) (modelAt Ex.twoWalks.tm g.rows[j]) ((![0, 1, 2] : Fin 3 → ℝ) i.castSucc)) fun i => (hst j).sum _
      simp only [evidence, pathWeight, Finset.prod_const_one, mul_one] at this
      rw [this, hone]
  have hok : ∀ y : Fin 3 → ℝ, ∃ R, hyperFit ⟨Ex.realEnv, fun _ (i : Fin 3) => (i.val : ℝ) + 1, List.ofFn fun i x => normalDensity 0 ((x 0 : Fin 3).val + 1) (y i), List.ofFn ![0, 1, 2], true, false, 1 / 10 ^ 300⟩ 1 Ex.twoWalks = .ok (some R) := by
    intro y
    refine hyperFit_ok _ 1 Ex.twoWalks g [1 / 2, 1 / 2] hb hsp rfl (by rw [hgdef]; exact Ex.twoWalks_grid _) (by rw [hgdef]) (by omega) (by rw [hgdef]; rfl) (by decide) fun row hrow => ?_
    obtain ⟨A, hA, -⟩ := C02_partial Ex.realEnv (fun _ (i : Fin 3) => (i.val : ℝ) + 1) _ Ex.realEnv_regular (hlin row hrow) (Or.inl (by simp [Ex.realEnv, Env.cell])) (FitState.init .none) _ .flat (Or.inl rfl)
      (fun i x => normalDensity 0 ((x 0 : Fin 3).val + 1) (y i)) (fun i x => (normal_isDensity (by positivity) _).nonneg _) ![0, 1, 2] true false (Or.inr rfl)
    exact ⟨A, hA⟩
  have := (C100 Ex.realEnv (fun _ (i : Fin 3) => (i.val : ℝ) + 1) 1 Ex.twoWalks g [1 / 2, 1 / 2] hb hsp rfl ![0, 1, 2] (by rw [hgdef]; exact Ex.twoWalks_grid _) (by rw [hgdef]) (by omega) (by simp) (fun _ => 1 / 2)
    (by rw [hgdef]; simp [List.ofFn_succ]) _ volume (fun x y => normalDensity 0 ((x 0 : Fin 3).val + 1) y) true false (1 / 10 ^ 300) hv ⟨0, hok 0⟩ P J Z X hD).1
  subst hgdef
  exact ⟨Ω, hΩ, P, J, X, hP, this⟩

end Props
