import Verif.Props.C100
import Verif.Props.C117

/-! # C125: the change-points and structural breaks reported by a change-point study are calibrated -/

set_option linter.unusedSectionVars false

open MeasureTheory
open scoped ENNReal

namespace Spec
open BL
variable {d : ℕ} {gs : Fin d → ℕ}

/-- The probability that a fit of a change-point study reports for a set of combinations of change-points (reported density times volume of a cell of the hyper-grid). -/
noncomputable def changeProbIn (r : Except PyErr (Option (CState ℝ gs))) (g : HyperGrid ℝ) (A : Finset (Fin g.rows.length)) : ℝ :=
  match r with
  | .ok (some C) => ∑ j ∈ A, (C.R.hpd.getD []).getD j 0 * g.hgc.prod
  | _ => 0

/-- the averaged posterior distributions of a fit of a change-point study -/
def changeAveraged (r : Except PyErr (Option (CState ℝ gs))) : Except PyErr (FitState ℝ gs) :=
  match r with
  | .ok (some C) => .ok C.R.S
  | .ok none => .error .configuration
  | .error e => .error e

open Classical in
/-- Prior probability of a combination of change-points, given that the change-points are in order: the prior probabilities (prior value times volume of a cell of the hyper-grid) of the combinations in order, divided by their sum. -/
noncomputable def orderedPrior (tm : TM ℝ) (g : HyperGrid ℝ) (ps : List ℝ) (j : Fin g.rows.length) : ℝ :=
  if InOrder tm g.rows[j] then ps.getD j 0 * g.hgc.prod / ∑ i : Fin g.rows.length, (if InOrder tm g.rows[i] then ps.getD i 0 * g.hgc.prod else 0) else 0

/-- `ChangeDraws P J V X ρ π piece law`: under `P`, a combination of change-points is drawn with probabilities `ρ`, then independently for each of the `m` pieces a parameter value from `π`, then independently for each time step `i` a data point
from the distribution that `law` assigns to the value of the piece `piece j i` which contains this time step. -/
structure ChangeDraws {Ω ι κ Y : Type} [MeasurableSpace Ω] [MeasurableSpace Y] {n m : ℕ} (P : Measure Ω) (J : Ω → κ) (V : Ω → Fin m → ι) (X : Ω → Fin n → Y) (ρ : κ → ℝ) (π : ι → ℝ)
    (piece : κ → Fin n → Fin m) (law : ι → Measure Y) : Prop where
  unknown : ∀ j v, MeasurableSet {ω | J ω = j ∧ V ω = v}
  data : Measurable X
  law : ∀ j v B, MeasurableSet B → P {ω | J ω = j ∧ V ω = v ∧ X ω ∈ B} =
    ENNReal.ofReal (ρ j) * (ENNReal.ofReal (∏ s, π (v s)) * Measure.pi (fun i => law (v (piece j i))) B)

end Spec

namespace BL
open Spec
variable {d : ℕ} {gs : Fin d → ℕ}

theorem joint_of_changeDraws {Ω ι κ Y : Type} [MeasurableSpace Ω] [MeasurableSpace Y] [Fintype ι] [DecidableEq ι] {n m : ℕ} {P : Measure Ω} {J : Ω → κ} {V : Ω → Fin m → ι} {X : Ω → Fin n → Y} {ρ : κ → ℝ} {π : ι → ℝ}
    {piece : κ → Fin n → Fin m} (μ : Measure Y) [SigmaFinite μ] (q : ι → Y → ℝ) (hq : ∀ x, Measurable (q x)) (hq0 : ∀ x y, 0 ≤ q x y) (hqi : ∀ x, Integrable (q x) μ) (hρ : ∀ j, 0 ≤ ρ j) (hπ : ∀ x, 0 ≤ π x)
    (h : ChangeDraws P J V X ρ π piece fun x => μ.withDensity fun y => ENNReal.ofReal (q x y)) :
    Joint P (fun ω => (J ω, V ω)) X (Measure.pi fun _ => μ) fun jv y => ρ jv.1 * ((∏ s, π (jv.2 s)) * ∏ i, q (jv.2 (piece jv.1 i)) (y i)) := by
  refine ⟨fun jv => ?_, h.data, fun jv B hB => ?_⟩
  · have := h.unknown jv.1 jv.2
    simpa only [Prod.ext_iff] using this
  · obtain ⟨j, v⟩ := jv
    have h0 : 0 ≤ ∏ s, π (v s) := Finset.prod_nonneg fun s _ => hπ _
    have e : {ω | (J ω, V ω) = (j, v) ∧ X ω ∈ B} = {ω | J ω = j ∧ V ω = v ∧ X ω ∈ B} := by
      ext ω
      simp [and_assoc]
    rw [e, h.law j v B hB, pi_withDensity μ (fun i => q (v (piece j i))) (fun i => hq0 _) fun i => hqi _, withDensity_apply _ hB, ← lintegral_const_mul _ (by fun_prop), ← lintegral_const_mul _ (by fun_prop)]
    refine lintegral_congr fun y => ?_
    rw [← ENNReal.ofReal_mul h0, ← ENNReal.ofReal_mul (hρ j)]

/-- sum over the values of all pieces -/
theorem sum_pieces {ι : Type} [Fintype ι] [DecidableEq ι] {n m : ℕ} (π : ι → ℝ) (piece : Fin n → Fin m) (f : Fin n → ι → ℝ) :
    ∑ v : Fin m → ι, (∏ s, π (v s)) * ∏ i, f i (v (piece i)) = ∏ s, ∑ x, π x * ∏ i with piece i = s, f i x := by
  rw [Finset.prod_univ_sum, Fintype.piFinset_univ]
  refine Finset.sum_congr rfl fun v _ => ?_
  rw [Finset.prod_mul_distrib]
  congr 1
  rw [← Finset.prod_fiberwise (s := Finset.univ) (g := piece)]
  refine Finset.prod_congr rfl fun s _ => Finset.prod_congr rfl fun i hi => ?_
  rw [(Finset.mem_filter.1 hi).2]

theorem sum_changes {ι : Type} [Fintype ι] [DecidableEq ι] {n m : ℕ} (π : ι → ℝ) (r : List ℝ) (τ : Fin n → ℝ) (hm : m = r.length + 1) (piece : Fin n → Fin m) (hpc : ∀ i, (piece i : ℕ) = pieceOf r (τ i)) (L : Fin n → ι → ℝ) :
    ∑ v : Fin m → ι, (∏ s, π (v s)) * ∏ i, L i (v (piece i)) = changeEvidence π r τ L := by
  rw [sum_pieces, changeEvidence, ← hm, ← Fin.prod_univ_eq_prod_range (fun s => ∑ x, π x * ∏ i with pieceOf r (τ i) = s, L i x)]
  refine Finset.prod_congr rfl fun s _ => Finset.sum_congr rfl fun x _ => ?_
  congr 1
  refine Finset.prod_congr ?_ fun _ _ => rfl
  ext i
  simp only [Finset.mem_filter, Finset.mem_univ, true_and, ← hpc, Fin.ext_iff]

end BL

namespace Props
open BL Spec
variable {d : ℕ} {gs : Fin d → ℕ} {Y : Type}

theorem overInOrder_eq (tm : TM ℝ) (rows : List (List ℝ)) (ps : List ℝ) (hl : ps.length = rows.length) (f : List ℝ → ℝ) :
    overInOrder tm rows ps f = ∑ j : Fin rows.length, if InOrder tm rows[j] then ps.getD j 0 * f rows[j] else 0 := by
  have h1 : ∀ l : List (List ℝ × ℝ), ((l.filter fun q => decide (InOrder tm q.1)).map fun q => q.2 * f q.1).sum = (l.map fun q => if InOrder tm q.1 then q.2 * f q.1 else 0).sum := by
    intro l
    induction l with
    | nil => rfl
    | cons a l ih =>
        by_cases h : InOrder tm a.1
        · simp [h, ih]
        · simp [h, ih]
  rw [overInOrder, h1, ← List.sum_ofFn]
  congr 1
  refine List.ext_getElem (by simp [hl]) fun j h2 h3 => ?_
  have hj : j < rows.length := by simpa using h3
  have hj' : j < ps.length := by omega
  simp [hj']

theorem hyperDist_length {evs : List (LogV ℝ)} {ps hgc D : List ℝ} (h : hyperDist evs ps hgc = some D) (hl : ps.length = evs.length) : D.length = evs.length := by
  unfold hyperDist at h
  simp only at h
  split at h
  · cases h
  · split at h
    · cases h
    · cases h
      simp [logHPD, hl]

/-- settings for which the fit is not rejected -/
theorem cpFit_ok (I : FitIn ℝ gs) (nJobs : ℕ) (H : HState ℝ gs) (g : HyperGrid ℝ) (ps : List ℝ) (hb : Built H.tm)
    (hsp : " " ∉ (entries H.tm).map (·.1)) (hn : H.S.prior.isArray = false)
    (hg : createHyperGrid H.tm I.ts = .ok g) (hps : g.priors = some ps) (hr : 1 < (g.rows.filter fun r => decide (InOrder H.tm r)).length)
    (hsc : ¬ H.tm.serialCount > 1) (hnb : ¬ ((flatten H.tm.cpNameTree).length > 0 ∧ (flatten H.tm.bpNameTree).length > 0)) (hnb2 : ¬ ((flatten H.tm.cpNameTree).length = 0 ∧ (flatten H.tm.bpNameTree).length = 0))
    (hd : ¬ (duplicates H.tm.flatNames).length > 0) (hs : (select (g.rows.map fun r => decide (InOrder H.tm r)) ps).sum ≠ 0)
    (hall : ∀ r ∈ g.rows, InOrder H.tm r → ∃ A, singleFit I H.tm H.S r = .ok A) : ∃ C, cpFit I nJobs H = .ok (some C) := by
  have hm := Built.matched hb
  have hp := hm.proper
  have hnd : ((entries H.tm).map (·.1)).Nodup := by
    rw [← entries_names H.tm hp]
    exact (Props.duplicates_eq_nil _).1 (List.length_eq_zero_iff.1 (by omega))
  obtain ⟨e1, e2, -, e4⟩ := Props.createHyperGrid_eq hp hg
  have hne : entries H.tm ≠ [] := by
    intro h0
    rw [if_pos h0] at e4
    rw [e4] at hr
    simp at hr
  rw [if_neg hne] at e4
  have c6 := weights_len hm hne hg hps
  obtain ⟨qs, c4⟩ : ∃ qs, qs = (select (g.rows.map fun r => decide (InOrder H.tm r)) ps).map
        (· * (ps.sum / (select (g.rows.map fun r => decide (InOrder H.tm r)) ps).sum)) := ⟨_, rfl⟩
  have hw : WellNamed H.tm := ⟨hp, hnd, hsp⟩
  have hlen : ∀ r ∈ g.rows.filter (fun r => decide (InOrder H.tm r)), r.length = (entries H.tm).length := by
    intro r hr
    have hr := (List.mem_filter.1 hr).1
    rw [e4, cart_mem] at hr
    rw [hr.length_eq, axes, List.length_map]
  have hfl : g.flat.length = (entries H.tm).length := by rw [e1, List.length_map, entries_values H.tm hp, List.length_map]
  have hfp : ∀ v ∈ g.flat, Plain v := by
    intro v hv
    rw [e1] at hv
    obtain ⟨w, hw, rfl⟩ := List.mem_map.1 hv
    exact expandAll_plain (entries_plain H.tm hp w hw)
  have hsl := select_length (fun r => decide (InOrder H.tm r)) g.rows ps c6
  have hql : qs.length = (g.rows.filter fun r => decide (InOrder H.tm r)).length := by rw [c4, List.length_map, hsl]
  have hcore := hyperCore_spec I nJobs g.flat _ g.hgc qs H hw hn hr hql hlen hfl hfp
  have hA : ∃ As', mapE (singleFit I H.tm H.S) (g.rows.filter fun r => decide (InOrder H.tm r)) = .ok As' := by
    have hall' : ∀ r ∈ g.rows.filter (fun r => decide (InOrder H.tm r)), ∃ A, singleFit I H.tm H.S r = .ok A := fun r hr =>
      hall r (List.mem_filter.1 hr).1 (by simpa using (List.mem_filter.1 hr).2)
    have : ∃ As, List.Forall₂ (fun row A => singleFit I H.tm H.S row = .ok A) (g.rows.filter fun r => decide (InOrder H.tm r)) As := by
      clear * - hall'
      generalize (g.rows.filter fun r => decide (InOrder H.tm r)) = rows at hall'
      induction rows with
      | nil => exact ⟨[], .nil⟩
      | cons r rs ih =>
          obtain ⟨A, hA⟩ := hall' r (by simp)
          obtain ⟨As, hAs⟩ := ih fun r' hr' => hall' r' (by simp [hr'])
          exact ⟨A :: As, .cons hA hAs⟩
    obtain ⟨As', h'⟩ := this
    exact ⟨As', mapE_ok.2 h'⟩
  obtain ⟨As', hA⟩ := hA
  rw [hA] at hcore
  simp only at hcore
  obtain ⟨R, r0, r1, r2, r3, -⟩ := hcore
  have hAl := (mapE_ok.1 hA).length_eq
  unfold cpFit
  rw [if_neg hsc]
  simp only
  rw [if_neg hnb, if_neg hnb2, hg]
  simp only [bind, Except.bind]
  rw [if_neg hd, cp_mask hp hg hnd hnb, hps, select_map]
  simp only
  unfold rescaled
  simp only
  rw [if_neg hs, ← c4]
  simp only
  rw [r0]
  simp only
  cases hh : R.hpd with
  | none => exact ⟨_, rfl⟩
  | some l =>
      simp only
      rw [if_pos]
      · exact ⟨_, rfl⟩
      · rw [r2] at hh
        rw [hyperDist_length hh (by rw [List.length_map, hql, hAl]), List.length_map, hAl]

/-- the settings are accepted or not, whatever the data are -/
theorem cpFit_accepts (I I' : FitIn ℝ gs) (nJobs : ℕ) (H : HState ℝ gs) (C : CState ℝ gs) (g : HyperGrid ℝ) (ps : List ℝ) (hb : Built H.tm)
    (hsp : " " ∉ (entries H.tm).map (·.1)) (hn : H.S.prior.isArray = false) (hts : I'.ts = I.ts)
    (hg : createHyperGrid H.tm I.ts = .ok g) (hps : g.priors = some ps)
    (hr : 1 < (g.rows.filter fun r => decide (InOrder H.tm r)).length) (h : cpFit I nJobs H = .ok (some C))
    (hall : ∀ r ∈ g.rows, InOrder H.tm r → ∃ A, singleFit I' H.tm H.S r = .ok A) : ∃ C', cpFit I' nJobs H = .ok (some C') := by
  obtain ⟨As, qs, hpd, c1, c2, c3, c4, c5, c6, -⟩ := cpFit_full I nJobs H C g ps hb hsp hn hg hps hr h
  unfold cpFit at h
  split at h
  · cases h
  rename_i hsc
  simp only at h
  split at h
  · cases h
  rename_i hnb
  split at h
  · cases h
  rename_i hnb2
  rw [hg] at h
  simp only [bind, Except.bind] at h
  split at h
  · cases h
  rename_i hd
  exact cpFit_ok I' nJobs H g ps hb hsp hn (by rw [hts]; exact hg) hps hr hsc hnb hnb2 hd c5 hall

/-- the evidence of a change-point study -/
theorem cp_total (I : FitIn ℝ gs) (nJobs : ℕ) (H : HState ℝ gs) (C : CState ℝ gs) (g : HyperGrid ℝ) (ps : List ℝ) (hb : Built H.tm)
    (hsp : " " ∉ (entries H.tm).map (·.1)) (hn : H.S.prior.isArray = false) (hg : createHyperGrid H.tm I.ts = .ok g) (hps : g.priors = some ps)
    (hr : 1 < (g.rows.filter fun r => decide (InOrder H.tm r)).length) (h : cpFit I nJobs H = .ok (some C)) (ev : List ℝ → ℝ)
    (hev : ∀ r ∈ g.rows, InOrder H.tm r → ∀ A, singleFit I H.tm H.S r = .ok A → A.logEv.exp = ev r) :
    ps.length = g.rows.length ∧ C.R.S.logEv.exp = (ps.sum / (select (g.rows.map fun r => decide (InOrder H.tm r)) ps).sum * g.hgc.prod) * overInOrder H.tm g.rows ps ev ∧
      (select (g.rows.map fun r => decide (InOrder H.tm r)) ps).sum ≠ 0 := by
  obtain ⟨As, qs, hpd, c1, c2, c3, c4, c5, c6, c7, c8, c9, c10, c11, c12, c13, -⟩ := cpFit_full I nJobs H C g ps hb hsp hn hg hps hr h
  refine ⟨c6, ?_, c5⟩
  set f : List ℝ → Bool := fun r => decide (InOrder H.tm r) with hf
  have hsz : ((g.rows.zip ps).filter fun q => f q.1) = (g.rows.filter f).zip (select (g.rows.map f) ps) := select_zip f g.rows ps c6
  have hAs := singles_map c8 (fun A => A.logEv.exp) ev fun r hr A hA => hev r (List.mem_filter.1 hr).1 (by simpa [hf] using (List.mem_filter.1 hr).2) A hA
  rw [c13, hyperEvidence_eq, joint_eq, c4]
  rw [zip_values (fun a b => a * b * g.hgc.prod) (fun A : FitState ℝ gs => A.logEv.exp) ev (· * (ps.sum / (select (g.rows.map f) ps).sum)) As (g.rows.filter f) _ hAs, ← hsz]
  unfold overInOrder
  rw [← List.sum_map_mul_left]
  congr 1
  refine List.map_congr_left fun q _ => ?_
  ring

/-- Bayes' rule for the combinations in order -/
theorem cp_bayes (I : FitIn ℝ gs) (nJobs : ℕ) (H : HState ℝ gs) (C : CState ℝ gs) (g : HyperGrid ℝ) (ps : List ℝ) (hb : Built H.tm)
    (hsp : " " ∉ (entries H.tm).map (·.1)) (hE : Regular I.E) (hn : H.S.prior.isArray = false)
    (hg : createHyperGrid H.tm I.ts = .ok g) (hps : g.priors = some ps) (hnn : ∀ p ∈ ps, 0 ≤ p)
    (hr : 1 < (g.rows.filter fun r => decide (InOrder H.tm r)).length)
    (h : cpFit I nJobs H = .ok (some C)) (ev : List ℝ → ℝ) (κ : ℝ) (hκ : κ ≠ 0)
    (hev : ∀ r ∈ g.rows, InOrder H.tm r → ∀ A, singleFit I H.tm H.S r = .ok A → A.logEv.exp = ev r * κ)
    (hpos : ∑ j : Fin g.rows.length, orderedPrior H.tm g ps j * ev g.rows[j] ≠ 0) :
    C.R.S.logEv ≠ LogV.ninf ∧ ∃ D, C.R.hpd = some D ∧ ∀ j : Fin g.rows.length, D.getD j 0 * g.hgc.prod = orderedPrior H.tm g ps j * ev g.rows[j] / ∑ i : Fin g.rows.length, orderedPrior H.tm g ps i * ev g.rows[i] := by
  classical
  obtain ⟨hl, hT, hs⟩ := cp_total I nJobs H C g ps hb hsp hn hg hps hr h _ hev
  obtain ⟨S, hS⟩ : ∃ S, S = ∑ i : Fin g.rows.length, (if InOrder H.tm g.rows[i] then ps.getD i 0 * g.hgc.prod else 0) := ⟨_, rfl⟩
  have hov : ∀ f, ∑ j : Fin g.rows.length, orderedPrior H.tm g ps j * f g.rows[j] = g.hgc.prod / S * overInOrder H.tm g.rows ps f := by
    intro f
    rw [overInOrder_eq H.tm g.rows ps hl, Finset.mul_sum]
    refine Finset.sum_congr rfl fun j _ => ?_
    unfold orderedPrior
    rw [← hS]
    by_cases hj : InOrder H.tm g.rows[j]
    · rw [if_pos hj, if_pos hj]
      ring
    · rw [if_neg hj, if_neg hj]
      ring
  have hovκ : overInOrder H.tm g.rows ps (fun r => ev r * κ) = overInOrder H.tm g.rows ps ev * κ := by
    rw [overInOrder_eq H.tm g.rows ps hl, overInOrder_eq H.tm g.rows ps hl, Finset.sum_mul]
    exact Finset.sum_congr rfl fun j _ => by split <;> ring
  rw [hov] at hpos
  have h1 : overInOrder H.tm g.rows ps ev ≠ 0 := right_ne_zero_of_mul hpos
  have h2 : g.hgc.prod / S ≠ 0 := left_ne_zero_of_mul hpos
  have h3 : g.hgc.prod ≠ 0 := fun h0 => h2 (by rw [h0, zero_div])
  have h4 : ps.sum ≠ 0 := by
    intro h0
    have hz : ∀ p ∈ ps, p = 0 := fun p hp => le_antisymm (h0 ▸ List.single_le_sum hnn p hp) (hnn p hp)
    apply hs
    refine List.sum_eq_zero fun p hp => hz p ?_
    have := select_zip (fun r => decide (InOrder H.tm r)) g.rows ps hl
    have hsl := select_length (fun r => decide (InOrder H.tm r)) g.rows ps hl
    rw [← List.map_snd_zip (l₁ := g.rows.filter fun r => decide (InOrder H.tm r)) (l₂ := select (g.rows.map fun r => decide (InOrder H.tm r)) ps) (by rw [hsl]), ← this] at hp
    obtain ⟨q, hq, rfl⟩ := List.mem_map.1 hp
    exact (List.of_mem_zip (List.mem_filter.1 hq).1).2
  have hfin : C.R.S.logEv ≠ LogV.ninf := by
    intro h0
    rw [h0, hovκ] at hT
    have : (ps.sum / (select (g.rows.map fun r => decide (InOrder H.tm r)) ps).sum * g.hgc.prod) * (overInOrder H.tm g.rows ps ev * κ) ≠ 0 :=
      mul_ne_zero (mul_ne_zero (div_ne_zero h4 hs) h3) (mul_ne_zero h1 hκ)
    exact this hT.symm
  refine ⟨hfin, ?_⟩
  obtain ⟨ev', hev'⟩ : ∃ ev' : List ℝ → ℝ, ∀ r A, singleFit I H.tm H.S r = .ok A → A.logEv.exp = ev' r :=
    ⟨fun r => match singleFit I H.tm H.S r with | .ok A => A.logEv.exp | .error _ => 0, fun r A hA => by simp only [hA]⟩
  obtain ⟨⟨D, d1, d2, d3⟩, -⟩ := cp_exact I nJobs H C g ps hb hsp hE hn hg hps hnn hr h hfin ev' fun r _ _ A hA => hev' r A hA
  obtain ⟨As, qs, hpd, c1, c2, c3, c4, c5, c6, c7, c8, -⟩ := cpFit_full I nJobs H C g ps hb hsp hn hg hps hr h
  have hee : ∀ r ∈ g.rows, InOrder H.tm r → ev' r = ev r * κ := by
    intro r hr1 hr2
    obtain ⟨i, hi, rfl⟩ := List.getElem_of_mem (List.mem_filter.2 ⟨hr1, by simpa using hr2⟩ : r ∈ g.rows.filter fun r => decide (InOrder H.tm r))
    have hi' : i < As.length := by rw [← c8.length_eq]; exact hi
    have hA := List.Forall₂.get c8 hi hi'
    simp only [List.get_eq_getElem] at hA
    rw [← hev' _ _ hA, hev _ hr1 hr2 _ hA]
  have hov' : overInOrder H.tm g.rows ps ev' = overInOrder H.tm g.rows ps ev * κ := by
    rw [← hovκ, overInOrder_eq H.tm g.rows ps hl, overInOrder_eq H.tm g.rows ps hl]
    refine Finset.sum_congr rfl fun j _ => ?_
    split
    · rename_i hj
      rw [hee g.rows[j] (List.getElem_mem _) hj]
    · rfl
  refine ⟨D, d1, fun j => ?_⟩
  have hj' : (j : ℕ) < ps.length := by rw [hl]; exact j.2
  have hjD : (j : ℕ) < D.length := by rw [d2]; exact j.2
  have hj : D.getD j 0 * g.hgc.prod = if InOrder H.tm g.rows[j] then ps.getD j 0 * ev' g.rows[j] / overInOrder H.tm g.rows ps ev' else 0 := by
    have := congrArg (fun l : List ℝ => l[(j : ℕ)]?) d3
    simp [hj', hjD] at this
    simpa [hj', hjD] using this
  rw [hj, hov]
  unfold orderedPrior
  rw [← hS]
  split
  · rename_i ho
    rw [hee g.rows[j] (List.getElem_mem _) ho, hov']
    have hS0 : S ≠ 0 := fun h0 => h2 (by rw [h0, div_zero])
    field_simp
  · simp

theorem orderedPrior_sum (tm : TM ℝ) (g : HyperGrid ℝ) (ps : List ℝ) (hl : ps.length = g.rows.length) :
    ∃ c, ∀ f, ∑ j : Fin g.rows.length, orderedPrior tm g ps j * f g.rows[j] = c * overInOrder tm g.rows ps f := by
  classical
  refine ⟨g.hgc.prod / ∑ i : Fin g.rows.length, (if InOrder tm g.rows[i] then ps.getD i 0 * g.hgc.prod else 0), fun f => ?_⟩
  rw [overInOrder_eq tm g.rows ps hl, Finset.mul_sum]
  refine Finset.sum_congr rfl fun j _ => ?_
  unfold orderedPrior
  by_cases hj : InOrder tm g.rows[j]
  · rw [if_pos hj, if_pos hj]
    ring
  · rw [if_neg hj, if_neg hj]
    ring

theorem orderedPrior_nonneg {tm : TM ℝ} {g : HyperGrid ℝ} {ps : List ℝ} (hnn : ∀ p ∈ ps, 0 ≤ p) (hc : 0 ≤ g.hgc.prod) (j : Fin g.rows.length) : 0 ≤ orderedPrior tm g ps j := by
  classical
  have h0 : ∀ i : ℕ, 0 ≤ ps.getD i 0 := fun i => by
    rw [List.getD_eq_getElem?_getD]
    cases h : ps[i]? with
    | none => simp
    | some p => exact hnn p (List.mem_of_getElem? h)
  unfold orderedPrior
  split
  · refine div_nonneg (mul_nonneg (h0 _) hc) (Finset.sum_nonneg fun i _ => ?_)
    split
    · exact mul_nonneg (h0 _) hc
    · exact le_rfl
  · exact le_rfl

section generic
variable {Ω ζ : Type} [MeasurableSpace Ω] [MeasurableSpace Y] [Fintype ζ] {n : ℕ}

/-- a study whose single fits report the evidences `ev` -/
structure Exactly (I : (Fin (n + 1) → Y) → FitIn ℝ gs) (nJobs : ℕ) (H : HState ℝ gs) (g : HyperGrid ℝ) (ps : List ℝ) (ev : (Fin (n + 1) → Y) → List ℝ → ℝ) (κ : ℝ) : Prop where
  built : Built H.tm
  space : " " ∉ (entries H.tm).map (·.1)
  regular : ∀ y, Regular (I y).E
  prior : H.S.prior.isArray = false
  grid : ∀ y, createHyperGrid H.tm (I y).ts = .ok g
  priors : g.priors = some ps
  nonneg : ∀ p ∈ ps, 0 ≤ p
  several : 1 < (g.rows.filter fun r => decide (InOrder H.tm r)).length
  accepted : ∃ y C, cpFit (I y) nJobs H = .ok (some C)
  factor : κ ≠ 0
  single : ∀ y, ∀ r ∈ g.rows, InOrder H.tm r → ∃ A, singleFit (I y) H.tm H.S r = .ok A ∧ A.logEv.exp = ev y r * κ

theorem Exactly.fits {I : (Fin (n + 1) → Y) → FitIn ℝ gs} {nJobs : ℕ} {H : HState ℝ gs} {g : HyperGrid ℝ} {ps : List ℝ} {ev : (Fin (n + 1) → Y) → List ℝ → ℝ} {κ : ℝ}
    (hX : Exactly I nJobs H g ps ev κ) (hts : ∀ y y', (I y).ts = (I y').ts) (y : Fin (n + 1) → Y) : ∃ C, cpFit (I y) nJobs H = .ok (some C) := by
  obtain ⟨y0, C0, h0⟩ := hX.accepted
  exact cpFit_accepts (I y0) (I y) nJobs H C0 g ps hX.built hX.space hX.prior (hts _ _) (hX.grid _) hX.priors hX.several h0 fun r hr ho => by
    obtain ⟨A, hA, -⟩ := hX.single y r hr ho
    exact ⟨A, hA⟩

theorem Exactly.bayes {I : (Fin (n + 1) → Y) → FitIn ℝ gs} {nJobs : ℕ} {H : HState ℝ gs} {g : HyperGrid ℝ} {ps : List ℝ} {ev : (Fin (n + 1) → Y) → List ℝ → ℝ} {κ : ℝ}
    (hX : Exactly I nJobs H g ps ev κ) {y : Fin (n + 1) → Y} {C : CState ℝ gs} (h : cpFit (I y) nJobs H = .ok (some C)) (hpos : ∑ j : Fin g.rows.length, orderedPrior H.tm g ps j * ev y g.rows[j] ≠ 0) :
    C.R.S.logEv ≠ LogV.ninf ∧ ∃ D, C.R.hpd = some D ∧ ∀ j : Fin g.rows.length, D.getD j 0 * g.hgc.prod = orderedPrior H.tm g ps j * ev y g.rows[j] / ∑ i : Fin g.rows.length, orderedPrior H.tm g ps i * ev y g.rows[i] := by
  refine cp_bayes (I y) nJobs H C g ps hX.built hX.space (hX.regular y) hX.prior (hX.grid y) hX.priors hX.nonneg hX.several h (ev y) κ hX.factor (fun r hr ho A hA => ?_) hpos
  obtain ⟨A', h1, h2⟩ := hX.single y r hr ho
  rw [hA] at h1
  cases h1
  exact h2

theorem cp_calibrated {I : (Fin (n + 1) → Y) → FitIn ℝ gs} {nJobs : ℕ} {H : HState ℝ gs} {g : HyperGrid ℝ} {ps : List ℝ} {ev : (Fin (n + 1) → Y) → List ℝ → ℝ} {κ : ℝ}
    (hX : Exactly I nJobs H g ps ev κ) (hts : ∀ y y', (I y).ts = (I y').ts) {P : Measure Ω} [IsProbabilityMeasure P] {J : Ω → Fin g.rows.length} {Z : Ω → ζ} {X : Ω → Fin (n + 1) → Y} {ν : Measure (Fin (n + 1) → Y)}
    {w : Fin g.rows.length × ζ → (Fin (n + 1) → Y) → ℝ} (hJ : Joint P (fun ω => (J ω, Z ω)) X ν w) (hw : ∀ z, Measurable (w z)) (hw0 : ∀ z y, 0 ≤ w z y)
    (hsum : ∀ y j, ∑ v, w (j, v) y = orderedPrior H.tm g ps j * ev y g.rows[j]) :
    Calibrated P J X fun ω => changeProbIn (cpFit (I (X ω)) nJobs H) g := by
  have htot : ∀ y, ∑ z, w z y = ∑ j : Fin g.rows.length, orderedPrior H.tm g ps j * ev y g.rows[j] := fun y => by
    rw [Fintype.sum_prod_type]
    exact Finset.sum_congr rfl fun j _ => hsum y j
  refine calibrated_of_given hJ hw hw0 Prod.fst _ ?_
  filter_upwards [joint_ae_pos hJ hw hw0] with ω hω A
  rw [htot] at hω
  obtain ⟨C, hC⟩ := hX.fits hts (X ω)
  obtain ⟨-, D, d1, d2⟩ := hX.bayes hC hω.ne'
  rw [hC]
  simp only [changeProbIn, d1, Option.getD_some, given, htot, d2]
  rw [← Finset.sum_div, Fintype.sum_prod_type]
  congr 1
  simp only [mul_ite, mul_one, mul_zero]
  have : ∀ j, (∑ z, if j ∈ A then w (j, z) (X ω) else 0) = if j ∈ A then orderedPrior H.tm g ps j * ev (X ω) g.rows[j] else 0 := fun j => by
    by_cases hj : j ∈ A
    · simp only [hj, if_true, hsum]
    · simp [hj]
  simp only [this]
  rw [Finset.sum_ite_mem, Finset.univ_inter]

/-- conditional probabilities and expectations of the parameters -/
theorem cp_averaged {I : (Fin (n + 1) → Y) → FitIn ℝ gs} {nJobs : ℕ} {H : HState ℝ gs} {g : HyperGrid ℝ} {ps : List ℝ} {ev : (Fin (n + 1) → Y) → List ℝ → ℝ} {κ : ℝ}
    (hX : Exactly I nJobs H g ps ev κ) (hts : ∀ y y', (I y).ts = (I y').ts) {P : Measure Ω} [IsProbabilityMeasure P] {J : Ω → Fin g.rows.length} {Z : Ω → ζ} {X : Ω → Fin (n + 1) → Y} {ν : Measure (Fin (n + 1) → Y)}
    {w : Fin g.rows.length × ζ → (Fin (n + 1) → Y) → ℝ} (hJ : Joint P (fun ω => (J ω, Z ω)) X ν w) (hw : ∀ z, Measurable (w z)) (hw0 : ∀ z y, 0 ≤ w z y)
    (hsum : ∀ y j, ∑ v, w (j, v) y = orderedPrior H.tm g ps j * ev y g.rows[j]) {grid : (a : Fin d) → Fin (gs a) → ℝ} {δ : ℝ} (k : Fin (n + 1)) (pt : Fin g.rows.length × ζ → Idx gs)
    (post : (Fin (n + 1) → Y) → List ℝ → Idx gs → ℝ) (hpt : ∀ y j (f : Idx gs → ℝ), ∑ v, w (j, v) y * f (pt (j, v)) = orderedPrior H.tm g ps j * (ev y g.rows[j] * ∑ x, post y g.rows[j] x * f x))
    (havg : ∀ y C, cpFit (I y) nJobs H = .ok (some C) → C.R.S.logEv ≠ LogV.ninf → ∃ p : Fin (n + 1) → Idx gs → ℝ, C.R.S.posts = List.ofFn (fun i => .val (p i)) ∧
      (∀ a, C.R.S.means a = List.ofFn fun i => ∑ x, p i x * grid a (x a)) ∧
      ∀ x, |p k x - overInOrder H.tm g.rows ps (fun r => ev y r * post y r x) / overInOrder H.tm g.rows ps (ev y)| ≤ δ) :
    (∀ A : Finset (Idx gs), ∀ᵐ ω ∂P, |probIn (changeAveraged (cpFit (I (X ω)) nJobs H)) k A - (P[{ω | pt (J ω, Z ω) ∈ A}.indicator fun _ => (1 : ℝ) | MeasurableSpace.comap X inferInstance]) ω| ≤ A.card * δ) ∧
    ∀ a, ∀ᵐ ω ∂P, |meanAt (changeAveraged (cpFit (I (X ω)) nJobs H)) k a - (P[fun ω => grid a (pt (J ω, Z ω) a) | MeasurableSpace.comap X inferInstance]) ω| ≤ (∑ x : Idx gs, |grid a (x a)|) * δ := by
  have htot : ∀ y, ∑ z, w z y = ∑ j : Fin g.rows.length, orderedPrior H.tm g ps j * ev y g.rows[j] := fun y => by
    rw [Fintype.sum_prod_type]
    exact Finset.sum_congr rfl fun j _ => hsum y j
  have key : ∀ᵐ ω ∂P, ∃ C p, cpFit (I (X ω)) nJobs H = .ok (some C) ∧ C.R.S.posts[(k : ℕ)]? = some (.val p) ∧ (∀ a, (C.R.S.means a)[(k : ℕ)]? = some (∑ x, p x * grid a (x a))) ∧
      ∀ f : Idx gs → ℝ, |∑ x, p x * f x - given w (fun jz => f (pt jz)) (X ω)| ≤ (∑ x, |f x|) * δ := by
    filter_upwards [joint_ae_pos hJ hw hw0] with ω hω
    rw [htot] at hω
    obtain ⟨C, hC⟩ := hX.fits hts (X ω)
    obtain ⟨hfin, -⟩ := hX.bayes hC hω.ne'
    obtain ⟨p, p1, p2, p3⟩ := havg (X ω) C hC hfin
    refine ⟨C, p k, hC, by rw [p1, List.getElem?_ofFn, dif_pos k.2], fun a => by rw [p2, List.getElem?_ofFn, dif_pos k.2], fun f => ?_⟩
    have hl : ps.length = g.rows.length := by
      obtain ⟨As, qs, hpd, c1, c2, c3, c4, c5, c6, -⟩ := cpFit_full (I (X ω)) nJobs H C g ps hX.built hX.space hX.prior (hX.grid _) hX.priors hX.several hC
      exact c6
    obtain ⟨c, hc⟩ := orderedPrior_sum H.tm g ps hl
    have hgiv : given w (fun jz => f (pt jz)) (X ω) = ∑ x, overInOrder H.tm g.rows ps (fun r => ev (X ω) r * post (X ω) r x) / overInOrder H.tm g.rows ps (ev (X ω)) * f x := by
      rw [given, htot, Fintype.sum_prod_type]
      simp only [hpt]
      rw [hc] at hω
      rw [hc (ev (X ω))]
      have hc0 : c ≠ 0 := left_ne_zero_of_mul hω.ne'
      have h1 : ∑ j : Fin g.rows.length, orderedPrior H.tm g ps j * (ev (X ω) g.rows[j] * ∑ x, post (X ω) g.rows[j] x * f x) =
          c * ∑ x, overInOrder H.tm g.rows ps (fun r => ev (X ω) r * post (X ω) r x) * f x := by
        rw [Finset.mul_sum]
        simp only [← mul_assoc, ← hc]
        simp only [Finset.sum_mul, Finset.mul_sum]
        rw [Finset.sum_comm]
        exact Finset.sum_congr rfl fun x _ => Finset.sum_congr rfl fun j _ => by ring
      rw [h1, mul_div_mul_left _ _ hc0, Finset.sum_div]
      exact Finset.sum_congr rfl fun x _ => by ring
    rw [hgiv, ← Finset.sum_sub_distrib, Finset.sum_mul]
    refine (Finset.abs_sum_le_sum_abs _ _).trans (Finset.sum_le_sum fun x _ => ?_)
    rw [← sub_mul, abs_mul, mul_comm]
    exact mul_le_mul_of_nonneg_left (p3 x) (abs_nonneg _)
  refine ⟨fun A => ?_, fun a => ?_⟩
  · have e : ({ω | pt (J ω, Z ω) ∈ A}.indicator fun _ => (1 : ℝ)) = fun ω => if pt (J ω, Z ω) ∈ A then (1 : ℝ) else 0 := by
      funext ω
      simp [Set.indicator]
    rw [e]
    filter_upwards [key, joint_condExp hJ hw hw0 fun jz => if pt jz ∈ A then (1 : ℝ) else 0] with ω h1 h2
    obtain ⟨C, p, r1, r2, -, r4⟩ := h1
    rw [h2, r1]
    have := r4 fun x => if x ∈ A then 1 else 0
    simpa [changeAveraged, probIn, r2, abs_ite] using this
  · filter_upwards [key, joint_condExp hJ hw hw0 fun jz => grid a (pt jz a)] with ω h1 h2
    obtain ⟨C, p, r1, -, r3, r4⟩ := h1
    rw [h2, r1]
    simp only [changeAveraged, meanAt, r3, Option.getD_some]
    exact r4 fun x => grid a (x a)

end generic

/-- the fit for one combination of change-points returns -/
theorem single_changes_ok (I : FitIn ℝ gs) (tm : TM ℝ) (S : FitState ℝ gs) (hE : Regular I.E) (htm : StepModel tm) (hnd : ((entries tm).map (·.1)).Nodup)
    (π : Idx gs → ℝ) (hp : PriorMass I.E.cell S.prior π) (hprior : S.prior = .none ∨ ∃ v, S.prior = .func v) {n : ℕ} (τ : Fin (n + 1) → ℝ)
    (hts : I.ts = List.ofFn τ) (L : Fin (n + 1) → Idx gs → ℝ) (hls : I.liks = List.ofFn L) (hL0 : ∀ i x, 0 ≤ L i x)
    (hmode : ModeOK I S τ L) {row : List ℝ} (hl : row.length = (entries tm).length) : ∃ A, singleFit I tm S row = .ok A := by
  obtain ⟨s1, s2, s3, s4⟩ := modelAt_step (E := I.E) htm hnd hl
  unfold singleFit
  rw [hls, hts]
  by_cases hm : I.evidenceOnly = true ∨ I.forwardOnly = true
  · obtain ⟨S', f', -⟩ := C02_exact_factor I.E I.grid _ hE s3 S π hp hprior L hL0 τ I.forwardOnly I.evidenceOnly hm
    exact ⟨S', f'⟩
  · have hfo : I.forwardOnly = false := by simpa using fun h => hm (.inr h)
    have heo : I.evidenceOnly = false := by simpa using fun h => hm (.inl h)
    rcases hmode with hm | hm | ⟨m1, m2, m3⟩ | ⟨m1, m2⟩
    · rw [hm] at hfo; simp at hfo
    · rw [hm] at heo; simp at heo
    · obtain ⟨ev, hev⟩ := C70_modes I.E I.grid (modelAt tm row) S hE.nonempty hE.lattice_pos m1 s4 m2 (List.ofFn L) (List.ofFn τ) (by simp)
        (by intro l hl x; obtain ⟨i, rfl⟩ := (List.mem_ofFn' _ _).1 hl; exact m3 i x)
      obtain ⟨Sa, fa, -⟩ := hev I.forwardOnly I.evidenceOnly
      exact ⟨Sa, fa⟩
    · obtain ⟨Sa, Sb, Sc, fa, -⟩ := C08_partial I.E I.grid (modelAt tm row) hE s3 S π hp (.inr m1) L hL0 τ m2
      rw [hfo, heo]
      exact ⟨Sa, fa⟩

/-- Value of the piece which contains time step `k`, averaged over all values of all pieces. -/
theorem sum_changes_at {ι : Type} [Fintype ι] [DecidableEq ι] {n m : ℕ} (π : ι → ℝ) (hπ : ∀ x, 0 ≤ π x) (r : List ℝ) (τ : Fin n → ℝ) (hm : m = r.length + 1) (piece : Fin n → Fin m) (hpc : ∀ i, (piece i : ℕ) = pieceOf r (τ i))
    (L : Fin n → ι → ℝ) (hL0 : ∀ i x, 0 ≤ L i x) (k : Fin n) (f : ι → ℝ) :
    ∑ v : Fin m → ι, (∏ s, π (v s)) * (∏ i, L i (v (piece i))) * f (v (piece k)) = changeEvidence π r τ L * ∑ x, piecePosterior π r τ L k x * f x := by
  have h1 : ∀ v : Fin m → ι, (∏ s, π (v s)) * (∏ i, L i (v (piece i))) * f (v (piece k)) = (∏ s, π (v s)) * ∏ i, (fun i x => L i x * if i = k then f x else 1) i (v (piece i)) := by
    intro v
    simp only
    rw [Finset.prod_mul_distrib, Finset.prod_ite_eq' Finset.univ k, if_pos (Finset.mem_univ _), mul_assoc]
  rw [Finset.sum_congr rfl fun v _ => h1 v, sum_changes π r τ hm piece hpc fun i x => L i x * if i = k then f x else 1]
  have hk : pieceOf r (τ k) ∈ Finset.range (r.length + 1) := by
    rw [← hm, ← hpc, Finset.mem_range]
    exact (piece k).2
  unfold changeEvidence
  rw [← Finset.mul_prod_erase _ _ hk, ← Finset.mul_prod_erase _ (fun s => ∑ x, π x * ∏ i with pieceOf r (τ i) = s, L i x) hk, mul_right_comm]
  congr 1
  · have h2 : ∀ x, (∏ i with pieceOf r (τ i) = pieceOf r (τ k), L i x * if i = k then f x else 1) = (∏ i with pieceOf r (τ i) = pieceOf r (τ k), L i x) * f x := by
      intro x
      rw [Finset.prod_mul_distrib, Finset.prod_ite_eq' _ k, if_pos (by simp)]
    simp only [h2, ← mul_assoc]
    unfold piecePosterior
    have hw : ∀ x, 0 ≤ π x * ∏ i with pieceOf r (τ i) = pieceOf r (τ k), L i x := fun x => mul_nonneg (hπ x) (Finset.prod_nonneg fun i _ => hL0 i x)
    generalize hW : (fun x => π x * ∏ i with pieceOf r (τ i) = pieceOf r (τ k), L i x) = W at hw ⊢
    have hW' : ∀ x, (π x * ∏ i with pieceOf r (τ i) = pieceOf r (τ k), L i x) = W x := fun x => congrFun hW x
    simp only [hW'] at hw ⊢
    by_cases h0 : ∑ x, W x = 0
    · have hz := (Finset.sum_eq_zero_iff_of_nonneg fun x _ => hw x).1 h0
      rw [h0, zero_mul]
      exact Finset.sum_eq_zero fun x hx => by rw [hz x hx, zero_mul]
    · rw [Finset.mul_sum]
      exact Finset.sum_congr rfl fun x _ => by field_simp
  · refine Finset.prod_congr rfl fun s hs => Finset.sum_congr rfl fun x _ => ?_
    congr 1
    refine Finset.prod_congr rfl fun i hi => ?_
    change L i x * (if i = k then f x else 1) = L i x
    rw [if_neg, mul_one]
    rintro rfl
    exact (Finset.mem_erase.1 hs).1 (Finset.mem_filter.1 hi).2.symm

/-- **C125 (what is proved for change-points).** A combination of change-points is drawn from the prior distribution of the study, given that the change-points are in order; then independently for every piece between the change-points a parameter value from the
prior `π`; then the data.  The distribution of the change-points that the change-point study reports is calibrated.  The setting is that of C111: only change-points, candidates which are time stamps other than the last, prior of the parameters default or a function,
modes of fits in which the full fit reports the evidence of its forward pass.  After a full fit with default prior and time stamps one unit apart (the setting of C112), the averaged posterior probabilities and mean values are, up to the floor `ε` (smallest positive floating
point number), the conditional probabilities and expectations given all data of the parameter value at every time step. -/
theorem C125_partial {Ω : Type} [MeasurableSpace Ω] [MeasurableSpace Y] (E : Env ℝ gs) (grid : (a : Fin d) → Fin (gs a) → ℝ) (nJobs : ℕ) (H : HState ℝ gs) (g : HyperGrid ℝ) (ps : List ℝ) (hb : Built H.tm)
    (hsp : " " ∉ (entries H.tm).map (·.1)) (htm : StepModel H.tm) (hE : Regular E) (π : Idx gs → ℝ) (hp : PriorMass E.cell H.S.prior π) (hprior : H.S.prior = .none ∨ ∃ v, H.S.prior = .func v)
    {n : ℕ} (τ : Fin (n + 1) → ℝ) (hτ : StrictMono τ) (hg : createHyperGrid H.tm (List.ofFn τ) = .ok g) (hps : g.priors = some ps) (hnn : ∀ p ∈ ps, 0 ≤ p)
    (hv : ∀ e ∈ entries H.tm, ∀ c ∈ valuesOf (List.ofFn τ) e.2, ∃ i : Fin n, c = τ i.castSucc)
    (hr : 1 < (g.rows.filter fun r => decide (InOrder H.tm r)).length) (μ : Measure Y) [SigmaFinite μ] (q : Idx gs → Y → ℝ) (hq : ∀ x, Measurable (q x)) (hq0 : ∀ x y, 0 ≤ q x y) (hqi : ∀ x, Integrable (q x) μ)
    (fo eo : Bool) (ε : ℝ) (hmode : fo = true ∨ eo = true ∨ (ProperExt E.ext ∧ FullPrior H.S.prior ∧ ∀ x y, 0 < q x y) ∨ (H.S.prior = .none ∧ ∀ i : Fin n, τ i.succ = τ i.castSucc + 1))
    (hok : ∃ (y : Fin (n + 1) → Y) (C : CState ℝ gs), cpFit ⟨E, grid, List.ofFn fun i x => q x (y i), List.ofFn τ, fo, eo, ε⟩ nJobs H = .ok (some C))
    (piece : Fin g.rows.length → Fin (n + 1) → Fin ((pointNames H.tm).length + 1)) (hpc : ∀ j, InOrder H.tm g.rows[j] → ∀ i, (piece j i : ℕ) = pieceOf g.rows[j] (τ i))
    (P : Measure Ω) [IsProbabilityMeasure P] (J : Ω → Fin g.rows.length) (V : Ω → Fin ((pointNames H.tm).length + 1) → Idx gs) (X : Ω → Fin (n + 1) → Y)
    (hD : ChangeDraws P J V X (orderedPrior H.tm g ps) π piece fun x => μ.withDensity fun y => ENNReal.ofReal (q x y)) :
    (Calibrated P J X fun ω => changeProbIn (cpFit ⟨E, grid, List.ofFn fun i x => q x (X ω i), List.ofFn τ, fo, eo, ε⟩ nJobs H) g) ∧
    (H.S.prior = .none → (∀ i : Fin n, τ i.succ = τ i.castSucc + 1) → fo = false → eo = false → 0 < ε → ∀ k : Fin (n + 1),
      (∀ A : Finset (Idx gs), ∀ᵐ ω ∂P, |probIn (changeAveraged (cpFit ⟨E, grid, List.ofFn fun i x => q x (X ω i), List.ofFn τ, fo, eo, ε⟩ nJobs H)) k A -
        (P[{ω | V ω (piece (J ω) k) ∈ A}.indicator fun _ => (1 : ℝ) | MeasurableSpace.comap X inferInstance]) ω| ≤ A.card * (Fintype.card (Idx gs) * ε)) ∧
      ∀ a, ∀ᵐ ω ∂P, |meanAt (changeAveraged (cpFit ⟨E, grid, List.ofFn fun i x => q x (X ω i), List.ofFn τ, fo, eo, ε⟩ nJobs H)) k a -
        (P[fun ω => grid a (V ω (piece (J ω) k) a) | MeasurableSpace.comap X inferInstance]) ω| ≤ (∑ x : Idx gs, |grid a (x a)|) * (Fintype.card (Idx gs) * ε)) := by
  have := hE.nonempty
  have hpr := (Built.matched hb).proper
  have hcell := cell_pos hE.lattice_pos
  have hπ : ∀ x, 0 ≤ π x := priorMass_nonneg hcell hp
  have hlen := rows_length hpr hg
  have hrc := rows_candidates hpr hg hv
  have hρ0 := orderedPrior_nonneg (tm := H.tm) (g := g) hnn (hgc_nonneg hpr hg)
  obtain ⟨L, hLdef⟩ : ∃ L : (Fin (n + 1) → Y) → Fin (n + 1) → Idx gs → ℝ, L = fun y i x => q x (y i) := ⟨_, rfl⟩
  obtain ⟨I, hI⟩ : ∃ I : (Fin (n + 1) → Y) → FitIn ℝ gs, I = fun y => ⟨E, grid, List.ofFn (L y), List.ofFn τ, fo, eo, ε⟩ := ⟨_, rfl⟩
  have hIE : ∀ y, (⟨E, grid, List.ofFn fun i x => q x (y i), List.ofFn τ, fo, eo, ε⟩ : FitIn ℝ gs) = I y := fun y => by rw [hI, hLdef]
  have hL0 : ∀ y i x, 0 ≤ L y i x := fun y i x => by rw [hLdef]; exact hq0 _ _
  simp only [hIE] at hok ⊢
  have hnd : ((entries H.tm).map (·.1)).Nodup := by
    obtain ⟨y, C, hC⟩ := hok
    exact cpFit_nodup hpr (by rw [hI]; exact hg) hC
  have hM : ∀ y, ModeOK (I y) H.S τ (L y) := by
    intro y
    rw [hI]
    rcases hmode with h | h | ⟨h1, h2, h3⟩ | h
    · exact .inl h
    · exact .inr (.inl h)
    · exact .inr (.inr (.inl ⟨h1, h2, fun i x => by rw [hLdef]; exact h3 _ _⟩))
    · exact .inr (.inr (.inr h))
  have hpn : (pointNames H.tm).length = (entries H.tm).length := by rw [pointNames_step _ htm, List.length_map]
  have hX : Exactly I nJobs H g ps (fun y r => changeEvidence π r τ (L y)) (E.cell ^ (entries H.tm).length) := by
    refine ⟨hb, hsp, fun y => by rw [hI]; exact hE, by rcases hprior with h | ⟨v, h⟩ <;> rw [h] <;> rfl, fun y => by rw [hI]; exact hg, hps, hnn, hr, hok, pow_ne_zero _ hcell.ne', fun y r hr1 hr2 => ?_⟩
    obtain ⟨A, hA⟩ := single_changes_ok (I y) H.tm H.S (by rw [hI]; exact hE) htm hnd π (by rw [hI]; exact hp) hprior τ (by rw [hI]) (L y) (by rw [hI]) (hL0 y) (hM y) (hlen r hr1)
    refine ⟨A, hA, ?_⟩
    have hlt := (inOrder_step htm (hlen r hr1)).1 hr2
    have := single_changes (I y) H.tm H.S A (by rw [hI]; exact hE) htm hnd π (by rw [hI]; exact hp) hprior τ hτ (by rw [hI]) (L y) (by rw [hI]) (hL0 y) (hM y) (hlen r hr1) (hlt.imp fun h => h.ne) (hrc r hr1) hA
    rw [this, hlen r hr1, hI]
  have hts : ∀ y y', (I y).ts = (I y').ts := fun y y' => by rw [hI]
  have hJ : Joint P (fun ω => (J ω, V ω)) X (Measure.pi fun _ => μ) fun jv y => orderedPrior H.tm g ps jv.1 * ((∏ s, π (jv.2 s)) * ∏ i, L y i (jv.2 (piece jv.1 i))) := by
    rw [hLdef]
    exact joint_of_changeDraws μ q hq hq0 hqi hρ0 hπ hD
  have hw : ∀ jv : Fin g.rows.length × (Fin ((pointNames H.tm).length + 1) → Idx gs), Measurable fun y => orderedPrior H.tm g ps jv.1 * ((∏ s, π (jv.2 s)) * ∏ i, L y i (jv.2 (piece jv.1 i))) := fun jv => by
    rw [hLdef]
    fun_prop
  have hw0 : ∀ (jv : Fin g.rows.length × (Fin ((pointNames H.tm).length + 1) → Idx gs)) y, 0 ≤ orderedPrior H.tm g ps jv.1 * ((∏ s, π (jv.2 s)) * ∏ i, L y i (jv.2 (piece jv.1 i))) := fun jv y =>
    mul_nonneg (hρ0 _) (mul_nonneg (Finset.prod_nonneg fun s _ => hπ _) (Finset.prod_nonneg fun i _ => hL0 _ _ _))
  have hm : ∀ j : Fin g.rows.length, (pointNames H.tm).length + 1 = g.rows[j].length + 1 := fun j => by rw [hpn, hlen g.rows[j] (List.getElem_mem _)]
  have hz : ∀ j : Fin g.rows.length, ¬ InOrder H.tm g.rows[j] → orderedPrior H.tm g ps j = 0 := fun j hj => by
    unfold orderedPrior
    rw [if_neg hj]
  have hsum : ∀ y (j : Fin g.rows.length), ∑ v : Fin ((pointNames H.tm).length + 1) → Idx gs, orderedPrior H.tm g ps j * ((∏ s, π (v s)) * ∏ i, L y i (v (piece j i))) = orderedPrior H.tm g ps j * changeEvidence π g.rows[j] τ (L y) := by
    intro y j
    by_cases hj : InOrder H.tm g.rows[j]
    · rw [← Finset.mul_sum, sum_changes π g.rows[j] τ (hm j) (piece j) (hpc j hj)]
    · simp [hz j hj]
  refine ⟨cp_calibrated hX hts hJ hw hw0 hsum, fun hpn hU hfo heo hε k => ?_⟩
  have hflat : π = fun _ => 1 / (Fintype.card (Idx gs) : ℝ) := by
    rw [hpn] at hp
    cases hp
    rfl
  refine cp_averaged hX hts hJ hw hw0 hsum k (fun jv => jv.2 (piece jv.1 k)) (fun y r x => piecePosterior π r τ (L y) k x) (fun y j f => ?_) fun y C hC hfin => ?_
  · by_cases hj : InOrder H.tm g.rows[j]
    · rw [← sum_changes_at π hπ g.rows[j] τ (hm j) (piece j) (hpc j hj) (L y) (hL0 y) k f, Finset.mul_sum]
      exact Finset.sum_congr rfl fun v _ => by ring
    · simp [hz j hj]
  · have hoo : ∀ f, overOrdered g.rows ps f = overInOrder H.tm g.rows ps f := fun f => by
      unfold overOrdered overInOrder
      congr 2
      refine List.filter_congr fun qq hqq => ?_
      simp only [inOrder_step htm (hlen _ (List.of_mem_zip hqq).1)]
    have hfil : g.rows.filter (fun r => decide (r.Pairwise (· < ·))) = g.rows.filter fun r => decide (InOrder H.tm r) := List.filter_congr fun r hr => by
      simp only [inOrder_step htm (hlen r hr)]
    obtain ⟨p, p1, p2, p3⟩ := C112_partial (I y) nJobs H C g ps hb hsp htm (by rw [hI]; exact hE) hpn τ hU (by rw [hI]) (L y) (by rw [hI]) (hL0 y) (by rw [hI]; exact hfo) (by rw [hI]; exact heo) (by rw [hI]; exact hε)
      (by rw [hI]; exact hg) hps hnn (by rw [hI]; exact hv) (by rw [hfil]; exact hr) hC hfin
    refine ⟨p, p1, fun a => by rw [p2, hI], fun x => ?_⟩
    have := (p3 k).2 x
    rw [hoo, hoo, ← hflat] at this
    rw [hI] at this
    exact this

/-- **C125 (what is proved for structural breaks).** A combination of hyper-parameter values (times of structural breaks, standard deviations of random walks) is drawn from the prior distribution of the study, given that the breaks are in order; then a parameter path
from prior and transition model with these values; then the data.  The distribution of the combinations that the change-point study reports is calibrated.  The setting is that of C117.  After a full fit with time stamps one unit apart, the averaged posterior probabilities and
mean values are, up to the floor `ε`, the conditional probabilities and expectations given all data. -/
theorem C125_breaks_partial {Ω : Type} [MeasurableSpace Ω] [MeasurableSpace Y] (E : Env ℝ gs) (grid : (a : Fin d) → Fin (gs a) → ℝ) (nJobs : ℕ) (H : HState ℝ gs) (g : HyperGrid ℝ) (ps : List ℝ) (hb : Built H.tm)
    (hsp : " " ∉ (entries H.tm).map (·.1)) (htm : WalkModel E H.tm) (hE : Regular E) (π : Idx gs → ℝ) (hp : PriorMass E.cell H.S.prior π) (hn : H.S.prior.isArray = false)
    {n : ℕ} (τ : Fin (n + 1) → ℝ) (hg : createHyperGrid H.tm (List.ofFn τ) = .ok g) (hps : g.priors = some ps) (hnn : ∀ p ∈ ps, 0 ≤ p)
    (hr : 1 < (g.rows.filter fun r => decide (InOrder H.tm r)).length) (μ : Measure Y) [SigmaFinite μ] (q : Idx gs → Y → ℝ) (hq : ∀ x, Measurable (q x)) (hq0 : ∀ x y, 0 ≤ q x y) (hqi : ∀ x, Integrable (q x) μ)
    (fo eo : Bool) (ε : ℝ) (hmode : eo = true ∨ fo = true ∨ ∀ i : Fin n, τ i.succ = τ i.castSucc + 1)
    (hok : ∃ (y : Fin (n + 1) → Y) (C : CState ℝ gs), cpFit ⟨E, grid, List.ofFn fun i x => q x (y i), List.ofFn τ, fo, eo, ε⟩ nJobs H = .ok (some C))
    (P : Measure Ω) [IsProbabilityMeasure P] (J : Ω → Fin g.rows.length) (Z : Ω → Fin (n + 1) → Idx gs) (X : Ω → Fin (n + 1) → Y)
    (hD : HyperDraws P J Z X (orderedPrior H.tm g ps) π (fun j i => kernel E π (modelAt H.tm g.rows[j]) (τ i.castSucc)) fun x => μ.withDensity fun y => ENNReal.ofReal (q x y)) :
    (Calibrated P J X fun ω => changeProbIn (cpFit ⟨E, grid, List.ofFn fun i x => q x (X ω i), List.ofFn τ, fo, eo, ε⟩ nJobs H) g) ∧
    ((∀ i : Fin n, τ i.succ = τ i.castSucc + 1) → fo = false → eo = false → 0 < ε → ∀ k : Fin (n + 1),
      (∀ A : Finset (Idx gs), ∀ᵐ ω ∂P, |probIn (changeAveraged (cpFit ⟨E, grid, List.ofFn fun i x => q x (X ω i), List.ofFn τ, fo, eo, ε⟩ nJobs H)) k A -
        (P[{ω | Z ω k ∈ A}.indicator fun _ => (1 : ℝ) | MeasurableSpace.comap X inferInstance]) ω| ≤ A.card * (Fintype.card (Idx gs) * ε)) ∧
      ∀ a, ∀ᵐ ω ∂P, |meanAt (changeAveraged (cpFit ⟨E, grid, List.ofFn fun i x => q x (X ω i), List.ofFn τ, fo, eo, ε⟩ nJobs H)) k a -
        (P[fun ω => grid a (Z ω k a) | MeasurableSpace.comap X inferInstance]) ω| ≤ (∑ x : Idx gs, |grid a (x a)|) * (Fintype.card (Idx gs) * ε)) := by
  have := hE.nonempty
  have hpr := (Built.matched hb).proper
  have hcell := cell_pos hE.lattice_pos
  have hπ : ∀ x, 0 ≤ π x := priorMass_nonneg hcell hp
  have hlen := rows_length hpr hg
  have hρ0 := orderedPrior_nonneg (tm := H.tm) (g := g) hnn (hgc_nonneg hpr hg)
  obtain ⟨L, hLdef⟩ : ∃ L : (Fin (n + 1) → Y) → Fin (n + 1) → Idx gs → ℝ, L = fun y i x => q x (y i) := ⟨_, rfl⟩
  obtain ⟨I, hI⟩ : ∃ I : (Fin (n + 1) → Y) → FitIn ℝ gs, I = fun y => ⟨E, grid, List.ofFn (L y), List.ofFn τ, fo, eo, ε⟩ := ⟨_, rfl⟩
  have hIE : ∀ y, (⟨E, grid, List.ofFn fun i x => q x (y i), List.ofFn τ, fo, eo, ε⟩ : FitIn ℝ gs) = I y := fun y => by rw [hI, hLdef]
  have hL0 : ∀ y i x, 0 ≤ L y i x := fun y i x => by rw [hLdef]; exact hq0 _ _
  simp only [hIE] at hok ⊢
  have hnd : ((entries H.tm).map (·.1)).Nodup := by
    obtain ⟨y, C, hC⟩ := hok
    exact cpFit_nodup hpr (by rw [hI]; exact hg) hC
  have hwk : ∀ r ∈ g.rows, Linear E (modelAt H.tm r) ∧ ResetFree (modelAt H.tm r) := fun r hr => modelAt_walk htm hnd (hlen r hr)
  have hX : Exactly I nJobs H g ps (fun y r => rowEvidence E π H.tm τ (L y) r) 1 := by
    refine ⟨hb, hsp, fun y => by rw [hI]; exact hE, hn, fun y => by rw [hI]; exact hg, hps, hnn, hr, hok, one_ne_zero, fun y r hr1 hr2 => ?_⟩
    obtain ⟨A, f1, f2⟩ := C01_evidence_is_path_sum E grid _ hE (hwk r hr1).1 (hwk r hr1).2 H.S π hp (L y) (hL0 y) τ fo eo hmode
    exact ⟨A, by rw [hI]; exact f1, by rw [mul_one]; exact f2⟩
  have hts : ∀ y y', (I y).ts = (I y').ts := fun y y' => by rw [hI]
  obtain ⟨T, hTdef⟩ : ∃ T : Fin g.rows.length → Fin n → Idx gs → Idx gs → ℝ, T = fun j i => kernel E π (modelAt H.tm g.rows[j]) (τ i.castSucc) := ⟨_, rfl⟩
  have hT0 : ∀ j i x y, 0 ≤ T j i x y := fun j i x y => by
    rw [hTdef]
    exact (kernel_stoch hE (hwk _ (List.getElem_mem _)).1 (.inl (hwk _ (List.getElem_mem _)).2) (pr := .none) (R := 0)).nonneg _ _ _
  have hJ : Joint P (fun ω => (J ω, Z ω)) X (Measure.pi fun _ => μ) fun jz y => orderedPrior H.tm g ps jz.1 * pathWeight π (T jz.1) (L y) jz.2 := by
    rw [hLdef]
    exact joint_of_hyperDraws μ q hq hq0 hqi hρ0 hπ hT0 (hTdef ▸ hD)
  have hw : ∀ jz : Fin g.rows.length × (Fin (n + 1) → Idx gs), Measurable fun y => orderedPrior H.tm g ps jz.1 * pathWeight π (T jz.1) (L y) jz.2 := fun jz => by
    rw [hLdef]
    unfold pathWeight
    fun_prop
  have hpw : ∀ j z y, 0 ≤ pathWeight π (T j) (L y) z := fun j z y => mul_nonneg (mul_nonneg (hπ _) (Finset.prod_nonneg fun i _ => hT0 _ _ _ _)) (Finset.prod_nonneg fun i _ => hL0 _ _ _)
  have hw0 : ∀ (jz : Fin g.rows.length × (Fin (n + 1) → Idx gs)) y, 0 ≤ orderedPrior H.tm g ps jz.1 * pathWeight π (T jz.1) (L y) jz.2 := fun jz y => mul_nonneg (hρ0 _) (hpw _ _ _)
  have hsum : ∀ y (j : Fin g.rows.length), ∑ z, orderedPrior H.tm g ps j * pathWeight π (T j) (L y) z = orderedPrior H.tm g ps j * rowEvidence E π H.tm τ (L y) g.rows[j] := fun y j => by
    rw [← Finset.mul_sum, hTdef]
    rfl
  refine ⟨cp_calibrated hX hts hJ hw hw0 hsum, fun hU hfo heo hε k => ?_⟩
  have hrow : ∀ y (j : Fin g.rows.length), rowEvidence E π H.tm τ (L y) g.rows[j] = evidence π (T j) (L y) ∧ ∀ x, rowPosterior E π H.tm τ (L y) g.rows[j] k x = posterior π (T j) (L y) k x := fun y j => by
    rw [hTdef]
    exact ⟨rfl, fun _ => rfl⟩
  refine cp_averaged hX hts hJ hw hw0 hsum k (fun jz => jz.2 k) (fun y r x => rowPosterior E π H.tm τ (L y) r k x) (fun y j f => ?_) fun y C hC hfin => ?_
  · simp only [mul_assoc]
    rw [← Finset.mul_sum]
    congr 1
    rw [(hrow y j).1]
    simp only [(hrow y j).2]
    rw [posterior_given]
    by_cases h0 : ∑ z, pathWeight π (T j) (L y) z = 0
    · have hz := (Finset.sum_eq_zero_iff_of_nonneg fun z _ => hpw j z y).1 h0
      rw [evidence, h0, zero_mul]
      exact Finset.sum_eq_zero fun z hz' => by rw [hz z hz', zero_mul]
    · rw [evidence, mul_div_cancel₀ _ h0]
  · obtain ⟨p, p1, p2, p3⟩ := C117_average_partial (I y) nJobs H C g ps hb hsp (by rw [hI]; exact htm) (by rw [hI]; exact hE) π (by rw [hI]; exact hp) hn τ hU (by rw [hI]) (L y) (by rw [hI]) (hL0 y)
      (by rw [hI]; exact hfo) (by rw [hI]; exact heo) (by rw [hI]; exact hε) (by rw [hI]; exact hg) hps hnn hr hC hfin
    refine ⟨p, p1, fun a => by rw [p2, hI], fun x => ?_⟩
    have := (p3 k).2 x
    rw [hI] at this
    exact this

/-- Such draws exist. -/
theorem exists_changeDraws {ι κ Y : Type} [Fintype ι] [DecidableEq ι] [Fintype κ] [DecidableEq κ] [MeasurableSpace Y] {n m : ℕ} (ρ : κ → ℝ) (hρ : ∀ j, 0 ≤ ρ j) (h1 : ∑ j, ρ j = 1) (π : ι → ℝ) (hπ : ∀ x, 0 ≤ π x) (hπ1 : ∑ x, π x = 1)
    (piece : κ → Fin n → Fin m) (law : ι → Measure Y) [∀ x, IsProbabilityMeasure (law x)] :
    ∃ (Ω : Type) (_ : MeasurableSpace Ω) (P : Measure Ω) (J : Ω → κ) (V : Ω → Fin m → ι) (X : Ω → Fin n → Y), IsProbabilityMeasure P ∧ ChangeDraws P J V X ρ π piece law := by
  have hv : ∑ v : Fin m → ι, ∏ s, π (v s) = 1 := by
    have := sum_pieces (n := 0) π (fun i => i.elim0 : Fin 0 → Fin m) fun i _ => i.elim0
    simpa [hπ1] using this
  have hp0 : ∀ v : Fin m → ι, 0 ≤ ∏ s, π (v s) := fun v => Finset.prod_nonneg fun s _ => hπ _
  obtain ⟨Ω, mΩ, P, M, X, hP, hM, hX, hl⟩ := exists_mixture (fun jv : κ × (Fin m → ι) => ρ jv.1 * ∏ s, π (jv.2 s)) (fun jv => mul_nonneg (hρ _) (hp0 _))
    (by
      rw [Fintype.sum_prod_type]
      simp only [← Finset.mul_sum, hv, mul_one, h1]) fun jv => Measure.pi fun i => law (jv.2 (piece jv.1 i))
  have e : ∀ j v, {ω | (M ω).1 = j ∧ (M ω).2 = v} = {ω | M ω = (j, v)} := fun j v => by
    ext ω
    simp [Prod.ext_iff]
  refine ⟨Ω, mΩ, P, fun ω => (M ω).1, fun ω => (M ω).2, X, hP, ⟨fun j v => by rw [e]; exact hM _, hX, fun j v B hB => ?_⟩⟩
  have e' : {ω | (M ω).1 = j ∧ (M ω).2 = v ∧ X ω ∈ B} = {ω | M ω = (j, v) ∧ X ω ∈ B} := by
    ext ω
    simp [Prod.ext_iff, and_assoc]
  rw [e', hl (j, v) B hB, ENNReal.ofReal_mul (hρ j), mul_assoc]

theorem orderedPrior_one {tm : TM ℝ} {g : HyperGrid ℝ} {ps : List ℝ} (hord : ∀ r ∈ g.rows, InOrder tm r) (h1 : ∑ i : Fin g.rows.length, ps.getD i 0 * g.hgc.prod = 1) : ∑ j, orderedPrior tm g ps j = 1 := by
  have : ∀ j, orderedPrior tm g ps j = ps.getD j 0 * g.hgc.prod := by
    intro j
    unfold orderedPrior
    rw [if_pos (hord g.rows[j] (List.getElem_mem _)), Fintype.sum_congr _ (fun i : Fin g.rows.length => ps.getD i 0 * g.hgc.prod) fun i => if_pos (hord g.rows[i] (List.getElem_mem _)), h1, div_one]
  simp only [this, h1]

theorem _root_.Ex.unit_steps : ∀ i : Fin 2, (![0, 1, 2] : Fin 3 → ℝ) i.succ = (![0, 1, 2] : Fin 3 → ℝ) i.castSucc + 1 := by
  rw [Fin.forall_fin_two]
  constructor
  · change (1 : ℝ) = 0 + 1
    norm_num
  · change (2 : ℝ) = 1 + 1
    norm_num

/-- a change-point at any time step -/
noncomputable def _root_.Ex.realChange : HState ℝ Ex.gs3 where
  tm := .leaf .changePoint ["t"] [.all] (some (.item .none))
  S := FitState.init .none
  evs := []
  hpd := none

theorem _root_.Ex.realChange_grid : createHyperGrid Ex.realChange.tm (List.ofFn ![0, 1, 2]) = .ok ⟨[.array [0, 1]], ["t"], [[0], [1]], [1], some [1 / 2, 1 / 2]⟩ := by
  have h1 : hyperConst [(0 : ℝ), 1] = 1 := by
    simp [hyperConst, diff]
  have h2 : normPrior [(1 : ℝ), 1] 1 = some [1 / 2, 1 / 2] := by
    simp [normPrior]
    norm_num
  have : createHyperGrid Ex.realChange.tm (List.ofFn ![0, 1, 2]) = .ok ⟨[.array [0, 1]], ["t"], [[0], [1]], [hyperConst [(0 : ℝ), 1]], (allSome [normPrior [(1 : ℝ), 1] (hyperConst [(0 : ℝ), 1])]).map fun l => (cart l).map List.prod⟩ := rfl
  rw [this, h1, h2]
  simp [allSome, cart]

/-- The hypotheses of `C125_partial` are met: white noise whose standard deviation changes at one unknown time step. -/
example : ∃ (Ω : Type) (_ : MeasurableSpace Ω) (P : Measure Ω) (J : Ω → Fin 2) (X : Ω → Fin 3 → ℝ), IsProbabilityMeasure P ∧
    Calibrated P J X fun ω => changeProbIn (g := ⟨[.array [0, 1]], ["t"], [[0], [1]], [1], some [1 / 2, 1 / 2]⟩)
      (cpFit ⟨Ex.realEnv, fun _ (i : Fin 3) => (i.val : ℝ) + 1, List.ofFn fun i x => normalDensity 0 ((x 0 : Fin 3).val + 1) (X ω i), List.ofFn ![0, 1, 2], false, false, 1 / 10 ^ 300⟩ 1 Ex.realChange) := by
  have := Ex.realEnv_regular.nonempty
  obtain ⟨g, hgdef⟩ : ∃ g : HyperGrid ℝ, g = ⟨[.array [0, 1]], ["t"], [[0], [1]], [1], some [1 / 2, 1 / 2]⟩ := ⟨_, rfl⟩
  have hg : createHyperGrid Ex.realChange.tm (List.ofFn ![0, 1, 2]) = .ok g := by rw [hgdef]; exact Ex.realChange_grid
  have hrows : g.rows.length = 2 := by rw [hgdef]; rfl
  have hb : Built Ex.realChange.tm := .changePoint (name := "t") (value := .val .all) (prior := .item .none) trivial rfl
  have hsp : " " ∉ (entries Ex.realChange.tm).map (·.1) := by simp [Ex.realChange, entries]
  have htm : StepModel Ex.realChange.tm := ⟨rfl, rfl⟩
  have hlen := rows_length (Built.matched hb).proper hg
  have hord : ∀ r ∈ g.rows, InOrder Ex.realChange.tm r := by
    intro r hr
    rw [inOrder_step htm (hlen r hr)]
    rw [hgdef] at hr
    have : r = [0] ∨ r = [1] := by simpa using hr
    rcases this with rfl | rfl <;> simp
  have hfil : (g.rows.filter fun r => decide (InOrder Ex.realChange.tm r)) = g.rows := List.filter_eq_self.2 fun r hr => by simpa using hord r hr
  have hU := Ex.unit_steps
  have hτ : StrictMono (![0, 1, 2] : Fin 3 → ℝ) := Fin.strictMono_iff_lt_succ.2 fun i => by rw [hU i]; linarith
  have hd : ∀ x : Idx Ex.gs3, IsDensity (normalDensity 0 ((x 0 : Fin 3).val + 1)) := fun x => normal_isDensity (by positivity) _
  have hlaw : ∀ x : Idx Ex.gs3, IsProbabilityMeasure (volume.withDensity fun y => ENNReal.ofReal (normalDensity 0 ((x 0 : Fin 3).val + 1) y)) := fun x => ⟨by
    rw [withDensity_apply _ MeasurableSet.univ, Measure.restrict_univ, ← ofReal_integral_eq_lintegral_ofReal (hd x).integrable (.of_forall (hd x).nonneg), (hd x).total, ENNReal.ofReal_one]⟩
  have hone : ∑ _ : Idx Ex.gs3, 1 / (Fintype.card (Idx Ex.gs3) : ℝ) = 1 := by
    rw [Finset.sum_const, Finset.card_univ, nsmul_eq_mul, mul_one_div_cancel (Nat.cast_ne_zero.2 Fintype.card_ne_zero)]
  have hρ : ∑ j, orderedPrior Ex.realChange.tm g [1 / 2, 1 / 2] j = 1 := orderedPrior_one hord (by
    rw [hgdef]
    change ∑ i : Fin 2, ([1 / 2, 1 / 2] : List ℝ).getD i 0 * ([1] : List ℝ).prod = 1
    rw [Fin.sum_univ_two]
    simp
    norm_num)
  have hpl : ∀ (j : Fin g.rows.length) (i : Fin 3), pieceOf g.rows[j] ((![0, 1, 2] : Fin 3 → ℝ) i) < (pointNames Ex.realChange.tm).length + 1 := by
    intro j i
    refine Nat.lt_succ_of_le ((List.length_filter_le _ _).trans ?_)
    rw [hlen g.rows[j] (List.getElem_mem _), pointNames_step _ htm, List.length_map]
  obtain ⟨Ω, hΩ, P, J, V, X, hP, hD⟩ := exists_changeDraws (Y := ℝ) (orderedPrior Ex.realChange.tm g [1 / 2, 1 / 2]) (orderedPrior_nonneg (by simp) (by rw [hgdef]; simp)) hρ (fun _ : Idx Ex.gs3 => 1 / (Fintype.card (Idx Ex.gs3) : ℝ))
    (fun _ => by positivity) hone (fun j i => (⟨_, hpl j i⟩ : Fin ((pointNames Ex.realChange.tm).length + 1))) (fun x => volume.withDensity fun y => ENNReal.ofReal (normalDensity 0 ((x 0 : Fin 3).val + 1) y))
  have hM : ∀ y : Fin 3 → ℝ, ModeOK (⟨Ex.realEnv, fun _ (i : Fin 3) => (i.val : ℝ) + 1, List.ofFn fun i x => normalDensity 0 ((x 0 : Fin 3).val + 1) (y i), List.ofFn ![0, 1, 2], false, false, 1 / 10 ^ 300⟩ : FitIn ℝ Ex.gs3)
      Ex.realChange.S ![0, 1, 2] fun i x => normalDensity 0 ((x 0 : Fin 3).val + 1) (y i) := fun y => .inr (.inr (.inr ⟨rfl, hU⟩))
  have hok : ∃ C, cpFit (⟨Ex.realEnv, fun _ (i : Fin 3) => (i.val : ℝ) + 1, List.ofFn fun i x => normalDensity 0 ((x 0 : Fin 3).val + 1) ((0 : Fin 3 → ℝ) i), List.ofFn ![0, 1, 2], false, false, 1 / 10 ^ 300⟩ : FitIn ℝ Ex.gs3) 1 Ex.realChange = .ok (some C) := by
    refine cpFit_ok _ 1 Ex.realChange g [1 / 2, 1 / 2] hb hsp rfl hg (by rw [hgdef]) (by rw [hfil]; omega) (by decide) (by decide) (by decide) (by decide) ?_ fun r hr _ => ?_
    · rw [List.map_congr_left (g := fun _ => true) fun r hr => by simpa using hord r hr, hgdef]
      simp [select]
    · exact single_changes_ok _ _ _ Ex.realEnv_regular htm (by simp [Ex.realChange, entries]) _ .flat (.inl rfl) ![0, 1, 2] rfl _ rfl (fun i x => (hd x).nonneg _) (hM 0) (hlen r hr)
  obtain ⟨C, hC⟩ := hok
  have := (C125_partial Ex.realEnv (fun _ (i : Fin 3) => (i.val : ℝ) + 1) 1 Ex.realChange g [1 / 2, 1 / 2] hb hsp htm Ex.realEnv_regular (fun _ => 1 / (Fintype.card (Idx Ex.gs3) : ℝ)) .flat (.inl rfl) ![0, 1, 2] hτ hg (by rw [hgdef]) (by simp)
    (by
      intro e he
      have : e = ("t", .all) := by simpa [Ex.realChange, entries] using he
      subst this
      exact all_candidates _) (by rw [hfil]; omega) volume (fun x y => normalDensity 0 ((x 0 : Fin 3).val + 1) y) (fun x => (normal_continuous _ _).measurable) (fun x => (hd x).nonneg) (fun x => (hd x).integrable) false false (1 / 10 ^ 300)
    (.inr (.inr (.inr ⟨rfl, hU⟩))) ⟨0, C, hC⟩ _ (fun j _ i => rfl) P J V X hD).1
  subst hgdef
  exact ⟨Ω, hΩ, P, J, X, hP, this⟩

/-- a static period, followed by a random walk with unknown standard deviation from an unknown time step on -/
noncomputable def _root_.Ex.realBreak : HState ℝ Ex.gs3 where
  tm := .serial ["t"] [.array [0, 1]] [.item .none] [false] [mkStatic, .leaf (.grw "x") ["s"] [.array [1, 2]] (some (.item .none))]
  S := FitState.init .none
  evs := []
  hpd := none

/-- the hyper-grid -/
noncomputable def _root_.Ex.realBreakGrid : HyperGrid ℝ := ⟨[.array [1, 2], .array [0, 1]], ["s", "t"], [[1, 0], [1, 1], [2, 0], [2, 1]], [1, 1], some [1 / 4, 1 / 4, 1 / 4, 1 / 4]⟩

theorem _root_.Ex.realBreak_grid (ts : List ℝ) : createHyperGrid Ex.realBreak.tm ts = .ok Ex.realBreakGrid := by
  have h0 : hyperConst [(0 : ℝ), 1] = 1 := by
    simp [hyperConst, diff]
  have h1 : hyperConst [(1 : ℝ), 2] = 1 := by
    simp [hyperConst, diff]
    norm_num
  have h2 : normPrior [(1 : ℝ), 1] 1 = some [1 / 2, 1 / 2] := by
    simp [normPrior]
    norm_num
  have : createHyperGrid Ex.realBreak.tm ts = .ok ⟨[.array [1, 2], .array [0, 1]], ["s", "t"], [[1, 0], [1, 1], [2, 0], [2, 1]], [hyperConst [(1 : ℝ), 2], hyperConst [(0 : ℝ), 1]],
    (allSome [normPrior [(1 : ℝ), 1] (hyperConst [(1 : ℝ), 2]), normPrior [(1 : ℝ), 1] (hyperConst [(0 : ℝ), 1])]).map fun l => (cart l).map List.prod⟩ := rfl
  rw [this, h1, h0, h2]
  simp [allSome, cart, Ex.realBreakGrid]
  norm_num

/-- The hypotheses of `C125_breaks_partial` are met: white noise whose standard deviation is constant first and follows a random walk later. -/
example : ∃ (Ω : Type) (_ : MeasurableSpace Ω) (P : Measure Ω) (J : Ω → Fin Ex.realBreakGrid.rows.length) (X : Ω → Fin 3 → ℝ), IsProbabilityMeasure P ∧
    Calibrated P J X fun ω => changeProbIn (g := Ex.realBreakGrid)
      (cpFit ⟨Ex.realEnv, fun _ (i : Fin 3) => (i.val : ℝ) + 1, List.ofFn fun i x => normalDensity 0 ((x 0 : Fin 3).val + 1) (X ω i), List.ofFn ![0, 1, 2], false, false, 1 / 10 ^ 300⟩ 1 Ex.realBreak) := by
  have := Ex.realEnv_regular.nonempty
  obtain ⟨g, hgdef⟩ : ∃ g : HyperGrid ℝ, g = Ex.realBreakGrid := ⟨_, rfl⟩
  have hg : createHyperGrid Ex.realBreak.tm (List.ofFn ![0, 1, 2]) = .ok g := by rw [hgdef]; exact Ex.realBreak_grid _
  have hrows : g.rows.length = 4 := by rw [hgdef]; rfl
  have hb : Built Ex.realBreak.tm := by
    refine .serial (args := [mkStatic, mkBreakPoint "t" (.list [0, 1]) (.item .none), .leaf (.grw "x") ["s"] [.array [1, 2]] (some (.item .none))]) ?_ rfl
    intro a ha hn
    simp only [List.mem_cons, List.not_mem_nil, or_false] at ha
    rcases ha with rfl | rfl | rfl
    · exact .static
    · exact absurd ⟨_, _, _, rfl, trivial, rfl⟩ hn
    · exact .grw (name := "s") (value := .list [1, 2]) (target := some "x") (prior := .item .none) rfl trivial rfl
  have hsp : " " ∉ (entries Ex.realBreak.tm).map (·.1) := by simp [Ex.realBreak, entries, entriesAll, mkStatic]
  have hax : Ex.realEnv.axis "x" = .ok 0 := by simp [Env.axis, Ex.realEnv, List.finRange_succ]
  have htm : WalkModel Ex.realEnv Ex.realBreak.tm := ⟨rfl, by simp, rfl, trivial, ⟨⟨0, hax⟩, rfl, rfl⟩, trivial⟩
  have hnd : ((entries Ex.realBreak.tm).map (·.1)).Nodup := by simp [Ex.realBreak, entries, entriesAll, mkStatic]
  have hlen := rows_length (Built.matched hb).proper hg
  have hord : ∀ r ∈ g.rows, InOrder Ex.realBreak.tm r := by
    intro r hr
    rw [hgdef] at hr
    have : r = [1, 0] ∨ r = [1, 1] ∨ r = [2, 0] ∨ r = [2, 1] := by simpa [Ex.realBreakGrid] using hr
    rcases this with rfl | rfl | rfl | rfl <;> simp [InOrder, pointsOf, Ex.realBreak, entries, entriesAll, mkStatic, pointNames, pointNamesAll]
  have hfil : (g.rows.filter fun r => decide (InOrder Ex.realBreak.tm r)) = g.rows := List.filter_eq_self.2 fun r hr => by simpa using hord r hr
  have hd : ∀ x : Idx Ex.gs3, IsDensity (normalDensity 0 ((x 0 : Fin 3).val + 1)) := fun x => normal_isDensity (by positivity) _
  have hlaw : ∀ x : Idx Ex.gs3, IsProbabilityMeasure (volume.withDensity fun y => ENNReal.ofReal (normalDensity 0 ((x 0 : Fin 3).val + 1) y)) := fun x => ⟨by
    rw [withDensity_apply _ MeasurableSet.univ, Measure.restrict_univ, ← ofReal_integral_eq_lintegral_ofReal (hd x).integrable (.of_forall (hd x).nonneg), (hd x).total, ENNReal.ofReal_one]⟩
  have hone : ∑ _ : Idx Ex.gs3, 1 / (Fintype.card (Idx Ex.gs3) : ℝ) = 1 := by
    rw [Finset.sum_const, Finset.card_univ, nsmul_eq_mul, mul_one_div_cancel (Nat.cast_ne_zero.2 Fintype.card_ne_zero)]
  have hρ : ∑ j, orderedPrior Ex.realBreak.tm g [1 / 4, 1 / 4, 1 / 4, 1 / 4] j = 1 := orderedPrior_one hord (by
    rw [hgdef]
    change ∑ i : Fin 4, ([1 / 4, 1 / 4, 1 / 4, 1 / 4] : List ℝ).getD i 0 * ([1, 1] : List ℝ).prod = 1
    rw [Fin.sum_univ_four]
    simp
    norm_num)
  have hwk : ∀ r ∈ g.rows, Linear Ex.realEnv (modelAt Ex.realBreak.tm r) ∧ ResetFree (modelAt Ex.realBreak.tm r) := fun r hr => modelAt_walk htm hnd (hlen r hr)
  have hst : ∀ j : Fin g.rows.length, Stoch (kernel Ex.realEnv (fun _ => 1 / (Fintype.card (Idx Ex.gs3) : ℝ)) (modelAt Ex.realBreak.tm g.rows[j])) := fun j =>
    kernel_stoch Ex.realEnv_regular (hwk _ (List.getElem_mem _)).1 (.inl (hwk _ (List.getElem_mem _)).2) (pr := .none) (R := 0)
  obtain ⟨Ω, hΩ, P, J, Z, X, hP, hD⟩ := exists_hyperDraws (n := 2) (Y := ℝ) (orderedPrior Ex.realBreak.tm g [1 / 4, 1 / 4, 1 / 4, 1 / 4]) (orderedPrior_nonneg (by simp) (by rw [hgdef]; simp [Ex.realBreakGrid])) hρ
    (fun _ => 1 / (Fintype.card (Idx Ex.gs3) : ℝ))
    (fun j i => kernel Ex.realEnv (fun _ => 1 / (Fintype.card (Idx Ex.gs3) : ℝ)) (modelAt Ex.realBreak.tm g.rows[j]) (![0, 1, 2] i.castSucc)) (fun x => volume.withDensity fun y => ENNReal.ofReal (normalDensity 0 ((x 0 : Fin 3).val + 1) y))
    (fun _ => by positivity) (fun j i => (hst j).nonneg _) fun j => by
      have := evidence_ones (fun _ => 1 / (Fintype.card (Idx Ex.gs3) : ℝ)) (fun i : Fin 2 => kernel Ex.realEnv (fun _ => 1 / (Fintype.card (Idx Ex.gs3) : ℝ)) (modelAt Ex.realBreak.tm g.rows[j]) ((![0, 1, 2] : Fin 3 → ℝ) i.castSucc)) fun i => (hst j).sum _
      simp only [evidence, pathWeight, Finset.prod_const_one, mul_one] at this
      rw [this, hone]
  have hok : ∃ C, cpFit (⟨Ex.realEnv, fun _ (i : Fin 3) => (i.val : ℝ) + 1, List.ofFn fun i x => normalDensity 0 ((x 0 : Fin 3).val + 1) ((0 : Fin 3 → ℝ) i), List.ofFn ![0, 1, 2], false, false, 1 / 10 ^ 300⟩ : FitIn ℝ Ex.gs3) 1 Ex.realBreak = .ok (some C) := by
    refine cpFit_ok _ 1 Ex.realBreak g [1 / 4, 1 / 4, 1 / 4, 1 / 4] hb hsp rfl hg (by rw [hgdef]; rfl) (by rw [hfil]; omega) (by decide) (by decide) (by decide) (by decide) ?_ fun r hr _ => ?_
    · rw [List.map_congr_left (g := fun _ => true) fun r hr => by simpa using hord r hr, hgdef]
      simp [select, Ex.realBreakGrid]
      norm_num
    · obtain ⟨A, hA, -⟩ := C01_evidence_is_path_sum Ex.realEnv (fun _ (i : Fin 3) => (i.val : ℝ) + 1) _ Ex.realEnv_regular (hwk r hr).1 (hwk r hr).2 Ex.realBreak.S _ .flat
        (fun i x => normalDensity 0 ((x 0 : Fin 3).val + 1) ((0 : Fin 3 → ℝ) i)) (fun i x => (hd x).nonneg _) ![0, 1, 2] false false (.inr (.inr Ex.unit_steps))
      exact ⟨A, hA⟩
  obtain ⟨C, hC⟩ := hok
  have := (C125_breaks_partial Ex.realEnv (fun _ (i : Fin 3) => (i.val : ℝ) + 1) 1 Ex.realBreak g [1 / 4, 1 / 4, 1 / 4, 1 / 4] hb hsp htm Ex.realEnv_regular (fun _ => 1 / (Fintype.card (Idx Ex.gs3) : ℝ)) .flat rfl ![0, 1, 2] hg (by rw [hgdef]; rfl) (by simp)
    (by rw [hfil]; omega) volume (fun x y => normalDensity 0 ((x 0 : Fin 3).val + 1) y) (fun x => (normal_continuous _ _).measurable) (fun x => (hd x).nonneg) (fun x => (hd x).integrable) false false (1 / 10 ^ 300)
    (.inr (.inr Ex.unit_steps)) ⟨0, C, hC⟩ P J Z X hD).1
  subst hgdef
  exact ⟨Ω, hΩ, P, J, X, hP, this⟩

end Props
