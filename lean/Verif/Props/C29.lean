import Verif.Lemmas.HyperAvg
import Mathlib.Tactic.Positivity
import Mathlib.Tactic.FieldSimp

/-! # C29-C33, C37: hyper-studies -/

set_option linter.unusedSectionVars false

namespace Props
open BL Spec

variable {K : Type} [Field K] [LinearOrder K] [IsStrictOrderedRing K] {d : ℕ} {gs : Fin d → ℕ}

/-- the results of plain fits of all combinations -/
abbrev Singles (I : FitIn K gs) (H : HState K gs) (rows : List (List K)) (As : List (FitState K gs)) : Prop :=
  List.Forall₂ (fun row A => singleFit I H.tm H.S row = .ok A) rows As

theorem Singles.mem {I : FitIn K gs} {H : HState K gs} {rows : List (List K)} {As : List (FitState K gs)}
    (h : Singles I H rows As) {A : FitState K gs} (hA : A ∈ As) : ∃ row ∈ rows, singleFit I H.tm H.S row = .ok A := by
  induction h with
  | nil => simp at hA
  | cons h1 _ ih =>
      rcases List.mem_cons.1 hA with rfl | hA
      · exact ⟨_, by simp, h1⟩
      · obtain ⟨row, h1, h2⟩ := ih hA
        exact ⟨row, by simp [h1], h2⟩

theorem joint_eq (As : List (FitState K gs)) (ps hgc : List K) :
    joint (As.map FitState.logEv) ps hgc = (As.zip ps).map fun q => q.1.logEv.exp * q.2 * hgc.prod := by
  rw [joint, List.zipWith_map_left]
  induction As generalizing ps with
  | nil => rfl
  | cons A As ih => cases ps <;> simp [*]

/-- **C29 (part that holds: the prior of the parameters is not a numpy array).** Every hyper-study with more than one combination, every
transition model built with the constructors, data, hyper-priors, fit mode and number of jobs: the evidence list holds the
evidences of the plain fits, and the evidence of the study is the sum over all combinations of evidence times prior
probability (prior density times cell of the hyper-grid). -/
theorem C29_partial (I : FitIn K gs) (nJobs : ℕ) (H R : HState K gs) (g : HyperGrid K) (ps : List K) (hb : Built H.tm)
    (hsp : " " ∉ (entries H.tm).map (·.1)) (hn : H.S.prior.isArray = false)
    (hg : createHyperGrid H.tm I.ts = .ok g) (hps : g.priors = some ps) (hr : 1 < g.rows.length)
    (h : hyperFit I nJobs H = .ok (some R)) :
    ∃ As, Singles I H g.rows As ∧ R.evs = As.map FitState.logEv ∧ ps.length = As.length ∧
      R.S.logEv.exp = ((As.zip ps).map fun q => q.1.logEv.exp * (q.2 * g.hgc.prod)).sum := by
  rcases hyperFit_spec I nJobs H g ps hb hsp hn hg hps hr with ⟨e, he⟩ | ⟨As, a1, a2, a3, R', r0, r1, r2, r3, r4, r5, r6, r7, r8⟩
  · rw [he] at h; cases h
  · rw [r0] at h
    cases h
    refine ⟨As, a1, r1, a2, ?_⟩
    rw [r3, hyperEvidence_eq, joint_eq]
    congr 1
    apply List.map_congr_left
    intro q _
    ring

/-- weighted sums with weights of sum one lie between bounds of the summands -/
theorem weighted_between {α : Type} (f w : α → K) (lo hi : K) (l : List α) (hw : ∀ q ∈ l, 0 ≤ w q)
    (hf : ∀ q ∈ l, lo ≤ f q ∧ f q ≤ hi) :
    lo * (l.map w).sum ≤ (l.map fun q => f q * w q).sum ∧ (l.map fun q => f q * w q).sum ≤ hi * (l.map w).sum := by
  induction l with
  | nil => simp
  | cons a l ih =>
      obtain ⟨i1, i2⟩ := ih (fun q hq => hw q (by simp [hq])) (fun q hq => hf q (by simp [hq]))
      obtain ⟨f1, f2⟩ := hf a (by simp)
      have h0 := hw a (by simp)
      simp only [List.map_cons, List.sum_cons, mul_add]
      exact ⟨add_le_add (mul_le_mul_of_nonneg_right f1 h0) i1, add_le_add (mul_le_mul_of_nonneg_right f2 h0) i2⟩

theorem hyperConst_nonneg (l : List K) : 0 ≤ hyperConst l := by
  unfold hyperConst
  split
  · split
    · exact abs_nonneg _
    · exact zero_le_one
  · exact zero_le_one

theorem hgc_nonneg {tm : TM K} {ts : List K} {g : HyperGrid K} (hp : Proper tm) (hg : createHyperGrid tm ts = .ok g) : 0 ≤ g.hgc.prod := by
  rw [(createHyperGrid_eq hp hg).2.2.1]
  apply List.prod_nonneg
  intro c hc
  obtain ⟨l, -, rfl⟩ := List.mem_map.1 hc
  exact hyperConst_nonneg l

/-- **C29 (bounds).** With non-negative hyper-priors that are not sympy random variables, the evidence of the study lies between any lower and
upper bound of the individual evidences. -/
theorem C29_between_partial (I : FitIn K gs) (nJobs : ℕ) (H R : HState K gs) (g : HyperGrid K) (ps : List K) (hb : Built H.tm)
    (hsp : " " ∉ (entries H.tm).map (·.1)) (hn : H.S.prior.isArray = false)
    (hg : createHyperGrid H.tm I.ts = .ok g) (hps : g.priors = some ps) (hr : 1 < g.rows.length)
    (hrv : ∀ p ∈ priorsOf H.tm, NoRV p.2) (hnn : ∀ p ∈ ps, 0 ≤ p)
    (h : hyperFit I nJobs H = .ok (some R)) (lo hi : K)
    (hbd : ∀ row ∈ g.rows, ∀ A, singleFit I H.tm H.S row = .ok A → lo ≤ A.logEv.exp ∧ A.logEv.exp ≤ hi) :
    lo ≤ R.S.logEv.exp ∧ R.S.logEv.exp ≤ hi := by
  obtain ⟨As, a1, -, a3, a4⟩ := C29_partial I nJobs H R g ps hb hsp hn hg hps hr h
  have hsum := C28_normalised_partial H.tm I.ts g hb hg ps hps hrv
  have hc := hgc_nonneg (Built.matched hb).proper hg
  have hm : (As.zip ps).map (fun q => q.2 * g.hgc.prod) = ps.map (· * g.hgc.prod) := by
    have : (As.zip ps).map (·.2) = ps := List.map_snd_zip (by omega)
    conv_rhs => rw [← this]
    rw [List.map_map]
    rfl
  have hbd' : ∀ A ∈ As, lo ≤ A.logEv.exp ∧ A.logEv.exp ≤ hi := by
    intro A hA
    obtain ⟨row, hrow, hs⟩ := Singles.mem a1 hA
    exact hbd row hrow A hs
  have := weighted_between (fun q : FitState K gs × K => q.1.logEv.exp) (fun q => q.2 * g.hgc.prod) lo hi (As.zip ps)
    (fun q hq => mul_nonneg (hnn _ (List.of_mem_zip hq).2) hc) (fun q hq => hbd' _ (List.of_mem_zip hq).1)
  rw [hm, hsum, mul_one, mul_one] at this
  rw [a4]
  exact this

/-! ## C31 -/

/-- **C31 (part that holds: the prior of the parameters is not a numpy array).** If the evidence of the study is not zero: the stored distribution
(a density) times the hyper-grid cell is, for every combination, prior probability times evidence divided by the sum of these
products; these probabilities are not negative and sum to one, and a combination with zero evidence gets zero. -/
theorem C31_partial (I : FitIn K gs) (nJobs : ℕ) (H R : HState K gs) (g : HyperGrid K) (ps : List K) (hb : Built H.tm)
    (hsp : " " ∉ (entries H.tm).map (·.1)) (hn : H.S.prior.isArray = false) (hcell : 0 ≤ I.E.cell)
    (hg : createHyperGrid H.tm I.ts = .ok g) (hps : g.priors = some ps) (hr : 1 < g.rows.length) (hnn : ∀ p ∈ ps, 0 ≤ p)
    (h : hyperFit I nJobs H = .ok (some R)) (hpos : R.S.logEv ≠ LogV.ninf) :
    ∃ (As : List (FitState K gs)) (W D : List K), Singles I H g.rows As ∧ R.hpd = some D ∧ D.map (· * g.hgc.prod) = W ∧
      W = (As.zip ps).map (fun q => q.1.logEv.exp * (q.2 * g.hgc.prod) / R.S.logEv.exp) ∧
      W.length = g.rows.length ∧ W.sum = 1 ∧ (∀ w ∈ W, 0 ≤ w) ∧
      ∀ (k : ℕ) (A : FitState K gs), As[k]? = some A → A.logEv = LogV.ninf → W[k]? = some 0 := by
  rcases hyperFit_spec I nJobs H g ps hb hsp hn hg hps hr with ⟨e, he⟩ | ⟨As, a1, a2, a3, R', r0, r1, r2, r3, r4, r5, r6, r7, r8⟩
  · rw [he] at h; cases h
  · rw [r0] at h
    cases h
    have hc := hgc_nonneg (Built.matched hb).proper hg
    have hev0 : ∀ A ∈ As, 0 ≤ A.logEv.exp := by
      intro A hA
      obtain ⟨row, -, hs⟩ := Singles.mem a1 hA
      exact fit_ev_nonneg hcell hs
    have hj0 : ∀ w ∈ joint (As.map FitState.logEv) ps g.hgc, 0 ≤ w := by
      intro w hw
      rw [joint_eq] at hw
      obtain ⟨q, hq, rfl⟩ := List.mem_map.1 hw
      exact mul_nonneg (mul_nonneg (hev0 _ (List.of_mem_zip hq).1) (hnn _ (List.of_mem_zip hq).2)) hc
    have hT : R.S.logEv.exp = (joint (As.map FitState.logEv) ps g.hgc).sum := by rw [r3, hyperEvidence_eq]
    have hT0 : R.S.logEv.exp ≠ 0 := fun h0 => hpos (LogV.ext_exp h0)
    have hex : ∃ w ∈ joint (As.map FitState.logEv) ps g.hgc, 0 < w := by
      by_contra hno
      push Not at hno
      apply hT0
      rw [hT]
      exact List.sum_eq_zero fun w hw => le_antisymm (hno w hw) (hj0 w hw)
    have hc0 : g.hgc.prod ≠ 0 := by
      intro h0
      obtain ⟨w, hw, hwp⟩ := hex
      rw [joint_eq] at hw
      obtain ⟨q, hq, rfl⟩ := List.mem_map.1 hw
      rw [h0, mul_zero] at hwp
      exact lt_irrefl _ hwp
    have hD := hyperDist_eq hj0 hex
    rw [← hT] at hD
    have hW : ((joint (As.map FitState.logEv) ps g.hgc).map fun w => w / R.S.logEv.exp / g.hgc.prod).map (· * g.hgc.prod) =
        (As.zip ps).map (fun q => q.1.logEv.exp * (q.2 * g.hgc.prod) / R.S.logEv.exp) := by
      rw [joint_eq, List.map_map, List.map_map]
      apply List.map_congr_left
      intro q _
      simp only [Function.comp]
      rw [div_mul_cancel₀ _ hc0, mul_assoc]
    have hlen := a1.length_eq
    refine ⟨As, _, _, a1, by rw [r2, hD], rfl, hW, by simp [joint, a2, hlen], ?_, ?_, ?_⟩
    · rw [hW, joint_eq] at *
      have : (As.zip ps).map (fun q => q.1.logEv.exp * (q.2 * g.hgc.prod) / R.S.logEv.exp) =
          ((As.zip ps).map fun q => q.1.logEv.exp * q.2 * g.hgc.prod).map fun x => x / R.S.logEv.exp := by
        rw [List.map_map]
        apply List.map_congr_left
        intro q _
        simp only [Function.comp, mul_assoc]
      rw [this, sum_div_list, ← hT, div_self hT0]
    · intro w hw
      rw [hW] at hw
      obtain ⟨q, hq, rfl⟩ := List.mem_map.1 hw
      have hTn : 0 ≤ R.S.logEv.exp := by rw [hT]; exact List.sum_nonneg hj0
      exact div_nonneg (mul_nonneg (hev0 _ (List.of_mem_zip hq).1) (mul_nonneg (hnn _ (List.of_mem_zip hq).2) hc)) hTn
    · intro k A hA h0
      rw [hW, List.getElem?_map]
      have hk : k < As.length := (List.getElem?_eq_some_iff.1 hA).1
      have : (As.zip ps)[k]? = some (A, ps[k]'(by omega)) := by
        rw [List.getElem?_zip_eq_some]
        exact ⟨hA, List.getElem?_eq_getElem _⟩
      rw [this, Option.map_some, h0]
      simp

/-- If the evidence of the study is zero the distribution is nan. -/
theorem C31_zero_partial (I : FitIn K gs) (nJobs : ℕ) (H R : HState K gs) (g : HyperGrid K) (ps : List K) (hb : Built H.tm)
    (hsp : " " ∉ (entries H.tm).map (·.1)) (hn : H.S.prior.isArray = false)
    (hg : createHyperGrid H.tm I.ts = .ok g) (hps : g.priors = some ps) (hr : 1 < g.rows.length)
    (h : hyperFit I nJobs H = .ok (some R)) (hz : ∀ row ∈ g.rows, ∀ A, singleFit I H.tm H.S row = .ok A → A.logEv = LogV.ninf) :
    R.hpd = none := by
  rcases hyperFit_spec I nJobs H g ps hb hsp hn hg hps hr with ⟨e, he⟩ | ⟨As, a1, a2, a3, R', r0, r1, r2, r3, r4, r5, r6, r7, r8⟩
  · rw [he] at h; cases h
  · rw [r0] at h
    cases h
    rw [r2]
    apply hyperDist_none
    have h0 : ∀ A ∈ As, A.logEv = LogV.ninf := by
      intro A hA
      obtain ⟨row, hrow, hs⟩ := Singles.mem a1 hA
      exact hz row hrow A hs
    intro w hw
    rw [joint_eq] at hw
    obtain ⟨q, hq, rfl⟩ := List.mem_map.1 hw
    rw [h0 _ (List.of_mem_zip hq).1]
    simp

end Props
