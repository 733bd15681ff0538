import Verif.Props.C01
import Verif.Props.C07
import Verif.Model.RealExt
import Verif.Lemmas.Units
import Verif.Model.Likelihood
import Mathlib.Tactic.FieldSimp

/-! # C75: change of units -/

set_option linter.unusedSectionVars false

namespace BL
open Spec
variable {K : Type} [Field K] [LinearOrder K] [IsStrictOrderedRing K] {d : ℕ} {gs : Fin d → ℕ}

theorem mean_units {grid grid' : (a : Fin d) → Fin (gs a) → K} {a : Fin d} {u o : K} (hg : ∀ i, grid' a i = u * grid a i + o) {p : Idx gs → K} (hp : ∑ x, p x = 1) :
    mean grid' a p = u * mean grid a p + o := by
  unfold mean
  calc _ = ∑ x, (u * (p x * grid a (x a)) + p x * o) := Finset.sum_congr rfl fun x _ => by rw [hg]; ring
    _ = _ := by rw [Finset.sum_add_distrib, ← Finset.mul_sum, ← Finset.sum_mul, hp, one_mul]

theorem stepUnits_alpha {α : Type} (f : (Idx gs → K) → α) : ∀ {l l' : List (Step K gs)}, List.Forall₂ StepUnits l l' → (l'.map fun s => f s.alpha) = l.map fun s => f s.alpha
  | _, _, .nil => rfl
  | _, _, .cons h t => by
      simp only [List.map_cons, h.1, stepUnits_alpha f t]

theorem means_units {grid grid' : (a : Fin d) → Fin (gs a) → K} {a : Fin d} {u o : K} (hg : ∀ i, grid' a i = u * grid a i + o) :
    ∀ (l : List (Cell (Idx gs → K))), (∀ c ∈ l, ∃ p, c = .val p ∧ ∑ x, p x = 1) →
      (l.filterMap fun c => c.get?.map (mean grid' a)) = (l.filterMap fun c => c.get?.map (mean grid a)).map fun m => u * m + o
  | [], _ => rfl
  | c :: l, h => by
      obtain ⟨p, rfl, hp⟩ := h c (by simp)
      have := means_units hg l fun c hc => h c (by simp [hc])
      simp only [List.filterMap_cons, Cell.get?, Option.map_some, List.map_cons, mean_units hg hp]
      simp only [Cell.get?] at this
      rw [this]

theorem means_steps (f : (Idx gs → K) → K) (l : List (Step K gs)) : ((l.map fun s => Cell.val s.alpha).filterMap fun c => c.get?.map f) = l.map fun s => f s.alpha := by
  induction l with
  | nil => rfl
  | cons s l ih => simp only [List.map_cons, List.filterMap_cons, Cell.get?, Option.map_some] at ih ⊢; rw [ih]

theorem fit_units {u : String → K} (hu : ∀ s, 0 < u s) {E E' : Env K gs} (h : EnvUnits u E E') {grid grid' : (a : Fin d) → Fin (gs a) → K} {o : Fin d → K}
    (hg : ∀ a i, grid' a i = u (E.names a) * grid a i + o a) {tm tm' : TM K} (hm : InUnits E.ext.pow10 E.names u (unitVolume u E) tm tm') {S T : FitState K gs}
    (hp : PriorUnits (unitVolume u E) S.prior T.prior) {Ls : List (Idx gs → K)} {ts : List K} (hne : Ls ≠ []) {cs : List K} (hl : cs.length = Ls.length) (hc : ∀ c ∈ cs, 0 < c) {fo eo : Bool}
    (hmode : fo = true ∨ eo = true ∨ (NoRegimeSwitch tm ∧ ShiftHomogeneous E.ext)) {A : FitState K gs} (hA : fit E grid tm Ls ts fo eo S = .ok A) :
    ∃ B, fit E' grid' tm' (scaleAll cs Ls) ts fo eo T = .ok B ∧ B.logEv.exp = cs.prod * A.logEv.exp ∧ (eo = false → B.posts = A.posts) ∧
      (A.logEv ≠ LogV.ninf → ∀ a, B.means a = (A.means a).map fun m => u (E.names a) * m + o a) := by
  have hA0 := hA
  have hlen : (scaleAll cs Ls).length = Ls.length := by simp [scaleAll, hl]
  have hV := unitVolume_pos hu E
  unfold fit at hA ⊢
  revert hA
  cases hcp : computePrior { E with prior := S.prior } with
  | error e => intro hA; simp [bind, Except.bind] at hA
  | ok ap =>
      obtain ⟨a0, pr0⟩ := ap
      obtain ⟨pr1, c1, c2, c3⟩ := computePrior_units hu h hp hcp
      rw [c1]
      simp only [bind, Except.bind, c2]
      cases hf : fwdPass E tm pr0.isArray pr0 a0 Ls ts with
      | error e => intro hA; simp at hA
      | ok r =>
          obtain ⟨r', h1, h2, h3, h4⟩ := fwdPass_units hu h hm Ls cs hl hc ts _ _ _ c3 _ (inv_pos.2 hV) a0 r hf
          simp only [h1, h2, hlen]
          have hposts : (r'.steps.map fun s => Cell.val s.alpha) = r.steps.map fun s => Cell.val s.alpha := stepUnits_alpha Cell.val h3
          by_cases hst : r.stopped = true
          · simp only [hst, if_true]
            intro hA
            cases hA
            refine ⟨_, rfl, by simp, ?_, by simp⟩
            rintro rfl
            simp only [hposts, Bool.false_eq_true, if_false]
          · have hst' : r.stopped = false := by simpa using hst
            obtain ⟨h5, h6⟩ := h4 hst'
            simp only [hst', Bool.false_eq_true, if_false]
            have hev : (sumLog E' r'.steps).exp = cs.prod * (sumLog E r.steps).exp := by
              rw [sumLog_exp, sumLog_exp, h6, if_neg hne, units_cell h]
              field_simp
            have hsum := (fwdPass_sum Ls ts _ _ a0 r hf).1
            cases eo with
            | true =>
                simp only [if_true]
                intro hA; cases hA
                exact ⟨_, rfl, hev, by simp, by simp⟩
            | false =>
                simp only [Bool.false_eq_true, if_false]
                cases fo with
                | true =>
                    simp only [if_true]
                    intro hA; cases hA
                    refine ⟨_, rfl, hev, fun _ => hposts, fun _ a => ?_⟩
                    simp only [stepUnits_alpha (mean grid' a) h3, List.map_map]
                    apply List.map_congr_left
                    intro s hs
                    exact mean_units (hg a) (hsum s hs)
                | false =>
                    simp only [Bool.false_eq_true, if_false]
                    obtain ⟨hN, hX⟩ : NoRegimeSwitch tm ∧ ShiftHomogeneous E.ext := by simpa using hmode
                    cases hb : bwdPass { E with prior := r.prior } tm r.steps with
                    | error e => intro hA; simp at hA
                    | ok b =>
                        obtain ⟨b', g1, g2, g3, g4⟩ := bwdPass_units (E := { E with prior := r.prior }) (E' := { E' with prior := r'.prior }) hu ⟨h.names, h.ext, h.lattice⟩ h5.symm hm hX hN _ _ h3 b hb
                        simp only [g1, g2, g3]
                        by_cases hbs : b.stopped = true
                        · simp only [hbs, if_true]
                          intro hA; cases hA
                          exact ⟨_, rfl, by simp, fun _ => rfl, by simp⟩
                        · simp only [hbs, Bool.false_eq_true, if_false]
                          intro hA; cases hA
                          refine ⟨_, rfl, hev, fun _ => rfl, fun hfin a => ?_⟩
                          have := (Props.C07_normalised E grid tm Ls ts false S _ hA0 hfin).2
                          exact means_units (hg a) _ this

end BL

namespace Spec
open BL

/-- factor of the `n`-th parameter if all data are multiplied by `u`: location and width parameters are valueCount in the unit of the data, correlation coefficients have no unit -/
def unitFactor (u : ℝ) : OM → ℕ → ℝ
  | .gaussian, _ => u
  | .laplace, _ => u
  | .gaussianMean, _ => u
  | .whiteNoise, _ => u
  | .ar1, 0 => 1
  | .ar1, _ => u
  | .scaledAR1, 0 => 1
  | .scaledAR1, _ => u
  | .bernoulli, _ => 1
  | .poisson, _ => 1

/-- offset of the `n`-th parameter if `o` is added to all data: location parameters -/
def unitOffset (o : ℝ) : OM → ℕ → ℝ
  | .gaussian, 0 => o
  | .laplace, 0 => o
  | .gaussianMean, 0 => o
  | _, _ => 0

/-- observation models of data with a unit; with an origin of the scale (`o ≠ 0`) those with a location parameter -/
def HasUnits (m : OM) (o : ℝ) : Prop := m = .gaussian ∨ m = .laplace ∨ m = .gaussianMean ∨ ((m = .whiteNoise ∨ m = .ar1 ∨ m = .scaledAR1) ∧ o = 0)

/-- the data in the other unit (`u * x + o` for every valueCount value `x`); GaussianMean: the second column contains standard errors, which are multiplied only -/
noncomputable def convert (m : OM) (u o : ℝ) : Seg ℝ → Seg ℝ
  | .flat xs => .flat (xs.map (Option.map fun x => u * x + o))
  | .rows w xs => .rows w (xs.map fun r j => (r j).map fun x => u * x + if m = .gaussianMean ∧ j.val = 1 then 0 else o)

/-- data segment as the study passes it to the observation model; standard errors are positive -/
def SegmentOK (m : OM) : Seg ℝ → Prop
  | .flat xs => m ≠ .gaussianMean ∧ xs.length = m.segmentLength
  | .rows w xs => xs.length = m.segmentLength ∧ (m = .gaussianMean → w = 2 ∧ ∀ r ∈ xs, ∀ j, j.val = 1 → ∀ x, r j = some x → 0 < x)

/-- number of densities which are multiplied to the likelihood of a segment: data with missing values do not count -/
def valueCount (m : OM) : Seg ℝ → ℕ
  | .flat xs => if (Seg.flat xs).missing then 0 else 1
  | .rows w xs => if m = .gaussianMean then (if (Seg.rows w xs).missing then 0 else 1) else (List.finRange w).countP fun j => !(Seg.flat (column xs j)).missing

/-- parameter values for which the densities exist: positive widths, correlation coefficients between -1 and 1 (ScaledAR1) -/
def GridOK (m : OM) (θ : ℕ → ℝ) : Prop :=
  match m with
  | .gaussian => 0 < θ 1
  | .laplace => 0 < θ 1
  | .whiteNoise => 0 < θ 0
  | .ar1 => 0 < θ 1
  | .scaledAR1 => 0 < θ 1 ∧ -1 < θ 0 ∧ θ 0 < 1
  | _ => True

end Spec

namespace BL
open Spec

theorem gaussForm_units {u sq var : ℝ} (hu : 0 < u) (hv : 0 < var) : gaussForm (u ^ 2 * sq) (u ^ 2 * var) = u⁻¹ * gaussForm sq var := by
  unfold gaussForm
  have e1 : -(u ^ 2 * sq) / (2 * (u ^ 2 * var)) = -sq / (2 * var) := by field_simp
  have e2 : Real.log (2 * Real.pi * (u ^ 2 * var)) = 2 * Real.log u + Real.log (2 * Real.pi * var) := by
    have : 2 * Real.pi * (u ^ 2 * var) = u ^ 2 * (2 * Real.pi * var) := by ring
    rw [this, Real.log_mul (by positivity) (by have := Real.pi_pos; positivity), Real.log_pow]
    norm_num
  have e3 : -sq / (2 * var) - 1 / 2 * (2 * Real.log u + Real.log (2 * Real.pi * var)) = -Real.log u + (-sq / (2 * var) - 1 / 2 * Real.log (2 * Real.pi * var)) := by ring
  rw [e1, e2, e3, Real.exp_add, Real.exp_neg, Real.exp_log hu]

theorem num_convert {u o : ℝ} {xs : List (Option ℝ)} (h : (Seg.flat xs).missing = false) {i : ℕ} (hi : i < xs.length) :
    (Seg.flat (xs.map (Option.map fun x => u * x + o))).num i = u * (Seg.flat xs).num i + o := by
  have h1 : xs[i].isSome := by
    simp only [Seg.missing, List.any_eq_false] at h
    have := h xs[i] (List.getElem_mem hi)
    simpa [Option.isSome_iff_ne_none] using this
  obtain ⟨x, hx⟩ := Option.isSome_iff_exists.1 h1
  simp [Seg.num, hi, hx]

theorem missing_convert {u o : ℝ} {m : OM} (s : Seg ℝ) : (convert m u o s).missing = s.missing := by
  cases s with
  | flat xs => simp [convert, Seg.missing, List.any_map, Function.comp_def]
  | rows w xs => simp [convert, Seg.missing, List.any_map, Function.comp_def]

theorem pdf_units {m : OM} {u o : ℝ} (hu : 0 < u) (hm : HasUnits m o) (hg : m ≠ .gaussianMean) {θ θ' : ℕ → ℝ} (hθ : ∀ n < m.nParameters, θ' n = unitFactor u m n * θ n + unitOffset o m n) (hok : GridOK m θ)
    {xs : List (Option ℝ)} (hl : xs.length = m.segmentLength) (hmiss : (Seg.flat xs).missing = false) :
    m.pdf θ' (Seg.flat (xs.map (Option.map fun x => u * x + o))) = u⁻¹ * m.pdf θ (.flat xs) := by
  rcases hm with rfl | rfl | rfl | ⟨rfl | rfl | rfl, rfl⟩
  · have h0 := hθ 0 (by decide)
    have h1 := hθ 1 (by decide)
    simp only [unitFactor, unitOffset, add_zero] at h0 h1
    simp only [GridOK] at hok
    simp only [OM.pdf, num_convert hmiss (i := 0) (by rw [hl]; decide), h0, h1]
    rw [← gaussForm_units hu (by positivity)]
    congr 1 <;> ring
  · have h0 := hθ 0 (by decide)
    have h1 := hθ 1 (by decide)
    simp only [unitFactor, unitOffset, add_zero] at h0 h1
    simp only [GridOK] at hok
    simp only [OM.pdf, num_convert hmiss (i := 0) (by rw [hl]; decide), h0, h1]
    have e : u * (Seg.flat xs).num 0 + o - (u * θ 0 + o) = u * ((Seg.flat xs).num 0 - θ 0) := by ring
    rw [e, abs_mul, abs_of_pos hu, ← mul_neg, mul_div_mul_left _ _ hu.ne']
    field_simp
  · exact absurd rfl hg
  · have h0 := hθ 0 (by decide)
    simp only [unitFactor, unitOffset, add_zero] at h0
    simp only [GridOK] at hok
    simp only [OM.pdf, num_convert hmiss (i := 0) (by rw [hl]; decide), h0]
    rw [← gaussForm_units hu (by positivity)]
    congr 1 <;> ring
  · have h0 := hθ 0 (by decide)
    have h1 := hθ 1 (by decide)
    simp only [unitFactor, unitOffset, add_zero, one_mul] at h0 h1
    simp only [GridOK] at hok
    simp only [OM.pdf, num_convert hmiss (i := 0) (by rw [hl]; decide), num_convert hmiss (i := 1) (by rw [hl]; decide), h0, h1]
    rw [← gaussForm_units hu (by positivity)]
    congr 1 <;> ring
  · have h0 := hθ 0 (by decide)
    have h1 := hθ 1 (by decide)
    simp only [unitFactor, unitOffset, add_zero, one_mul] at h0 h1
    simp only [GridOK] at hok
    have hs : 0 < Real.sqrt (1 - θ 0 ^ 2) := Real.sqrt_pos.2 (by nlinarith [hok.2.1, hok.2.2])
    have hw := hok.1
    simp only [OM.pdf, num_convert hmiss (i := 0) (by rw [hl]; decide), num_convert hmiss (i := 1) (by rw [hl]; decide), h0, h1]
    rw [← gaussForm_units hu (by positivity)]
    congr 1 <;> ring

theorem prod_units {α : Type} (u : ℝ) (b : α → Bool) (f g : α → ℝ) (h : ∀ j, g j = (if b j then u else 1) * f j) : ∀ (l : List α), (l.map g).prod = u ^ (l.countP b) * (l.map f).prod
  | [] => by simp
  | j :: l => by
      simp only [List.map_cons, List.prod_cons, prod_units u b f g h l, h j, List.countP_cons]
      cases b j
      · simp; ring
      · simp [pow_succ]; ring

variable {d : ℕ} {gs : Fin d → ℕ}

theorem likelihood_units {m : OM} {u o : ℝ} (hu : 0 < u) (hm : HasUnits m o) {grid grid' : (a : Fin d) → Fin (gs a) → ℝ} (hd : d = m.nParameters)
    (hg : ∀ a i, grid' a i = unitFactor u m a.val * grid a i + unitOffset o m a.val) (hok : ∀ x, GridOK m (gridPoint grid x)) (s : Seg ℝ) (hs : SegmentOK m s) :
    m.likelihood grid' (convert m u o s) = fun x => u⁻¹ ^ valueCount m s * m.likelihood grid s x := by
  have hθ : ∀ x, ∀ n < m.nParameters, gridPoint grid' x n = unitFactor u m n * gridPoint grid x n + unitOffset o m n := by
    intro x n hn
    simp only [gridPoint, hd, hn, dif_pos, hg]
  have key : ∀ (xs : List (Option ℝ)), m ≠ .gaussianMean → xs.length = m.segmentLength → ∀ x,
      pdfOrOnes (fun s x => m.pdf (gridPoint grid' x) s) (.flat (xs.map (Option.map fun x => u * x + o))) x =
        (if !(Seg.flat xs).missing then u⁻¹ else 1) * pdfOrOnes (fun s x => m.pdf (gridPoint grid x) s) (.flat xs) x := by
    intro xs hg hl x
    have hmc := missing_convert (u := u) (o := o) (m := m) (.flat xs)
    simp only [convert] at hmc
    unfold pdfOrOnes
    rw [hmc]
    cases hmiss : (Seg.flat xs).missing with
    | true => simp
    | false =>
        simp only [Bool.false_eq_true, if_false, Bool.not_false, if_true]
        exact pdf_units hu hm hg (hθ x) (hok x) hl hmiss
  funext x
  by_cases hgm : m = .gaussianMean
  · subst hgm
    cases s with
    | flat xs => exact absurd rfl hs.1
    | rows w xs =>
        obtain ⟨hl, hw⟩ := hs
        obtain ⟨rfl, hpos⟩ := hw rfl
        have hmc := missing_convert (u := u) (o := o) (m := .gaussianMean) (.rows 2 xs)
        obtain ⟨r, rfl⟩ : ∃ r, xs = [r] := List.length_eq_one_iff.1 hl
        have hnot : ¬ (OM.gaussianMean.multiplyLikelihoods = true) := by decide
        simp only [OM.likelihood, convert, processedPdf, if_neg hnot, valueCount, if_true, pdfOrOnes] at hmc ⊢
        rw [hmc]
        cases hmiss : (Seg.rows 2 [r]).missing with
        | true => simp
        | false =>
            simp only [Bool.false_eq_true, if_false, pow_one]
            have h0 := hθ x 0 (by decide)
            simp only [unitFactor, unitOffset] at h0
            simp only [Seg.missing, List.any_cons, List.any_nil, Bool.or_false, List.any_eq_false, Bool.not_eq_true, Option.isNone_eq_false_iff] at hmiss
            obtain ⟨y, hy⟩ := Option.isSome_iff_exists.1 (hmiss 0 (List.mem_finRange _))
            obtain ⟨z, hz⟩ := Option.isSome_iff_exists.1 (hmiss 1 (List.mem_finRange _))
            have hz0 := hpos r (by simp) 1 rfl z hz
            simp only [OM.pdf, h0]
            simp only [Seg.num2, List.map_cons, List.map_nil, List.getElem?_cons_zero, Option.bind_some, Nat.zero_lt_two, dif_pos, Nat.one_lt_two]
            have e0 : (⟨0, by decide⟩ : Fin 2) = 0 := rfl
            have e1 : (⟨1, by decide⟩ : Fin 2) = 1 := rfl
            simp only [e0, e1, hy, hz, Option.map_some, Option.getD_some]
            simp only [Fin.val_one, true_and, zero_ne_one, if_false, if_true, add_zero]
            rw [← gaussForm_units hu (by positivity)]
            congr 1 <;> ring
  · have hmul : m.multiplyLikelihoods = true := by cases m <;> first | rfl | exact absurd rfl hgm
    cases s with
    | flat xs =>
        simp only [OM.likelihood, convert, processedPdf, valueCount, key xs hgm hs.2]
        cases (Seg.flat xs).missing <;> simp
    | rows w xs =>
        simp only [OM.likelihood, convert, processedPdf, valueCount, hmul, if_true, hgm, false_and, if_false]
        refine prod_units u⁻¹ _ _ _ (fun j => ?_) _
        have hc : column (xs.map fun r j => (r j).map fun x => u * x + o) j = (column xs j).map (Option.map fun x => u * x + o) := by
          simp [column]
        rw [hc, key (column xs j) hgm (by simpa [column] using hs.1)]

end BL

namespace Props
open BL Spec

/-- **C75 (partial).** The data are converted to another unit (`u * x + o`), and with them the parameter grid, the prior, the widths of random walks, the curves of deterministic changes and the probability densities
of RegimeSwitch and NotEqual.  Then the evidence is divided by `u` once for every valueCount value (the Jacobian of the conversion of the data), all posterior distributions are the same and
the mean values are converted.  Missing: change-points (`C75_refuted`) and the full fit with RegimeSwitch (`C12_refuted` with a likelihood that is multiplied by a constant). -/
theorem C75_partial {d : ℕ} {gs : Fin d → ℕ} (m : OM) (u o : ℝ) (hu : 0 < u) (hm : HasUnits m o) (hd : d = m.nParameters)
    (E E' : Env ℝ gs) (f : String → ℝ) (hf : ∀ s, 0 < f s) (hfu : ∀ a, f (E.names a) = unitFactor u m a.val) (hE : EnvUnits f E E')
    (grid grid' : (a : Fin d) → Fin (gs a) → ℝ) (hg : ∀ a i, grid' a i = unitFactor u m a.val * grid a i + unitOffset o m a.val) (hok : ∀ x, GridOK m (gridPoint grid x))
    (tm tm' : TM ℝ) (htm : InUnits E.ext.pow10 E.names f (∏ a, f (E.names a)) tm tm') (S T : FitState ℝ gs) (hp : PriorUnits (∏ a, f (E.names a)) S.prior T.prior)
    (segs : List (Seg ℝ)) (hne : segs ≠ []) (hs : ∀ s ∈ segs, SegmentOK m s) (ts : List ℝ) (fo eo : Bool)
    (hmode : fo = true ∨ eo = true ∨ (NoRegimeSwitch tm ∧ ShiftHomogeneous E.ext)) (A : FitState ℝ gs) (hA : fit E grid tm (segs.map (m.likelihood grid)) ts fo eo S = .ok A) :
    ∃ B, fit E' grid' tm' ((segs.map (convert m u o)).map (m.likelihood grid')) ts fo eo T = .ok B ∧ B.logEv.exp = A.logEv.exp / u ^ (segs.map (valueCount m)).sum ∧
      (eo = false → B.posts = A.posts) ∧ (A.logEv ≠ LogV.ninf → ∀ a, B.means a = (A.means a).map fun v => unitFactor u m a.val * v + unitOffset o m a.val) := by
  have hLs : (segs.map (convert m u o)).map (m.likelihood grid') = scaleAll (segs.map fun s => u⁻¹ ^ valueCount m s) (segs.map (m.likelihood grid)) := by
    unfold scaleAll
    rw [List.zipWith_map, List.zipWith_self, List.map_map]
    apply List.map_congr_left
    intro s h
    exact likelihood_units hu hm hd hg hok s (hs s h)
  have hprod : (segs.map fun s => u⁻¹ ^ valueCount m s).prod = (u ^ (segs.map (valueCount m)).sum)⁻¹ := by
    rw [← inv_pow]
    clear hA hLs hs hne
    induction segs with
    | nil => simp
    | cons s l ih => rw [List.map_cons, List.prod_cons, ih, List.map_cons, List.sum_cons, pow_add]
  obtain ⟨B, h1, h2, h3, h4⟩ := fit_units (grid' := grid') (o := fun a => unitOffset o m a.val) hf hE (fun a i => by rw [hg, hfu]) htm hp (by simpa using hne) (cs := segs.map fun s => u⁻¹ ^ valueCount m s) (by simp)
    (by intro c hc; obtain ⟨s, -, rfl⟩ := List.mem_map.1 hc; positivity) hmode hA
  refine ⟨B, by rw [hLs]; exact h1, by rw [h2, hprod]; field_simp, h3, fun hfin a => ?_⟩
  rw [h4 hfin a, hfu]

/-- two grid points for each of two parameters -/
def gsU : Fin 2 → ℕ := fun _ => 2

/-- mean value 0, 1 and standard deviation 1, 2 -/
noncomputable def gridU : (a : Fin 2) → Fin (gsU a) → ℝ := fun a i => if a = 0 then i.val else i.val + 1

/-- parameters mean and std, with lattice constants `l` -/
noncomputable def envU (l : Fin 2 → ℝ) : Env ℝ gsU := ⟨fun a => if a = 0 then "mean" else "std", l, .none, realExt 2 fun _ _ p => p⟩

/-- The hypotheses can be met: two measurements and a missing value, converted from degrees Celsius to Fahrenheit; random walk of the mean value. -/
example : ∃ A B : FitState ℝ gsU,
    fit (envU fun _ => 1) gridU (.leaf (.grw "mean") ["sigma"] [.scalar (1 / 2)] none) ([.flat [some 1], .flat [none], .flat [some 3]].map (OM.gaussian.likelihood gridU)) [0, 1, 2] false false
      ⟨.none, [], fun _ => [], 0, []⟩ = .ok A ∧
    fit (envU fun _ => 9 / 5) (fun a i => 9 / 5 * gridU a i + if a = 0 then 32 else 0) (.leaf (.grw "mean") ["sigma"] [.scalar (9 / 10)] none)
      ((([.flat [some 1], .flat [none], .flat [some 3]] : List (Seg ℝ)).map (convert .gaussian (9 / 5) 32)).map (OM.gaussian.likelihood fun a i => 9 / 5 * gridU a i + if a = 0 then 32 else 0)) [0, 1, 2] false false
      ⟨.none, [], fun _ => [], 0, []⟩ = .ok B ∧ B.logEv.exp = A.logEv.exp / (9 / 5) ^ 2 ∧ B.posts = A.posts := by
  have hE : Regular (envU fun _ => 1) := ⟨fun _ => one_pos, ⟨fun _ => ⟨0, by simp [gsU]⟩⟩, realExt_gaussOK _ _⟩
  have hax : (envU fun _ => 1).axis "mean" = .ok 0 := by simp [Env.axis, envU, List.finRange_succ]
  have hL0 : ∀ (s : Seg ℝ) x, 0 ≤ OM.gaussian.likelihood gridU s x := by
    intro s x
    cases s with
    | flat xs =>
        simp only [OM.likelihood, processedPdf, pdfOrOnes]
        split
        · exact zero_le_one
        · exact (Real.exp_pos _).le
    | rows w xs =>
        simp only [OM.likelihood, processedPdf, OM.multiplyLikelihoods]
        refine List.prod_nonneg fun y hy => ?_
        obtain ⟨j, -, rfl⟩ := List.mem_map.1 hy
        unfold pdfOrOnes
        split
        · exact zero_le_one
        · exact (Real.exp_pos _).le
  obtain ⟨A, h1, -⟩ := C01_evidence_is_path_sum (envU fun _ => 1) gridU (.leaf (.grw "mean") ["sigma"] [.scalar (1 / 2)] none) hE (by simp [Linear, hax]) (by simp [ResetFree])
    ⟨.none, [], fun _ => [], 0, []⟩ _ .flat (n := 2) (fun i => OM.gaussian.likelihood gridU (([.flat [some 1], .flat [none], .flat [some 3]] : List (Seg ℝ)).get i)) (fun i => hL0 _) (fun i => (i.val : ℝ)) false false
    (.inr (.inr (by intro i; simp)))
  have e : fit (envU fun _ => 1) gridU (.leaf (.grw "mean") ["sigma"] [.scalar (1 / 2)] none) ([.flat [some 1], .flat [none], .flat [some 3]].map (OM.gaussian.likelihood gridU)) [0, 1, 2] false false
      ⟨.none, [], fun _ => [], 0, []⟩ = .ok A := by
    rw [← h1]
    congr 1
    simp [List.ofFn_succ]
    norm_num
  obtain ⟨B, g1, g2, g3, -⟩ := C75_partial (d := 2) .gaussian (9 / 5) 32 (by norm_num) (.inl rfl) rfl (envU fun _ => 1) (envU fun _ => 9 / 5) (fun _ => 9 / 5) (fun _ => by norm_num) (fun _ => rfl)
    ⟨rfl, rfl, fun a => by simp [envU]⟩ gridU (fun a i => 9 / 5 * gridU a i + if a = 0 then 32 else 0)
    (Fin.forall_fin_two.2 ⟨fun i => by simp [unitFactor, unitOffset], fun i => by simp [unitFactor, unitOffset]⟩) (fun x => by simp [GridOK, gridPoint, gridU]; positivity)
    _ (.leaf (.grw "mean") ["sigma"] [.scalar (9 / 10)] none) (by
      simp only [InUnits]
      have := LeafUnits.grw (pow10 := (envU fun _ => 1).ext.pow10) (names := (envU fun _ => 1).names) (u := fun _ => (9 / 5 : ℝ)) (V := ∏ _a : Fin 2, (9 / 5 : ℝ)) "mean" (1 / 2)
      have e : (9 / 5 : ℝ) * (1 / 2) = 9 / 10 := by norm_num
      rw [e] at this
      exact this) _ ⟨.none, [], fun _ => [], 0, []⟩ .flat [.flat [some 1], .flat [none], .flat [some 3]] (by simp)
    (by intro s hs; fin_cases hs <;> simp [SegmentOK, OM.segmentLength]) [0, 1, 2] false false (.inr (.inr ⟨by simp [NoRegimeSwitch], fun _ _ _ _ _ => rfl⟩)) A e
  refine ⟨A, B, e, g1, ?_, g3 rfl⟩
  rw [g2]
  congr 1

/-- **C75 refuted** for change-points: a grid with values 0 and 1, and the same in a unit half as large; nothing else changes, but the evidence is doubled. -/
theorem C75_refuted :
    EnvUnits (fun _ => 2) (Ex.env Ex.gs2 1) (Ex.env Ex.gs2 2) ∧
    Ex.ev (fit (Ex.env Ex.gs2 1) (Ex.grid Ex.gs2) (Ex.cp 0) [Ex.v2 1 2, Ex.v2 3 1] [0, 1] false false (Ex.S0 .none)) = some 3 ∧
    Ex.ev (fit (Ex.env Ex.gs2 2) (fun a i => 2 * Ex.grid Ex.gs2 a i) (Ex.cp 0) [Ex.v2 1 2, Ex.v2 3 1] [0, 1] false false (Ex.S0 .none)) = some 6 := by
  refine ⟨⟨rfl, rfl, fun a => by simp [Ex.env]⟩, ?_, ?_⟩ <;> decide +kernel

end Props
