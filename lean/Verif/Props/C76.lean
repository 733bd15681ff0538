import Verif.Props.C75
import Verif.Props.C55
import Verif.Lemmas.Geometry

/-! # C76: other order and orientation of the parameters -/

set_option linter.unusedSectionVars false

namespace BL
open Spec

theorem bivDensity_swap (a b ρ x y : ℝ) : bivDensity b a ρ y x = bivDensity a b ρ x y := by
  unfold bivDensity
  congr 1
  ring

theorem bivDensity_neg (a b ρ x y : ℝ) : bivDensity a b (-ρ) (-x) y = bivDensity a b ρ x y := by
  unfold bivDensity
  rw [neg_sq]
  congr 2
  ring

theorem sum_Icc_neg (n : ℤ) (f : ℤ → ℝ) : ∑ i ∈ Finset.Icc (-n) n, f (-i) = ∑ i ∈ Finset.Icc (-n) n, f i := by
  refine Finset.sum_bij' (fun k _ => -k) (fun k _ => -k) ?_ ?_ ?_ ?_ ?_
  · intro k hk; simp only [Finset.mem_Icc] at hk ⊢; omega
  · intro k hk; simp only [Finset.mem_Icc] at hk ⊢; omega
  · intro k _; simp
  · intro k _; simp
  · intro k _; rfl

/-- The external functions of numpy and scipy have the symmetries that the theorem needs; the spline interpolation stays a parameter. -/
theorem realExt_relabel {d : ℕ} {gs : Fin d → ℕ} (τ : Fin d ≃ Fin d) (s : Fin d → Bool) (l : ℕ) (names : Fin d → String) (hn : Function.Injective names) (lattice : Fin d → ℝ) (pr : PriorSpec ℝ gs)
    (pr' : PriorSpec ℝ fun b => gs (τ b)) (shift : Fin d → ℝ → (Idx gs → ℝ) → (Idx gs → ℝ)) (shift' : Fin d → ℝ → ((Idx fun b => gs (τ b)) → ℝ) → ((Idx fun b => gs (τ b)) → ℝ))
    (hs : ∀ b v p x, shift' b (if s b then -v else v) (fun y => p ((relabel τ s).symm y)) (relabel τ s x) = shift (τ b) v p x) :
    EnvRelabel τ s ⟨names, lattice, pr, realExt l shift⟩ ⟨fun b => names (τ b), fun b => lattice (τ b), pr', realExt l shift'⟩ where
  names := fun _ => rfl
  distinct := hn
  lattice := fun _ => rfl
  pow10 := rfl
  gaussR := rfl
  gaussW := rfl
  stableKer := rfl
  bivKer := rfl
  gauss_even := (realExt_gaussOK l shift).even
  stable_even := by
    intro c α k
    simp only [realExt, stableKernel, Int.natAbs_neg]
    congr 3
    refine Finset.sum_congr rfl fun j _ => ?_
    congr 1
    push_cast
    rw [show Real.pi * j * -(k : ℝ) / ((3 * l / 2 : ℕ) : ℝ) = -(Real.pi * j * k / ((3 * l / 2 : ℕ) : ℝ)) by ring, Real.cos_neg]
  biv_even := fun a b ρ k l => bivKernel_even a b ρ k l
  biv_swap := by
    intro a b ρ k l
    simp only [realExt, bivKernel]
    rw [Finset.sum_comm]
    simp only [bivDensity_swap a b ρ, and_comm]
  biv_neg := by
    intro a b ρ k l
    simp only [realExt, bivKernel, abs_neg]
    have e : ∑ i ∈ Finset.Icc (-(3 * ⌈a⌉)) (3 * ⌈a⌉), ∑ j ∈ Finset.Icc (-(3 * ⌈b⌉)) (3 * ⌈b⌉), bivDensity a b (-ρ) i j = ∑ i ∈ Finset.Icc (-(3 * ⌈a⌉)) (3 * ⌈a⌉), ∑ j ∈ Finset.Icc (-(3 * ⌈b⌉)) (3 * ⌈b⌉), bivDensity a b ρ i j := by
      rw [← sum_Icc_neg]
      refine Finset.sum_congr rfl fun i _ => Finset.sum_congr rfl fun j _ => ?_
      push_cast
      exact bivDensity_neg ..
    rw [e]
    push_cast
    rw [bivDensity_neg]
  shift := hs

variable {K : Type} [Field K] [LinearOrder K] [IsStrictOrderedRing K] {d : ℕ} {gs : Fin d → ℕ} {τ : Fin d ≃ Fin d} {s : Fin d → Bool}

theorem mean_relabel {grid : (a : Fin d) → Fin (gs a) → K} {grid' : (b : Fin d) → Fin (gs (τ b)) → K} {b : Fin d} {o : K}
    (hg : ∀ i, grid' b i = if s b then o - grid (τ b) i.rev else grid (τ b) i) {p : Idx gs → K} (hp : ∑ x, p x = 1) :
    mean grid' b (carry (relabel τ s) p) = if s b then o - mean grid (τ b) p else mean grid (τ b) p := by
  unfold mean
  rw [← Equiv.sum_comp (relabel τ s)]
  simp only [carry, Equiv.symm_apply_apply, relabel_apply, hg]
  split
  · simp only [Fin.rev_rev, mul_sub, sub_mul, Finset.sum_sub_distrib, ← Finset.sum_mul, ← Finset.mul_sum, hp, one_mul, mul_one]
  · rfl

theorem means_relabel {grid : (a : Fin d) → Fin (gs a) → K} {grid' : (b : Fin d) → Fin (gs (τ b)) → K} {b : Fin d} {o : K}
    (hg : ∀ i, grid' b i = if s b then o - grid (τ b) i.rev else grid (τ b) i) :
    ∀ (l : List (Cell (Idx gs → K))), (∀ c ∈ l, ∃ p, c = .val p ∧ ∑ x, p x = 1) →
      (l.filterMap fun c => c.get?.map fun p => mean grid' b (carry (relabel τ s) p)) = (l.filterMap fun c => c.get?.map (mean grid (τ b))).map fun m => if s b then o - m else m
  | [], _ => rfl
  | c :: l, h => by
      obtain ⟨p, rfl, hp⟩ := h c (by simp)
      have := means_relabel hg l fun c hc => h c (by simp [hc])
      simp only [List.filterMap_cons, Cell.get?, Option.map_some, List.map_cons, mean_relabel hg hp]
      simp only [Cell.get?] at this
      rw [this]


theorem prior_relabel {p : PriorSpec K gs} {p' : PriorSpec K fun b => gs (τ b)} (h : PriorRelabel τ s p p') : p' = p.carry (relabel τ s) := by
  cases h <;> rfl

theorem likelihoods_relabel {Ls : List (Idx gs → K)} {Ls' : List ((Idx fun b => gs (τ b)) → K)} (h : List.Forall₂ (fun L L' => ∀ x, L' (relabel τ s x) = L x) Ls Ls') :
    Ls' = Ls.map (carry (relabel τ s)) := by
  induction h with
  | nil => rfl
  | cons h _ ih =>
      rw [List.map_cons, ih]
      congr 1
      funext y
      rw [carry, ← h, Equiv.apply_symm_apply]

theorem num_mirror {o : ℝ} {xs : List (Option ℝ)} (h : (Seg.flat xs).missing = false) {i : ℕ} (hi : i < xs.length) :
    (Seg.flat (xs.map (Option.map fun x => o - x))).num i = o - (Seg.flat xs).num i := by
  have h1 : xs[i].isSome := by
    simp only [Seg.missing, List.any_eq_false] at h
    have := h xs[i] (List.getElem_mem hi)
    simpa [Option.isSome_iff_ne_none] using this
  obtain ⟨x, hx⟩ := Option.isSome_iff_exists.1 h1
  simp [Seg.num, hi, hx]

theorem num_mem {xs : List (Option ℝ)} (h : (Seg.flat xs).missing = false) {i : ℕ} (hi : i < xs.length) : some ((Seg.flat xs).num i) ∈ xs := by
  have h1 : xs[i].isSome := by
    simp only [Seg.missing, List.any_eq_false] at h
    have := h xs[i] (List.getElem_mem hi)
    simpa [Option.isSome_iff_ne_none] using this
  obtain ⟨x, hx⟩ := Option.isSome_iff_exists.1 h1
  have : (Seg.flat xs).num i = x := by simp [Seg.num, hi, hx]
  rw [this, ← hx]
  exact List.getElem_mem hi

theorem missing_mirror {m : OM} {o : ℝ} (s : Seg ℝ) : (mirrorData m o s).missing = s.missing := by
  cases s with
  | flat xs => simp [mirrorData, Seg.missing, List.any_map, Function.comp_def]
  | rows w xs =>
      simp only [mirrorData, Seg.missing, List.any_map, Function.comp_def]
      congr 1
      funext r
      congr 1
      funext j
      split <;> simp

theorem pdf_mirror {m : OM} {o : ℝ} (hm : CanMirror m o) (hg : m ≠ .gaussianMean) {θ θ' : ℕ → ℝ} (hθ : ∀ n < m.nParameters, θ' n = if mirrorParameter m n then o - θ n else θ n)
    (hb : m = .bernoulli → 0 ≤ θ 0 ∧ θ 0 ≤ 1) {xs : List (Option ℝ)} (hl : xs.length = m.segmentLength) (hx : m = .bernoulli → ∀ x, some x ∈ xs → x = 0 ∨ x = 1) (hmiss : (Seg.flat xs).missing = false) :
    m.pdf θ' (Seg.flat (xs.map (Option.map fun x => o - x))) = m.pdf θ (.flat xs) := by
  rcases hm with rfl | rfl | rfl | ⟨rfl, rfl⟩ | ⟨rfl | rfl | rfl, rfl⟩
  · have h0 := hθ 0 (by decide)
    have h1 := hθ 1 (by decide)
    simp only [mirrorParameter, if_true, Bool.false_eq_true, if_false] at h0 h1
    simp only [OM.pdf, num_mirror hmiss (i := 0) (by rw [hl]; decide), h0, h1]
    congr 1
    ring
  · have h0 := hθ 0 (by decide)
    have h1 := hθ 1 (by decide)
    simp only [mirrorParameter, if_true, Bool.false_eq_true, if_false] at h0 h1
    simp only [OM.pdf, num_mirror hmiss (i := 0) (by rw [hl]; decide), h0, h1]
    rw [show o - (Seg.flat xs).num 0 - (o - θ 0) = -((Seg.flat xs).num 0 - θ 0) by ring, abs_neg]
  · exact absurd rfl hg
  · have h0 := hθ 0 (by decide)
    simp only [mirrorParameter, if_true] at h0
    obtain ⟨hb0, hb1⟩ := hb rfl
    have hi : 0 < xs.length := by rw [hl]; decide
    have e1 : clip01 (1 - θ 0) = 1 - θ 0 := by rw [clip01, if_neg (by linarith), if_neg (by linarith)]
    have e2 : clip01 (θ 0) = θ 0 := by rw [clip01, if_neg (by linarith), if_neg (by linarith)]
    simp only [OM.pdf, num_mirror hmiss hi, h0, e1, e2]
    rcases hx rfl _ (num_mem hmiss hi) with h | h <;> simp only [h] <;> simp
  · have h0 := hθ 0 (by decide)
    simp only [mirrorParameter, Bool.false_eq_true, if_false] at h0
    simp only [OM.pdf, num_mirror hmiss (i := 0) (by rw [hl]; decide), h0]
    congr 1
    ring
  · have h0 := hθ 0 (by decide)
    have h1 := hθ 1 (by decide)
    simp only [mirrorParameter, Bool.false_eq_true, if_false] at h0 h1
    simp only [OM.pdf, num_mirror hmiss (i := 0) (by rw [hl]; decide), num_mirror hmiss (i := 1) (by rw [hl]; decide), h0, h1]
    congr 1
    ring
  · have h0 := hθ 0 (by decide)
    have h1 := hθ 1 (by decide)
    simp only [mirrorParameter, Bool.false_eq_true, if_false] at h0 h1
    simp only [OM.pdf, num_mirror hmiss (i := 0) (by rw [hl]; decide), num_mirror hmiss (i := 1) (by rw [hl]; decide), h0, h1]
    congr 1
    ring

theorem likelihood_mirror {d : ℕ} {gs : Fin d → ℕ} {m : OM} {o : ℝ} (hm : CanMirror m o) {grid grid' : (a : Fin d) → Fin (gs a) → ℝ} (hd : d = m.nParameters)
    (hg : ∀ a i, grid' a i = if mirrorParameter m a.val then o - grid a i.rev else grid a i) (hb : m = .bernoulli → ∀ a i, 0 ≤ grid a i ∧ grid a i ≤ 1) (s : Seg ℝ) (hs : MirrorSegment m s) (x : Idx gs) :
    m.likelihood grid' (mirrorData m o s) (relabel (Equiv.refl _) (fun a => mirrorParameter m a.val) x) = m.likelihood grid s x := by
  have hθ : ∀ n < m.nParameters, gridPoint grid' (relabel (Equiv.refl _) (fun a => mirrorParameter m a.val) x) n = if mirrorParameter m n then o - gridPoint grid x n else gridPoint grid x n := by
    intro n hn
    have hn' : n < d := hd ▸ hn
    have e : gridPoint grid' (relabel (Equiv.refl _) (fun a => mirrorParameter m a.val) x) n = grid' ⟨n, hn'⟩ (if mirrorParameter m n then (x ⟨n, hn'⟩).rev else x ⟨n, hn'⟩) := by
      unfold gridPoint
      rw [dif_pos hn']
      exact congrArg _ (relabel_apply (τ := Equiv.refl _) x ⟨n, hn'⟩)
    have e' : gridPoint grid x n = grid ⟨n, hn'⟩ (x ⟨n, hn'⟩) := by unfold gridPoint; rw [dif_pos hn']
    rw [e, hg, e']
    cases mirrorParameter m n
    · rfl
    · simp only [if_true, Fin.rev_rev]
  have hb' : m = .bernoulli → 0 ≤ gridPoint grid x 0 ∧ gridPoint grid x 0 ≤ 1 := by
    intro h
    have : 0 < d := by rw [hd, h]; decide
    simp only [gridPoint, this, dif_pos]
    exact hb h _ _
  have key : ∀ (xs : List (Option ℝ)), m ≠ .gaussianMean → xs.length = m.segmentLength → (m = .bernoulli → ∀ x, some x ∈ xs → x = 0 ∨ x = 1) →
      pdfOrOnes (fun s x => m.pdf (gridPoint grid' x) s) (.flat (xs.map (Option.map fun x => o - x))) (relabel (Equiv.refl _) (fun a => mirrorParameter m a.val) x) =
        pdfOrOnes (fun s x => m.pdf (gridPoint grid x) s) (.flat xs) x := by
    intro xs hgm hl hx
    have hmc := missing_mirror (m := m) (o := o) (.flat xs)
    simp only [mirrorData] at hmc
    unfold pdfOrOnes
    rw [hmc]
    cases hmiss : (Seg.flat xs).missing with
    | true => rfl
    | false =>
        simp only [Bool.false_eq_true, if_false]
        exact pdf_mirror hm hgm hθ hb' hl hx hmiss
  by_cases hgm : m = .gaussianMean
  · subst hgm
    cases s with
    | flat xs => exact absurd rfl hs.1
    | rows w xs =>
        obtain ⟨hl, hw, -⟩ := hs
        obtain rfl := hw rfl
        have hmc := missing_mirror (m := .gaussianMean) (o := o) (.rows 2 xs)
        obtain ⟨r, rfl⟩ : ∃ r, xs = [r] := List.length_eq_one_iff.1 hl
        have hnot : ¬ (OM.gaussianMean.multiplyLikelihoods = true) := by decide
        simp only [OM.likelihood, mirrorData, processedPdf, if_neg hnot, pdfOrOnes] at hmc ⊢
        rw [hmc]
        cases hmiss : (Seg.rows 2 [r]).missing with
        | true => simp
        | false =>
            simp only [Bool.false_eq_true, if_false]
            have h0 := hθ 0 (by decide)
            simp only [mirrorParameter, if_true] at h0
            simp only [Seg.missing, List.any_cons, List.any_nil, Bool.or_false, List.any_eq_false, Bool.not_eq_true, Option.isNone_eq_false_iff] at hmiss
            obtain ⟨y, hy⟩ := Option.isSome_iff_exists.1 (hmiss 0 (List.mem_finRange _))
            obtain ⟨z, hz⟩ := Option.isSome_iff_exists.1 (hmiss 1 (List.mem_finRange _))
            simp only [OM.pdf, mirrorParameter, h0]
            simp only [Seg.num2, List.map_cons, List.map_nil, List.getElem?_cons_zero, Option.bind_some, Nat.zero_lt_two, dif_pos, Nat.one_lt_two]
            have e0 : (⟨0, by decide⟩ : Fin 2) = 0 := rfl
            have e1 : (⟨1, by decide⟩ : Fin 2) = 1 := rfl
            simp only [e0, e1, hy, hz, true_and, zero_ne_one, if_false, if_true, and_false, Option.map_some, Option.getD_some]
            congr 1
            ring
  · have hmul : m.multiplyLikelihoods = true := by cases m <;> first | rfl | exact absurd rfl hgm
    cases s with
    | flat xs => exact key xs hgm hs.2.1 hs.2.2
    | rows w xs =>
        simp only [OM.likelihood, mirrorData, processedPdf, hmul, if_true, hgm, false_and, if_false]
        congr 1
        apply List.map_congr_left
        intro j _
        have hc : column (xs.map fun r j => (r j).map fun x => o - x) j = (column xs j).map (Option.map fun x => o - x) := by
          simp [column]
        rw [hc]
        refine key (column xs j) hgm (by simpa [column] using hs.1) fun hbm y hy => ?_
        obtain ⟨r, hr, hry⟩ := List.mem_map.1 hy
        exact hs.2.2 hbm r hr j y hry

end BL

namespace Props
open BL Spec
variable {K : Type} [Field K] [LinearOrder K] [IsStrictOrderedRing K] {d : ℕ} {gs : Fin d → ℕ}

/-- **C76 (order and orientation of parameters).** A study and the same study with its parameters in another order and some of them counted backwards (`o - θ` instead of `θ`): grid, lattice constants, prior,
likelihoods and transition model (all kinds, with change- and break-points) describe the same situation.  Then both fits succeed or fail together; evidence and local evidences are the same, each posterior distribution has
the same values at the same points, and the mean values are the same, up to `o - θ`. -/
theorem C76_relabel (τ : Fin d ≃ Fin d) (s : Fin d → Bool) (sgn : String → Bool) (o : Fin d → K) (E : Env K gs) (E' : Env K fun b => gs (τ b)) (hE : EnvRelabel τ s E E')
    (hs : ∀ b, s b = sgn (E'.names b)) (grid : (a : Fin d) → Fin (gs a) → K) (grid' : (b : Fin d) → Fin (gs (τ b)) → K)
    (hg : ∀ b i, grid' b i = if s b then o b - grid (τ b) i.rev else grid (τ b) i) (tm tm' : TM K) (hm : Relabelled τ s sgn tm tm')
    (S : FitState K gs) (T : FitState K fun b => gs (τ b)) (hp : PriorRelabel τ s S.prior T.prior)
    (Ls : List (Idx gs → K)) (Ls' : List ((Idx fun b => gs (τ b)) → K)) (hL : List.Forall₂ (fun L L' => ∀ x, L' (relabel τ s x) = L x) Ls Ls') (ts : List K) (fo eo : Bool)
    (A : FitState K gs) (hA : fit E grid tm Ls ts fo eo S = .ok A) :
    ∃ B, fit E' grid' tm' Ls' ts fo eo T = .ok B ∧ B.logEv = A.logEv ∧ B.locals = A.locals ∧
      (eo = false → A.logEv ≠ LogV.ninf → B.posts.length = Ls.length ∧ (∀ (i : ℕ) (p : Idx gs → K), A.posts[i]? = some (.val p) → B.posts[i]? = some (.val fun y => p ((relabel τ s).symm y))) ∧
        ∀ b, B.means b = (A.means (τ b)).map fun v => if s b then o b - v else v) := by
  rw [likelihoods_relabel hL]
  obtain ⟨B, h1, h2, h3, h4, -, h6⟩ := fit_carry (grid' := grid') (relabelled_same hE hs hm) (prior_relabel hp) hA
  refine ⟨B, h1, h2, h3, ?_⟩
  rintro rfl hfin
  obtain ⟨g1, g2⟩ := C07_normalised E grid tm Ls ts fo S A hA hfin
  refine ⟨by rw [h4 rfl, List.length_map, g1], fun i p hi => by rw [h4 rfl, List.getElem?_map, hi]; rfl, fun b => ?_⟩
  have e1 := h6 hfin b
  simp only [Bool.false_eq_true, if_false] at e1
  rw [means_relabel (hg b) _ g2] at e1
  have e2 := fit_means E grid tm Ls ts fo S A hA hfin (τ b)
  rw [← filterMap_val _ _ g2] at e2
  rw [e1, (List.map_injective_iff.2 (Option.some_injective K)) e2]


/-- **C76 (sign convention of the data).** All data are mirrored (`x` to `o - x`; Bernoulli: success and failure exchanged), and with them the grid and the prior of the location parameter (Gaussian, Laplace, GaussianMean; probability for Bernoulli)
and the curves of deterministic changes; models of fluctuations around zero (WhiteNoise, AR1, ScaledAR1) stay the same if only the sign changes (`o = 0`).
Then the evidence and the local evidences are the same, the posterior distributions are mirrored and so are the mean values. -/
theorem C76_sign (m : OM) (o : ℝ) (hm : CanMirror m o) (hd : d = m.nParameters) (sgn : String → Bool) (E E' : Env ℝ gs) (hE : EnvRelabel (Equiv.refl _) (fun a => mirrorParameter m a.val) E E')
    (hs : ∀ a : Fin d, mirrorParameter m a.val = sgn (E'.names a)) (grid grid' : (a : Fin d) → Fin (gs a) → ℝ)
    (hg : ∀ a i, grid' a i = if mirrorParameter m a.val then o - grid a i.rev else grid a i) (hb : m = .bernoulli → ∀ a i, 0 ≤ grid a i ∧ grid a i ≤ 1)
    (tm tm' : TM ℝ) (htm : Relabelled (Equiv.refl (Fin d)) (fun a => mirrorParameter m a.val) sgn tm tm') (S T : FitState ℝ gs) (hp : PriorRelabel (Equiv.refl _) (fun a => mirrorParameter m a.val) S.prior T.prior)
    (segs : List (Seg ℝ)) (hseg : ∀ s ∈ segs, MirrorSegment m s) (ts : List ℝ) (fo eo : Bool) (A : FitState ℝ gs) (hA : fit E grid tm (segs.map (m.likelihood grid)) ts fo eo S = .ok A) :
    ∃ B, fit E' grid' tm' ((segs.map (mirrorData m o)).map (m.likelihood grid')) ts fo eo T = .ok B ∧ B.logEv = A.logEv ∧ B.locals = A.locals ∧
      (eo = false → A.logEv ≠ LogV.ninf → B.posts.length = segs.length ∧
        (∀ (i : ℕ) (p : Idx gs → ℝ), A.posts[i]? = some (.val p) → B.posts[i]? = some (.val fun y => p fun a => if mirrorParameter m a.val then (y a).rev else y a)) ∧
        ∀ a : Fin d, B.means a = (A.means a).map fun v => if mirrorParameter m a.val then o - v else v) := by
  have hL : List.Forall₂ (fun L L' => ∀ x, L' (relabel (Equiv.refl _) (fun a => mirrorParameter m a.val) x) = L x) (segs.map (m.likelihood grid)) ((segs.map (mirrorData m o)).map (m.likelihood grid')) := by
    rw [List.map_map, List.forall₂_map_left_iff, List.forall₂_map_right_iff, List.forall₂_same]
    intro s hsm x
    exact likelihood_mirror hm hd hg hb s (hseg s hsm) x
  obtain ⟨B, h1, h2, h3, h4⟩ := C76_relabel (Equiv.refl _) (fun a => mirrorParameter m a.val) sgn (fun _ => o) E E' hE hs grid grid' hg tm tm' htm S T hp _ _ hL ts fo eo A hA
  refine ⟨B, h1, h2, h3, fun he hfin => ?_⟩
  obtain ⟨g1, g2, g3⟩ := h4 he hfin
  refine ⟨by simpa using g1, fun i p hi => ?_, g3⟩
  refine (g2 i p hi).trans ?_
  congr 2
  funext y
  congr 1
  rw [Equiv.symm_apply_eq]
  funext a
  refine Eq.trans ?_ (relabel_apply (τ := Equiv.refl _) _ a).symm
  show y a = if mirrorParameter m a.val then Fin.rev (if mirrorParameter m a.val then Fin.rev (y a) else y a) else (if mirrorParameter m a.val then Fin.rev (y a) else y a)
  cases mirrorParameter m a.val
  · rfl
  · exact (Fin.rev_rev _).symm


/-- two values of parameter "a" and three of parameter "b" -/
def gsR : Fin 2 → ℕ := fun a => if a = 0 then 2 else 3

/-- lattice constants 1 and 1/2 -/
def envR : Env ℚ gsR := ⟨fun a => if a = 0 then "a" else "b", fun a => if a = 0 then 1 else 1 / 2, .none, Ex.ext gsR⟩

/-- the new first parameter is "b", counted backwards; the second is "a" -/
def envR' : Env ℚ fun b => gsR (Equiv.swap 0 1 b) := ⟨fun b => envR.names (Equiv.swap 0 1 b), fun b => envR.lattice (Equiv.swap 0 1 b), .none, Ex.ext _⟩

/-- walk of "b" combined with RegimeSwitch, change-point at 1, then walk of "a" -/
def tmR : TM ℚ := Ex.ser true 1 (.combined [.leaf (.grw "b") ["sigma"] [.scalar 1] none, Ex.regime]) (.leaf (.grw "a") ["sigma"] [.scalar 1] none)

/-- likelihoods -/
def likR (k : ℚ) : Idx gsR → ℚ := fun x => 1 + k * (x 0).val + (x 1).val

/-- The hypotheses of `C76_relabel` can be met: two parameters exchanged, one of them counted backwards. -/
example : ∃ (A : FitState ℚ gsR) (B : FitState ℚ fun b => gsR (Equiv.swap 0 1 b)),
    fit envR (fun a i => envR.lattice a * i.val) tmR [likR 1, likR 2, likR 3] [0, 1, 2] false false (Ex.S0 .none) = .ok A ∧ A.logEv ≠ LogV.ninf ∧
    fit envR' (fun b i => if b = 0 then 5 - 1 / 2 * (i.rev.val : ℚ) else i.val) tmR ([likR 1, likR 2, likR 3].map fun L y => L ((relabel (Equiv.swap 0 1) (fun b => b = 0)).symm y)) [0, 1, 2] false false (Ex.S0 .none) = .ok B ∧
    B.logEv = A.logEv ∧ B.means 0 = (A.means 1).map fun v => 5 - v := by
  have hE : EnvRelabel (Equiv.swap 0 1) (fun b => b = 0) envR envR' := {
    names := fun _ => rfl
    distinct := by intro a b; fin_cases a <;> fin_cases b <;> simp [envR]
    lattice := fun _ => rfl
    pow10 := rfl
    gaussR := rfl
    gaussW := rfl
    stableKer := rfl
    bivKer := rfl
    gauss_even := (Ex.gaussOK gsR).even
    stable_even := by intro c α k; simp [envR, Ex.ext]
    biv_even := by intro a b ρ k l; simp [envR, Ex.ext]
    biv_swap := by intro a b ρ k l; simp [envR, Ex.ext, and_comm]
    biv_neg := by intro a b ρ k l; simp [envR, Ex.ext]
    shift := by intro b v p x; simp [envR, envR', Ex.ext] }
  obtain ⟨A, hA, hfin⟩ := Ex.ok_of_ev (r := fit envR (fun a i => envR.lattice a * i.val) tmR [likR 1, likR 2, likR 3] [0, 1, 2] false false (Ex.S0 .none)) (by decide +kernel)
  obtain ⟨B, h1, h2, -, h4⟩ := C76_relabel (Equiv.swap 0 1) (fun b => b = 0) (fun n => n = "b") (fun _ => 5) envR envR' hE (by intro b; fin_cases b <;> simp [envR', envR])
    (fun a i => envR.lattice a * i.val) (fun b i => if b = 0 then 5 - 1 / 2 * (i.rev.val : ℚ) else i.val)
    (Fin.forall_fin_two.2 ⟨fun i => by simp [envR], fun i => by simp [envR]⟩) tmR tmR
    (by
      simp only [tmR, Ex.ser, Ex.regime, Relabelled, RelabelledAll, and_true, true_and]
      exact ⟨⟨.grw _ _, .regimeSwitch _⟩, .grw _ _⟩) (Ex.S0 .none) (Ex.S0 .none) .flat _
    ([likR 1, likR 2, likR 3].map fun L y => L ((relabel (Equiv.swap 0 1) (fun b => b = 0)).symm y))
    (by rw [List.forall₂_map_right_iff, List.forall₂_same]; intro L _ x; exact congrArg L (Equiv.symm_apply_apply _ x)) [0, 1, 2] false false A hA
  refine ⟨A, B, hA, hfin, h1, h2, ?_⟩
  have := (h4 rfl hfin).2.2 0
  simpa using this


/-- The hypotheses of `C76_sign` can be met: two measurements and a missing value with the opposite sign; random walk of the mean value. -/
example : ∃ A B : FitState ℝ gsU,
    fit (envU fun _ => 1) gridU (.leaf (.grw "mean") ["sigma"] [.scalar (1 / 2)] none) ([.flat [some 1], .flat [none], .flat [some 3]].map (OM.gaussian.likelihood gridU)) [0, 1, 2] false false
      ⟨.none, [], fun _ => [], 0, []⟩ = .ok A ∧
    fit (envU fun _ => 1) (fun a i => if a = 0 then -gridU a i.rev else gridU a i) (.leaf (.grw "mean") ["sigma"] [.scalar (1 / 2)] none)
      ((([.flat [some 1], .flat [none], .flat [some 3]] : List (Seg ℝ)).map (mirrorData .gaussian 0)).map (OM.gaussian.likelihood fun a i => if a = 0 then -gridU a i.rev else gridU a i)) [0, 1, 2] false false
      ⟨.none, [], fun _ => [], 0, []⟩ = .ok B ∧ B.logEv = A.logEv := by
  have hE : Regular (envU fun _ => 1) := ⟨fun _ => one_pos, ⟨fun _ => ⟨0, by simp [gsU]⟩⟩, realExt_gaussOK _ _⟩
  have hax : (envU fun _ => 1).axis "mean" = .ok 0 := by simp [Env.axis, envU, List.finRange_succ]
  have hL0 : ∀ (y : Option ℝ) x, 0 ≤ OM.gaussian.likelihood gridU (.flat [y]) x := by
    intro y x
    simp only [OM.likelihood, processedPdf, pdfOrOnes]
    split
    · exact zero_le_one
    · exact (Real.exp_pos _).le
  obtain ⟨A, h1, -⟩ := C01_evidence_is_path_sum (envU fun _ => 1) gridU (.leaf (.grw "mean") ["sigma"] [.scalar (1 / 2)] none) hE (by simp [Linear, hax]) (by simp [ResetFree])
    ⟨.none, [], fun _ => [], 0, []⟩ _ .flat (n := 2) (fun i => OM.gaussian.likelihood gridU (.flat [([some 1, none, some 3] : List (Option ℝ)).get i])) (fun i => hL0 _) (fun i => (i.val : ℝ)) false false
    (.inr (.inr (by intro i; simp)))
  have e : fit (envU fun _ => 1) gridU (.leaf (.grw "mean") ["sigma"] [.scalar (1 / 2)] none) ([.flat [some 1], .flat [none], .flat [some 3]].map (OM.gaussian.likelihood gridU)) [0, 1, 2] false false
      ⟨.none, [], fun _ => [], 0, []⟩ = .ok A := by
    rw [← h1]
    congr 1
    simp [List.ofFn_succ]
    norm_num
  obtain ⟨B, g1, g2, -⟩ := C76_sign (d := 2) (gs := gsU) .gaussian 0 (.inl rfl) rfl (fun n => n = "mean") (envU fun _ => 1) (envU fun _ => 1)
    (realExt_relabel (Equiv.refl _) _ 2 (fun a : Fin 2 => if a = 0 then "mean" else "std") (by intro a b; fin_cases a <;> fin_cases b <;> simp) (fun _ => 1) .none .none (fun _ _ p => p) (fun _ _ p => p)
      (fun b v p x => congrArg p (Equiv.symm_apply_apply _ x)))
    (Fin.forall_fin_two.2 ⟨rfl, rfl⟩) gridU (fun a i => if a = 0 then -gridU a i.rev else gridU a i)
    (Fin.forall_fin_two.2 ⟨fun i => by simp [mirrorParameter], fun i => by simp [mirrorParameter]⟩) (by intro h; cases h)
    _ (.leaf (.grw "mean") ["sigma"] [.scalar (1 / 2)] none) (by simp only [Relabelled]; exact .grw _ _) _ ⟨.none, [], fun _ => [], 0, []⟩ .flat [.flat [some 1], .flat [none], .flat [some 3]]
    (by intro s hs; fin_cases hs <;> simp [MirrorSegment, OM.segmentLength]) [0, 1, 2] false false A e
  exact ⟨A, B, e, g1, g2⟩

end Props
