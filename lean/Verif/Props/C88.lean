import Verif.Props.C87

/-! # C88: the Jeffreys prior does not depend on the choice of the parameters -/

set_option linter.unusedSectionVars false

open MeasureTheory Spec BL

namespace Spec

/-- `L'` is the same family of distributions as `L`, in other parameters: the parameter values `ψ` of `L'` (in the set `U`) belong to the same distribution as the parameter values `h ψ` of `L`. -/
def SameFamily {k : ℕ} (L L' : SymLaw k) (U : Set (Fin k → ℝ)) (h : (Fin k → ℝ) → Fin k → ℝ) : Prop :=
  L'.iterable = L.iterable ∧ ∀ ψ ∈ U, L'.inf ψ = L.inf (h ψ) ∧ L'.sup ψ = L.sup (h ψ) ∧ ∀ x, L'.density x ψ = L.density x (h ψ)

/-- The Fisher information exists, and the logarithm of the probability of (almost) every possible observation is differentiable. -/
def SmoothAt {k : ℕ} (L : SymLaw k) (v : Fin k → ℝ) : Prop :=
  (∃ I, FisherInfo L v I) ∧ Almost L.iterable (L.inf v) (L.sup v) fun x => DifferentiableAt ℝ (fun w => Real.log (L.density x w)) v

end Spec

namespace BL

variable {k : ℕ}

/-- Fisher information in other parameters -/
theorem fisher_transform {L L' : SymLaw k} {U : Set (Fin k → ℝ)} (hU : IsOpen U) {h : (Fin k → ℝ) → Fin k → ℝ} (hs : SameFamily L L' U h) {φ : Fin k → ℝ} (hφ : φ ∈ U)
    {h' : (Fin k → ℝ) →L[ℝ] Fin k → ℝ} (hh : HasFDerivAt h h' φ) {I : Matrix (Fin k) (Fin k) ℝ} (hI : FisherInfo L (h φ) I)
    (hd : Almost L.iterable (L.inf (h φ)) (L.sup (h φ)) fun x => DifferentiableAt ℝ (fun w => Real.log (L.density x w)) (h φ)) :
    FisherInfo L' φ ((LinearMap.toMatrix' (h' : (Fin k → ℝ) →ₗ[ℝ] Fin k → ℝ)).transpose * I * LinearMap.toMatrix' (h' : (Fin k → ℝ) →ₗ[ℝ] Fin k → ℝ)) := by
  have hJ : ∀ i a, LinearMap.toMatrix' (h' : (Fin k → ℝ) →ₗ[ℝ] Fin k → ℝ) i a = h' (Pi.single a 1) i := fun i a => by
    rw [LinearMap.toMatrix'_apply]
    simp [Pi.single]
  intro a b
  obtain ⟨e1, e2, e3⟩ := hs.2 φ hφ
  rw [hs.1, e1, e2]
  have hsum := TotalIs.sum Finset.univ fun i _ => TotalIs.sum Finset.univ fun j _ => (hI i j).const (h' (Pi.single a 1) i * h' (Pi.single b 1) j)
  refine hsum.congr (hd.mono fun x hx => ?_) ?_
  · have hn : ∀ᶠ ψ in nhds φ, L'.density x ψ = L.density x (h ψ) := Filter.eventually_of_mem (hU.mem_nhds hφ) fun ψ hψ => (hs.2 ψ hψ).2.2 x
    have hc := fun a => score_chain (f := fun v x => L.density x v) (g := fun v x => L'.density x v) hh hx hn a
    rw [hc a, hc b, e3 x, Finset.sum_mul_sum, Finset.sum_mul]
    refine Finset.sum_congr rfl fun i _ => ?_
    rw [Finset.sum_mul]
    exact Finset.sum_congr rfl fun j _ => by ring
  · rw [Matrix.mul_apply]
    simp only [Matrix.mul_apply, Matrix.transpose_apply, hJ, Finset.sum_mul]
    rw [Finset.sum_comm]
    exact Finset.sum_congr rfl fun i _ => Finset.sum_congr rfl fun j _ => by ring

end BL

namespace Props

variable {k : ℕ}

/-- **C88 (density).** For two descriptions of the same family of distributions with parameters `ψ` and `h ψ`, the returned functions differ by the absolute value of the functional determinant of `h`. -/
theorem C88_density (L L' : SymLaw k) (hL : ProperNames L) (hL' : ProperNames L') (U : Set (Fin k → ℝ)) (hU : IsOpen U) (h : (Fin k → ℝ) → Fin k → ℝ) (hs : SameFamily L L' U h)
    (F F' : (Fin k → ℝ) → ℝ) (hF : getJeffreysPrior L = some F) (hF' : getJeffreysPrior L' = some F')
    (φ : Fin k → ℝ) (hφ : φ ∈ U) (h' : (Fin k → ℝ) →L[ℝ] Fin k → ℝ) (hh : HasFDerivAt h h' φ) (hsm : SmoothAt L (h φ)) : F' φ = |h'.det| * F (h φ) := by
  obtain ⟨⟨I, hI⟩, hd⟩ := hsm
  rw [getJeffreys_value hL hF hI, getJeffreys_value hL' hF' (fisher_transform hU hs hφ hh hI hd), Matrix.det_mul, Matrix.det_mul, Matrix.det_transpose, LinearMap.det_toMatrix']
  change Real.sqrt (h'.det * I.det * h'.det) = _
  rw [show h'.det * I.det * h'.det = h'.det ^ 2 * I.det by ring, Real.sqrt_mul (sq_nonneg _), Real.sqrt_sq_eq_abs]

/-- **C88 (weights).** The prior weight of a set of distributions of the family does not depend on the parameters that are used to describe it. -/
theorem C88_weight (L L' : SymLaw k) (hL : ProperNames L) (hL' : ProperNames L') (U : Set (Fin k → ℝ)) (hU : IsOpen U) (h : (Fin k → ℝ) → Fin k → ℝ) (hs : SameFamily L L' U h)
    (F F' : (Fin k → ℝ) → ℝ) (hF : getJeffreysPrior L = some F) (hF' : getJeffreysPrior L' = some F')
    (hinj : Set.InjOn h U) (hd : ∀ φ ∈ U, DifferentiableAt ℝ h φ) (hsm : ∀ φ ∈ U, SmoothAt L (h φ)) (A : Set (Fin k → ℝ)) (hA : A ⊆ U) (hm : MeasurableSet A) :
    ∫ v in h '' A, F v = ∫ φ in A, F' φ := by
  rw [integral_image_eq_integral_abs_det_fderiv_smul volume hm (fun φ hφ => (hd φ (hA hφ)).hasFDerivAt.hasFDerivWithinAt) (hinj.mono hA)]
  refine setIntegral_congr_fun hm fun φ hφ => ?_
  exact (C88_density L L' hL hL' U hU h hs F F' hF hF' φ (hA hφ) _ (hd φ (hA hφ)).hasFDerivAt (hsm φ (hA hφ))).symm

/-- **C88 (exception).** If moreover every admissible value is reached and the parameters `ψ` determine `h ψ` in a non-degenerate way, the exception is raised for both descriptions or for none. -/
theorem C88_exception (L L' : SymLaw k) (hL : ProperNames L) (hL' : ProperNames L') (U : Set (Fin k → ℝ)) (hU : IsOpen U) (h : (Fin k → ℝ) → Fin k → ℝ) (hs : SameFamily L L' U h)
    (ha : ∀ ψ, L'.admissible ψ ↔ ψ ∈ U) (ha' : ∀ v, L.admissible v ↔ ∃ ψ ∈ U, h ψ = v)
    (hd : ∀ φ ∈ U, ∃ h' : (Fin k → ℝ) →L[ℝ] Fin k → ℝ, HasFDerivAt h h' φ ∧ h'.det ≠ 0) (hsm : ∀ φ ∈ U, SmoothAt L (h φ)) :
    getJeffreysPrior L' = none ↔ getJeffreysPrior L = none := by
  have key : ∀ M : SymLaw k, getJeffreysPrior M = none ↔ ∀ v, M.admissible v → M.jeffreys (symBind M.free v) = 0 := fun M => by
    unfold getJeffreysPrior
    split <;> simp_all
  have hj : ∀ φ ∈ U, (L'.jeffreys (symBind L'.free φ) = 0 ↔ L.jeffreys (symBind L.free (h φ)) = 0) := by
    intro φ hφ
    obtain ⟨⟨I, hI⟩, hdf⟩ := hsm φ hφ
    obtain ⟨h', hh, hne⟩ := hd φ hφ
    rw [SymLaw.jeffreys, SymLaw.jeffreys, law_info hL hI, law_info hL' (fisher_transform hU hs hφ hh hI hdf), Matrix.det_mul, Matrix.det_mul, Matrix.det_transpose, LinearMap.det_toMatrix']
    change Real.sqrt (h'.det * I.det * h'.det) = 0 ↔ _
    rw [show h'.det * I.det * h'.det = h'.det ^ 2 * I.det by ring, Real.sqrt_mul (sq_nonneg _), Real.sqrt_sq_eq_abs, mul_eq_zero, abs_eq_zero]
    simp [hne]
  rw [key, key]
  constructor
  · intro H v hv
    obtain ⟨ψ, hψ, rfl⟩ := (ha' v).1 hv
    exact (hj ψ hψ).1 (H ψ ((ha ψ).2 hψ))
  · intro H φ hφ
    have := (ha φ).1 hφ
    exact (hj φ this).2 (H _ ((ha' _).2 ⟨φ, this, rfl⟩))

/-! non-vacuity: the standard deviation and its logarithm -/

/-- normal distribution with mean zero, described by the logarithm of its standard deviation -/
noncomputable def logNoise : SymLaw 1 := ⟨!["s"], fun x v => normalDensity 0 (Real.exp (v 0)) x, false, fun _ => ⊥, fun _ => ⊤, fun _ => True⟩

theorem logNoise_family : SameFamily (noiseLaw "std") logNoise Set.univ fun φ _ => Real.exp (φ 0) := ⟨rfl, fun _ _ => ⟨rfl, rfl, fun _ => rfl⟩⟩

theorem logNoise_deriv (φ : Fin 1 → ℝ) : HasFDerivAt (fun (φ : Fin 1 → ℝ) (_ : Fin 1) => Real.exp (φ 0)) (ContinuousLinearMap.pi fun _ => Real.exp (φ 0) • (ContinuousLinearMap.proj 0 : (Fin 1 → ℝ) →L[ℝ] ℝ)) φ :=
  hasFDerivAt_pi.2 fun _ => (hasFDerivAt_apply (𝕜 := ℝ) (0 : Fin 1) φ).exp

theorem noise_smooth (v : Fin 1 → ℝ) (hv : 0 < v 0) : SmoothAt (noiseLaw "std") v := by
  obtain ⟨prior, -, c, -, h⟩ := C65_whiteNoise
  obtain ⟨I, hI, -, -⟩ := h (extend v) (by have := hv; rw [extend_get v 0] at this; exact this)
  refine ⟨⟨I, fisher_of (L := noiseLaw "std") id (fun _ _ => rfl) (extend_get v) (fun g r h => total_univ h) hI⟩, Almost.of fun x => ?_⟩
  have h1 : DifferentiableAt ℝ (fun s => normalDensity 0 s x) (v 0) := (normal_deriv_scale hv 0 x).differentiableAt
  have h2 : DifferentiableAt ℝ (fun w : Fin 1 → ℝ => w 0) v := differentiableAt_apply 0 v
  have h3 : DifferentiableAt ℝ (fun w : Fin 1 → ℝ => normalDensity 0 (w 0) x) v := h1.comp (f := fun w : Fin 1 → ℝ => w 0) v h2
  exact h3.log (normal_pos hv 0 x).ne'

/-- in terms of the logarithm of the standard deviation the prior is the one of the standard deviation, times the standard deviation -/
example (F F' : (Fin 1 → ℝ) → ℝ) (hF : getJeffreysPrior (noiseLaw "std") = some F) (hF' : getJeffreysPrior logNoise = some F') (φ : Fin 1 → ℝ) :
    F' φ = Real.exp (φ 0) * F fun _ => Real.exp (φ 0) := by
  have := C88_density (noiseLaw "std") logNoise (properNames_one (by decide) _ rfl) (properNames_one (by decide) _ rfl) Set.univ isOpen_univ _ logNoise_family F F' hF hF' φ trivial _ (logNoise_deriv φ)
    (noise_smooth _ (Real.exp_pos _))
  rw [this]
  congr 1
  rw [ContinuousLinearMap.det, ← LinearMap.det_toMatrix', Matrix.det_fin_one, LinearMap.toMatrix'_apply]
  simp

/-- the exception is not raised for the second description, because it is not raised for the first -/
example : ∃ F', getJeffreysPrior logNoise = some F' := by
  obtain ⟨F, -, hF, -⟩ := C87_whiteNoise "std" (by decide)
  have h := C88_exception (noiseLaw "std") logNoise (properNames_one (by decide) _ rfl) (properNames_one (by decide) _ rfl) Set.univ isOpen_univ _ logNoise_family (fun _ => by simp [logNoise])
    (fun v => ⟨fun hv => ⟨fun _ => Real.log (v 0), trivial, funext fun i => by rw [Subsingleton.elim i 0]; exact Real.exp_log hv⟩, fun ⟨ψ, _, e⟩ => by rw [← e]; exact Real.exp_pos _⟩)
    (fun φ _ => ⟨_, logNoise_deriv φ, by
      rw [ContinuousLinearMap.det, ← LinearMap.det_toMatrix', Matrix.det_fin_one, LinearMap.toMatrix'_apply]
      simp⟩) (fun φ _ => noise_smooth _ (Real.exp_pos _))
  cases hF' : getJeffreysPrior logNoise with
  | some F' => exact ⟨F', rfl⟩
  | none => rw [h.1 hF'] at hF; simp at hF

end Props
