import Verif.Lemmas.Law
import Verif.Props.C65

/-! # C87, C88: the Jeffreys prior of distributions given by SymPy -/

set_option linter.unusedSectionVars false

open MeasureTheory Spec BL

namespace Spec

/-! ## distributions -/

/-- normal distribution with parameters mean and standard deviation -/
noncomputable def normalLaw (mean std : String) : SymLaw 2 :=
  ⟨![mean, std], fun x v => normalDensity (v 0) (v 1) x, false, fun _ => ⊥, fun _ => ⊤, fun v => 0 < v 1⟩

/-- normal distribution with mean zero -/
noncomputable def noiseLaw (std : String) : SymLaw 1 :=
  ⟨![std], fun x v => normalDensity 0 (v 0) x, false, fun _ => ⊥, fun _ => ⊤, fun v => 0 < v 0⟩

/-- Laplace distribution -/
noncomputable def laplaceLaw (mean scale : String) : SymLaw 2 :=
  ⟨![mean, scale], fun x v => laplaceDensity (v 0) (v 1) x, false, fun _ => ⊥, fun _ => ⊤, fun v => 0 < v 1⟩

/-- Poisson distribution: all integers from zero -/
noncomputable def poissonLaw (rate : String) : SymLaw 1 :=
  ⟨![rate], fun x v => poissonMass (v 0) ⌊x⌋₊, true, fun _ => 0, fun _ => ⊤, fun v => 0 < v 0⟩

/-- Bernoulli distribution: the integers zero and one -/
noncomputable def bernoulliLaw (p : String) : SymLaw 1 :=
  ⟨![p], fun x v => if x = 1 then v 0 else 1 - v 0, true, fun _ => 0, fun _ => 1, fun v => 0 < v 0 ∧ v 0 < 1⟩

/-- The distribution has a Fisher information for all admissible parameter values, and not all of them have determinant zero. -/
def Informative {k : ℕ} (L : SymLaw k) : Prop :=
  (∀ v, L.admissible v → ProperDensity L v ∧ ∃ I, FisherInfo L v I) ∧ ∃ v I, L.admissible v ∧ FisherInfo L v I ∧ I.det ≠ 0

/-- **Claim C87**: for distributions with different names of the parameters, `getJeffreysPrior` returns the function which assigns the root of the determinant of the Fisher information to the parameter values
(in the order of the free symbols). -/
def C87_claim {k : ℕ} (L : SymLaw k) : Prop :=
  Function.Injective L.free → Informative L →
    ∃ F, getJeffreysPrior L = some F ∧ ∀ v I, L.admissible v → FisherInfo L v I → 0 ≤ I.det ∧ F v = Real.sqrt I.det

end Spec

namespace BL

variable {k : ℕ}

theorem getJeffreys_value {L : SymLaw k} (hL : ProperNames L) {F : (Fin k → ℝ) → ℝ} (h : getJeffreysPrior L = some F) {v : Fin k → ℝ} {I : Matrix (Fin k) (Fin k) ℝ} (hI : FisherInfo L v I) :
    F v = Real.sqrt I.det := by
  unfold getJeffreysPrior at h
  split at h
  · simp at h
  · rw [← Option.some.inj h]
    change Real.sqrt (L.info (symBind L.free v)).det = _
    rw [law_info hL hI]

/-! ## the distributions of C65 -/

theorem fisher_of {L : SymLaw k} {Ω : Type} {T : (Ω → ℝ) → ℝ → Prop} {f : (ℕ → ℝ) → Ω → ℝ} (obs : Ω → ℝ) (hf : ∀ θ x, f θ x = L.density (obs x) fun i => θ i) {θ : ℕ → ℝ} {v : Fin k → ℝ} (hv : ∀ i : Fin k, v i = θ i)
    (hT : ∀ g r, T (fun x => g (obs x)) r → TotalIs L.iterable (L.inf v) (L.sup v) g r) {I : Matrix (Fin k) (Fin k) ℝ} (hI : IsFisher T f k θ I) : FisherInfo L v I := by
  intro i j
  have hv' : (fun i : Fin k => θ i) = v := funext fun i => (hv i).symm
  have hs : ∀ (i : Fin k) x, score f θ i x = scoreAt (fun v x => L.density x v) v i (obs x) := by
    intro i x
    unfold score scoreAt
    rw [hv i]
    congr 1
    funext s
    rw [hf]
    congr 2
    funext j
    by_cases h : j = i
    · subst h; simp
    · rw [Function.update_of_ne (fun e => h (Fin.ext e)), Function.update_of_ne h, hv j]
  refine hT _ _ ?_
  have := hI i j
  simp only [hs, hf, hv'] at this
  exact this

theorem total_univ {g : ℝ → ℝ} {r : ℝ} (h : IntegralIs g r) : TotalIs false ⊥ ⊤ g r := by
  have e : {x : ℝ | (⊥ : EReal) ≤ (x : EReal) ∧ (x : EReal) ≤ ⊤} = Set.univ := by ext x; simp
  unfold TotalIs
  simp only
  rw [e, integrableOn_univ, setIntegral_univ]
  exact h

/-- built-in prior and function of a distribution -/
theorem builtin {L : SymLaw k} (hL : ProperNames L) {Ω : Type} {T : (Ω → ℝ) → ℝ → Prop} {f : (ℕ → ℝ) → Ω → ℝ} (obs : Ω → ℝ) (hf : ∀ θ x, f θ x = L.density (obs x) fun i => θ i)
    (hT : ∀ v g r, T (fun x => g (obs x)) r → TotalIs L.iterable (L.inf v) (L.sup v) g r) {P : (ℕ → ℝ) → Prop} {prior : (ℕ → ℝ) → FV ℝ} (hJ : IsJeffreys T f k P prior)
    (hP : ∀ θ, P θ → L.admissible fun i => θ i) (h1 : ∃ θ, P θ) :
    ∃ F, getJeffreysPrior L = some F ∧ ∃ c > 0, ∀ θ, P θ → prior θ = .fin (c * F fun i => θ i) := by
  obtain ⟨c, hc, h⟩ := hJ
  have hF : ∃ F, getJeffreysPrior L = some F := by
    unfold getJeffreysPrior
    rw [if_neg]
    · exact ⟨_, rfl⟩
    · intro hz
      obtain ⟨θ, hθ⟩ := h1
      obtain ⟨I, hI, hd, -⟩ := h θ hθ
      have := hz _ (hP θ hθ)
      rw [SymLaw.jeffreys, law_info hL (fisher_of obs hf (fun _ => rfl) (hT _) hI), Real.sqrt_eq_zero hd.le] at this
      exact hd.ne' this
  obtain ⟨F, hF⟩ := hF
  refine ⟨F, hF, c, hc, fun θ hθ => ?_⟩
  obtain ⟨I, hI, hd, hp⟩ := h θ hθ
  rw [hp, getJeffreys_value hL hF (fisher_of obs hf (fun _ => rfl) (hT _) hI)]

theorem properNames_one {s : String} (h : s ≠ "x") : ∀ L : SymLaw 1, L.free = ![s] → ProperNames L := by
  intro L hL
  refine ⟨fun i j _ => Subsingleton.elim i j, fun i => ?_⟩
  rw [hL, Subsingleton.elim i 0]; exact h

theorem properNames_two {s t : String} (hs : s ≠ "x") (ht : t ≠ "x") (hst : s ≠ t) : ∀ L : SymLaw 2, L.free = ![s, t] → ProperNames L := by
  intro L hL
  constructor
  · intro i j h
    rw [hL] at h
    fin_cases i <;> fin_cases j <;> simp_all
  · intro i
    rw [hL]
    fin_cases i
    · exact hs
    · exact ht

/-- the integers from zero are the natural numbers -/
theorem total_nat {g : ℝ → ℝ} {r : ℝ} (h : HasSum (fun n : ℕ => g n) r) : TotalIs true 0 ⊤ g r := by
  let e : ℕ ≃ {n : ℤ // (0 : EReal) ≤ ((n : ℝ) : EReal) ∧ ((n : ℝ) : EReal) ≤ ⊤} :=
    { toFun := fun n => ⟨n, by simp, le_top⟩
      invFun := fun n => n.1.toNat
      left_inv := fun n => by simp
      right_inv := fun n => by
        have : (0 : ℤ) ≤ n.1 := by
          have := n.2.1
          rw [EReal.coe_nonneg] at this
          exact_mod_cast this
        exact Subtype.ext (Int.toNat_of_nonneg this) }
  change HasSum _ r
  rw [← e.hasSum_iff]
  refine h.congr_fun fun n => ?_
  simp [e, Function.comp]

/-- the integers zero and one -/
theorem total_two {g : ℝ → ℝ} {r : ℝ} (h : HasSum (fun n : Fin 2 => g (n : ℕ)) r) : TotalIs true 0 1 g r := by
  let e : Fin 2 ≃ {n : ℤ // (0 : EReal) ≤ ((n : ℝ) : EReal) ∧ ((n : ℝ) : EReal) ≤ 1} :=
    { toFun := fun n => ⟨(n : ℕ), by simp, by
        rw [show (1 : EReal) = ((1 : ℝ) : EReal) from rfl, EReal.coe_le_coe_iff]
        have : (n : ℕ) ≤ 1 := by omega
        exact_mod_cast this⟩
      invFun := fun n => ⟨n.1.toNat, by
        have h1 : (n.1 : ℝ) ≤ 1 := EReal.coe_le_coe_iff.1 (by simpa using n.2.2)
        have : n.1 ≤ 1 := by exact_mod_cast h1
        omega⟩
      left_inv := fun n => by simp
      right_inv := fun n => by
        have : (0 : ℤ) ≤ n.1 := by
          have := n.2.1
          rw [EReal.coe_nonneg] at this
          exact_mod_cast this
        exact Subtype.ext (Int.toNat_of_nonneg this) }
  change HasSum _ r
  rw [← e.hasSum_iff]
  refine h.congr_fun fun n => ?_
  simp [e, Function.comp]

end BL

namespace Props

variable {k : ℕ}

/-- **C87, partial.** The claim holds if no parameter has the name "x".  Missing: this name (refuted below). -/
theorem C87_partial (L : SymLaw k) (hx : ∀ i, L.free i ≠ "x") : C87_claim L := by
  intro hn hi
  have hL : ProperNames L := ⟨hn, hx⟩
  have hF : ∃ F, getJeffreysPrior L = some F := by
    unfold getJeffreysPrior
    rw [if_neg]
    · exact ⟨_, rfl⟩
    · intro hz
      obtain ⟨v, I, hv, hI, hd⟩ := hi.2
      have := hz v hv
      rw [SymLaw.jeffreys, law_info hL hI, Real.sqrt_eq_zero (fisher_posSemidef (hi.1 v hv).1 hI).det_nonneg] at this
      exact hd this
  obtain ⟨F, hF⟩ := hF
  exact ⟨F, hF, fun v I hv hI => ⟨(fisher_posSemidef (hi.1 v hv).1 hI).det_nonneg, getJeffreys_value hL hF hI⟩⟩

/-- **C87 (exception).** If the Fisher information exists for all admissible parameter values, the exception is raised exactly if the parameters are redundant everywhere: at all admissible values there is a
direction in which the probabilities of (almost) all observations do not change. -/
theorem C87_exception (L : SymLaw k) (hL : ProperNames L) (h : ∀ v, L.admissible v → ProperDensity L v ∧ ∃ I, FisherInfo L v I) :
    getJeffreysPrior L = none ↔ ∀ v, L.admissible v → ∃ c : Fin k → ℝ, c ≠ 0 ∧
      TotalIs L.iterable (L.inf v) (L.sup v) (fun x => (∑ i, c i * scoreAt (fun v x => L.density x v) v i x) ^ 2 * L.density x v) 0 := by
  have key : getJeffreysPrior L = none ↔ ∀ v, L.admissible v → L.jeffreys (symBind L.free v) = 0 := by
    unfold getJeffreysPrior
    split <;> simp_all
  rw [key]
  refine forall_congr' fun v => imp_congr_right fun hv => ?_
  obtain ⟨h0, I, hI⟩ := h v hv
  rw [← fisher_singular h0 hI, SymLaw.jeffreys, law_info hL hI, Real.sqrt_eq_zero (fisher_posSemidef h0 hI).det_nonneg]

/-- **C87 (order).** The order in which SymPy lists the free symbols only changes the order of the arguments of the returned function. -/
theorem C87_order (L L' : SymLaw k) (hn : Function.Injective L.free) (σ : Equiv.Perm (Fin k)) (hf : ∀ i, L'.free i = L.free (σ i)) (hd : ∀ x v, L'.density x v = L.density x (v ∘ σ.symm))
    (hs : L'.iterable = L.iterable ∧ ∀ v, L'.inf v = L.inf (v ∘ σ.symm) ∧ L'.sup v = L.sup (v ∘ σ.symm) ∧ (L'.admissible v ↔ L.admissible (v ∘ σ.symm))) :
    (getJeffreysPrior L' = none ↔ getJeffreysPrior L = none) ∧
    ∀ F F', getJeffreysPrior L = some F → getJeffreysPrior L' = some F' → ∀ v, F' v = F (v ∘ σ.symm) := by
  have hn' : Function.Injective L'.free := fun i j h => σ.injective (hn (by rw [← hf, ← hf, h]))
  have hv : ∀ (e : String → ℝ), (fun i => e (L'.free i)) ∘ σ.symm = fun i => e (L.free i) := fun e => by
    funext i; simp [hf]
  have hp : L'.pdf = L.pdf := by
    funext e
    unfold SymLaw.pdf
    rw [hd, hv]
  have ht : ∀ g, L'.total g = L.total g := fun g => by
    funext e
    have h1 : L'.inf (fun i => e (L'.free i)) = L.inf fun i => e (L.free i) := by rw [(hs.2 _).1, hv]
    have h2 : L'.sup (fun i => e (L'.free i)) = L.sup fun i => e (L.free i) := by rw [(hs.2 _).2.1, hv]
    unfold SymLaw.total
    simp only
    rw [hs.1, h1, h2]
  have hj : L'.jeffreys = L.jeffreys := by
    funext e
    unfold SymLaw.jeffreys
    have : L'.info e = (L.info e).submatrix σ σ := by
      ext i j
      simp only [SymLaw.info, Matrix.of_apply, Matrix.submatrix_apply, hp, ht, hf]
    rw [this, Matrix.det_submatrix_equiv_self]
  have hb : ∀ v, symBind L'.free v = symBind L.free (v ∘ σ.symm) := by
    intro v
    funext n
    by_cases h : ∃ i, L.free i = n
    · obtain ⟨i, rfl⟩ := h
      rw [symBind_get hn, show L.free i = L'.free (σ.symm i) by simp [hf], symBind_get hn']
      rfl
    · have h' : ¬ ∃ i, L'.free i = n := fun ⟨i, hi⟩ => h ⟨σ i, by rw [← hf, hi]⟩
      unfold symBind
      rw [dif_neg h, dif_neg h']
  have hc : (∀ v, L'.admissible v → L'.jeffreys (symBind L'.free v) = 0) ↔ ∀ v, L.admissible v → L.jeffreys (symBind L.free v) = 0 := by
    simp only [hj, hb, (hs.2 _).2.2]
    refine ⟨fun h v => ?_, fun h v => h _⟩
    have := h (v ∘ σ)
    rwa [Function.comp_assoc, Equiv.self_comp_symm, Function.comp_id] at this
  unfold getJeffreysPrior
  constructor
  · by_cases h : ∀ v, L.admissible v → L.jeffreys (symBind L.free v) = 0
    · rw [if_pos h, if_pos (hc.2 h)]
    · rw [if_neg h, if_neg fun h' => h (hc.1 h')]; simp
  · intro F F' h h' v
    split at h <;> split at h' <;> simp_all
    subst h h'
    rfl

/-- **C87 (normal distribution).** The function is a constant multiple of the default prior of the observation model Gaussian. -/
theorem C87_gaussian (mean std : String) (h1 : mean ≠ "x") (h2 : std ≠ "x") (h3 : mean ≠ std) :
    ∃ F prior, getJeffreysPrior (normalLaw mean std) = some F ∧ OM.gaussian.defaultPrior = some prior ∧ ∃ c > 0, ∀ θ, 0 < θ 1 → prior θ = .fin (c * F fun i => θ i) := by
  obtain ⟨prior, hp, hJ⟩ := C65_gaussian
  obtain ⟨F, hF, h⟩ := builtin (properNames_two h1 h2 h3 (normalLaw mean std) rfl) id (fun θ x => rfl) (fun v g r h => total_univ h) hJ (fun θ h => h) ⟨fun _ => 1, one_pos⟩
  exact ⟨F, prior, hF, hp, h⟩

/-- **C87 (Laplace distribution).** -/
theorem C87_laplace (mean scale : String) (h1 : mean ≠ "x") (h2 : scale ≠ "x") (h3 : mean ≠ scale) :
    ∃ F prior, getJeffreysPrior (laplaceLaw mean scale) = some F ∧ OM.laplace.defaultPrior = some prior ∧ ∃ c > 0, ∀ θ, 0 < θ 1 → prior θ = .fin (c * F fun i => θ i) := by
  obtain ⟨prior, hp, hJ⟩ := C65_laplace
  obtain ⟨F, hF, h⟩ := builtin (properNames_two h1 h2 h3 (laplaceLaw mean scale) rfl) id (fun θ x => rfl) (fun v g r h => total_univ h) hJ (fun θ h => h) ⟨fun _ => 1, one_pos⟩
  exact ⟨F, prior, hF, hp, h⟩

/-- **C87 (white noise).** -/
theorem C87_whiteNoise (std : String) (h1 : std ≠ "x") :
    ∃ F prior, getJeffreysPrior (noiseLaw std) = some F ∧ OM.whiteNoise.defaultPrior = some prior ∧ ∃ c > 0, ∀ θ, 0 < θ 0 → prior θ = .fin (c * F fun i => θ i) := by
  obtain ⟨prior, hp, hJ⟩ := C65_whiteNoise
  obtain ⟨F, hF, h⟩ := builtin (properNames_one h1 (noiseLaw std) rfl) id (fun θ x => rfl) (fun v g r h => total_univ h) hJ (fun θ h => h) ⟨fun _ => 1, one_pos⟩
  exact ⟨F, prior, hF, hp, h⟩

/-- **C87 (Poisson distribution).** -/
theorem C87_poisson (rate : String) (h1 : rate ≠ "x") :
    ∃ F prior, getJeffreysPrior (poissonLaw rate) = some F ∧ OM.poisson.defaultPrior = some prior ∧ ∃ c > 0, ∀ θ, 0 < θ 0 → prior θ = .fin (c * F fun i => θ i) := by
  obtain ⟨prior, hp, hJ⟩ := C65_poisson
  obtain ⟨F, hF, h⟩ := builtin (properNames_one h1 (poissonLaw rate) rfl) (fun n : ℕ => (n : ℝ)) (fun θ n => by simp [poissonLaw]) (fun v g r h => total_nat h) hJ (fun θ h => h) ⟨fun _ => 1, one_pos⟩
  exact ⟨F, prior, hF, hp, h⟩

/-- **C87 (Bernoulli distribution).** -/
theorem C87_bernoulli (p : String) (h1 : p ≠ "x") :
    ∃ F prior, getJeffreysPrior (bernoulliLaw p) = some F ∧ OM.bernoulli.defaultPrior = some prior ∧ ∃ c > 0, ∀ θ, 0 < θ 0 ∧ θ 0 < 1 → prior θ = .fin (c * F fun i => θ i) := by
  obtain ⟨prior, hp, hJ⟩ := C65_bernoulli
  obtain ⟨F, hF, h⟩ := builtin (properNames_one h1 (bernoulliLaw p) rfl) (fun n : Fin 2 => ((n : ℕ) : ℝ)) (fun θ n => by fin_cases n <;> simp [bernoulliLaw, bernoulliMass]) (fun v g r h => total_two h) hJ (fun θ h => h)
    ⟨fun _ => 1 / 2, by norm_num⟩
  exact ⟨F, prior, hF, hp, h⟩

end Props

namespace BL

/-- the distributions of C65 have a Fisher information -/
theorem informative_of {k : ℕ} {L : SymLaw k} {Ω : Type} {T : (Ω → ℝ) → ℝ → Prop} {f : (ℕ → ℝ) → Ω → ℝ} (obs : Ω → ℝ) (hf : ∀ θ x, f θ x = L.density (obs x) fun i => θ i)
    (hT : ∀ v g r, T (fun x => g (obs x)) r → TotalIs L.iterable (L.inf v) (L.sup v) g r) {P : (ℕ → ℝ) → Prop} {prior : (ℕ → ℝ) → FV ℝ} (hJ : IsJeffreys T f k P prior)
    (hP : ∀ v, L.admissible v → ProperDensity L v ∧ ∃ θ, P θ ∧ ∀ i : Fin k, v i = θ i) (h1 : ∃ v, L.admissible v) : Informative L := by
  obtain ⟨c, -, h⟩ := hJ
  have key : ∀ v, L.admissible v → ∃ I, FisherInfo L v I ∧ I.det ≠ 0 := fun v hv => by
    obtain ⟨-, θ, hθ, he⟩ := hP v hv
    obtain ⟨I, hI, hd, -⟩ := h θ hθ
    exact ⟨I, fisher_of obs hf he (hT _) hI, hd.ne'⟩
  refine ⟨fun v hv => ⟨(hP v hv).1, (key v hv).imp fun I h => h.1⟩, ?_⟩
  obtain ⟨v, hv⟩ := h1
  obtain ⟨I, hI, hd⟩ := key v hv
  exact ⟨v, I, hv, hI, hd⟩

/-- parameter values as a sequence -/
def extend (v : Fin k → ℝ) : ℕ → ℝ := fun n => if h : n < k then v ⟨n, h⟩ else 0

theorem extend_get (v : Fin k → ℝ) (i : Fin k) : v i = extend v i := by simp [extend]

end BL

namespace Spec

/-- normal distribution of unit width with unknown mean -/
noncomputable def meanLaw (mean : String) : SymLaw 1 :=
  ⟨![mean], fun x v => normalDensity (v 0) 1 x, false, fun _ => ⊥, fun _ => ⊤, fun _ => True⟩

end Spec

namespace BL

theorem meanLaw_informative (mean : String) : Informative (meanLaw mean) :=
  informative_of id (fun _ _ => rfl) (fun _ _ _ h => total_univ h) (Props.C65_gaussianMean 1 one_pos).2
    (fun v _ => ⟨Almost.of fun _ => (normal_pos one_pos _ _).le, extend v, trivial, extend_get v⟩) ⟨fun _ => 0, trivial⟩

end BL

namespace Props

/-- **C87, refuted**: if the mean of a normal distribution has the name "x", it is taken for the observation, and an exception is raised although the Jeffreys prior exists (it is flat). -/
theorem C87_refuted : ¬ ∀ (k : ℕ) (L : SymLaw k), C87_claim L := by
  intro h
  obtain ⟨F, hF, -⟩ := h 1 (meanLaw "x") (fun i j _ => Subsingleton.elim i j) (meanLaw_informative "x")
  have hp : (meanLaw "x").pdf = fun _ => 1 / Real.sqrt (2 * Real.pi) := by
    funext e
    simp [SymLaw.pdf, meanLaw, normalDensity]
  have hd : ∀ n, symDiff (symLn (meanLaw "x").pdf) n = fun _ => 0 := fun n => by
    funext e
    simp [symDiff, symLn, hp]
  have hi : ∀ e, (meanLaw "x").info e = 0 := fun e => by
    ext i j
    simp [SymLaw.info, hd, SymLaw.total]
  have hj : ∀ e, (meanLaw "x").jeffreys e = 0 := fun e => by
    rw [SymLaw.jeffreys, hi, Matrix.det_zero, Real.sqrt_zero]
  unfold getJeffreysPrior at hF
  rw [if_pos fun v _ => hj _] at hF
  simp at hF

/-! non-vacuity -/

example : ProperNames (meanLaw "mu") ∧ Informative (meanLaw "mu") := ⟨properNames_one (by decide) _ rfl, meanLaw_informative _⟩

example : Informative (noiseLaw "std") :=
  informative_of id (fun _ _ => rfl) (fun _ _ _ h => total_univ h) C65_whiteNoise.choose_spec.2
    (fun v hv => ⟨Almost.of fun _ => (normal_pos hv _ _).le, extend v, (extend_get v 0 ▸ hv : 0 < extend v 0), extend_get v⟩) ⟨fun _ => 1, one_pos⟩

/-- the arguments are in the order of the free symbols: with the symbols in the order standard deviation, mean the function expects the standard deviation first -/
example : ∃ F F', getJeffreysPrior (normalLaw "mean" "std") = some F ∧
    getJeffreysPrior (⟨!["std", "mean"], fun x v => normalDensity (v 1) (v 0) x, false, fun _ => ⊥, fun _ => ⊤, fun v => 0 < v 0⟩ : SymLaw 2) = some F' ∧ ∀ a b, F' ![b, a] = F ![a, b] := by
  obtain ⟨F, prior, hF, -⟩ := C87_gaussian "mean" "std" (by decide) (by decide) (by decide)
  have h := C87_order (normalLaw "mean" "std") ⟨!["std", "mean"], fun x v => normalDensity (v 1) (v 0) x, false, fun _ => ⊥, fun _ => ⊤, fun v => 0 < v 0⟩
    (properNames_two (by decide) (by decide) (by decide) _ rfl).1 (Equiv.swap 0 1) (fun i => by fin_cases i <;> simp [normalLaw]) (fun x v => by simp [normalLaw]) ⟨rfl, fun v => by simp [normalLaw]⟩
  cases hF' : getJeffreysPrior (⟨!["std", "mean"], fun x v => normalDensity (v 1) (v 0) x, false, fun _ => ⊥, fun _ => ⊤, fun v => 0 < v 0⟩ : SymLaw 2) with
  | none => rw [h.1.1 hF'] at hF; simp at hF
  | some F' =>
    refine ⟨F, F', hF, rfl, fun a b => ?_⟩
    rw [h.2 F F' hF hF']
    congr 1
    funext i
    fin_cases i <;> simp

/-- a mean that is the sum of two parameters -/
noncomputable def sumLaw : SymLaw 2 := ⟨!["a", "b"], fun x v => normalDensity (v 0 + v 1) 1 x, false, fun _ => ⊥, fun _ => ⊤, fun _ => True⟩

theorem sumLaw_score (v : Fin 2 → ℝ) (i : Fin 2) (x : ℝ) : scoreAt (fun v x => sumLaw.density x v) v i x = x - (v 0 + v 1) := by
  have hd := normal_deriv_mean (σ := 1) one_pos (v 0 + v 1) x
  have h0 : normalDensity (v 0 + v 1) 1 x ≠ 0 := (normal_pos one_pos _ _).ne'
  unfold scoreAt
  fin_cases i
  · have h1 : HasDerivAt (fun s => s + v 1) 1 (v 0) := (hasDerivAt_id' (v 0)).add_const (v 1)
    have h2 := (HasDerivAt.comp (v 0) (h₂ := fun m => normalDensity m 1 x) hd h1).log h0
    have e : (fun s => Real.log (sumLaw.density x (Function.update v 0 s))) = fun y => Real.log (((fun m => normalDensity m 1 x) ∘ fun s => s + v 1) y) := by
      funext s; simp [sumLaw, Function.comp]
    simp only [Fin.zero_eta, Fin.isValue, e]
    rw [h2.deriv]
    simp only [Function.comp]
    field_simp
  · have h1 : HasDerivAt (fun s => v 0 + s) 1 (v 1) := (hasDerivAt_id' (v 1)).const_add (v 0)
    have h2 := (HasDerivAt.comp (v 1) (h₂ := fun m => normalDensity m 1 x) hd h1).log h0
    have e : (fun s => Real.log (sumLaw.density x (Function.update v 1 s))) = fun y => Real.log (((fun m => normalDensity m 1 x) ∘ fun s => v 0 + s) y) := by
      funext s; simp [sumLaw, Function.comp]
    simp only [Fin.mk_one, Fin.isValue, e]
    rw [h2.deriv]
    simp only [Function.comp]
    field_simp

/-- the exception is raised for redundant parameters -/
example : getJeffreysPrior sumLaw = none := by
  rw [C87_exception sumLaw (properNames_two (by decide) (by decide) (by decide) _ rfl)]
  · intro v _
    refine ⟨![1, -1], fun h => by simpa using congrFun h 0, ?_⟩
    refine TotalIs.congr TotalIs.zero (Almost.of fun x => ?_) rfl
    simp [sumLaw_score]
  · intro v _
    refine ⟨Almost.of fun x => (normal_pos one_pos _ _).le, Matrix.of fun _ _ => 1, fun i j => ?_⟩
    have h := normal_poly (σ := 1) one_pos (v 0 + v 1) 0 0 1 0 0
    refine total_univ (IntegralIs.congr h (fun x => ?_) (by simp))
    simp only [sumLaw_score]
    simp only [sumLaw]
    ring

end Props
