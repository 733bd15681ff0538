import Verif.Props.Ex
import Verif.Lemmas.Linear
import Verif.Lemmas.Evidence

/-! # C17–C19: RegimeSwitch, NotEqual, GaussianRandomWalk as maps of distributions -/

set_option linter.unusedSectionVars false

namespace Props
open BL Spec

variable {K : Type} [Field K] [LinearOrder K] [IsStrictOrderedRing K] {d : ℕ} {gs : Fin d → ℕ}

theorem floorAt_eq_max (l : K) (p : Idx gs → K) : floorAt l p = fun x => max (p x) l := by
  funext x; unfold floorAt
  split
  · rename_i h; rw [max_eq_right h.le]
  · rename_i h; rw [max_eq_left (not_lt.1 h)]

/-- **C17.** For every distribution `p` (non-negative, sum one), floor and lattice: RegimeSwitch predicts a distribution that is the normalised maximum of `p` and the
floor `10^value × cell volume`; it is normalised, preserves the ordering (strictly above the floor), bounds every probability from below, and is the identity if no probability is
below the floor. -/
theorem C17_regimeSwitch (E : Env K gs) (toff t v : K) (names : List String) (pr : Option (Nest (HPrior K)))
    (p : Idx gs → K) (hp0 : ∀ x, 0 ≤ p x) (hp1 : ∑ x, p x = 1) (fl : K) (hfl : fl = E.ext.pow10 v * ∏ a, E.lattice a) (hfl0 : 0 ≤ fl) :
    ∃ q : Idx gs → K, TM.fwd E toff (.leaf .regimeSwitch names [.scalar v] pr) (some p) t = .ok (some q) ∧
      (∀ x, q x = max (p x) fl / ∑ y, max (p y) fl) ∧
      ∑ x, q x = 1 ∧
      (∀ x y, p x ≤ p y → q x ≤ q y) ∧ (∀ x y, p x < p y → fl < p y → q x < q y) ∧
      (∀ x, fl / (1 + (Fintype.card (Idx gs) : K) * fl) ≤ q x) ∧
      ((∀ x, fl ≤ p x) → q = p) := by
  have hZ1 : 1 ≤ ∑ y, max (p y) fl := by rw [← hp1]; exact Finset.sum_le_sum fun x _ => le_max_left _ _
  have hZ : 0 < ∑ y, max (p y) fl := lt_of_lt_of_le one_pos hZ1
  have hZ2 : ∑ y, max (p y) fl ≤ 1 + (Fintype.card (Idx gs) : K) * fl := by
    have : ∑ y : Idx gs, max (p y) fl ≤ ∑ y : Idx gs, (p y + fl) := Finset.sum_le_sum fun x _ => max_le (by linarith) (by linarith [hp0 x])
    rw [Finset.sum_add_distrib, hp1, Finset.sum_const, nsmul_eq_mul] at this
    exact this
  refine ⟨fun x => max (p x) fl / ∑ y, max (p y) fl, ?_, fun x => rfl, ?_, ?_, ?_, ?_, ?_⟩
  · subst hfl
    simp only [TM.fwd, leafFwd, regimeFwd, scalarAt, bind, Except.bind, List.getElem?_cons_zero]
    simp only [floorAt_eq_max, Option.bind_some, BL.normalize]
    rw [if_neg]; · rfl
    exact hZ.ne'
  · rw [← Finset.sum_div]; exact div_self hZ.ne'
  · intro x y h
    exact div_le_div_of_nonneg_right (max_le_max h le_rfl) hZ.le
  · intro x y h h2
    exact div_lt_div_of_pos_right (by rw [max_eq_left h2.le]; exact max_lt h h2) hZ
  · intro x
    rw [div_le_div_iff₀ (by linarith) hZ]
    exact mul_le_mul (le_max_right _ _) hZ2 hZ.le (le_trans hfl0 (le_max_right _ _))
  · intro h
    have : ∀ x, max (p x) fl = p x := fun x => max_eq_left (h x)
    funext x
    simp only [this, hp1, div_one]

example :=
  C17_regimeSwitch (Ex.env Ex.gs2 3) 0 0 1 ["log10pMin"] none (Ex.v2 (1 / 4) (3 / 4)) (by decide +kernel) (by decide +kernel) _ rfl (by decide +kernel)

theorem amax_some (q : Idx gs → K) (m : K) : amax q = some m ↔ (∃ x, q x = m) ∧ ∀ x, q x ≤ m := by
  unfold amax
  constructor
  · intro h
    have h1 := Finset.mem_of_max h
    refine ⟨by simpa using h1, fun x => Finset.le_max_of_eq (Finset.mem_image_of_mem q (Finset.mem_univ x)) h⟩
  · rintro ⟨⟨x, hx⟩, h2⟩
    have hne : (Finset.univ.image q).Nonempty := ⟨q x, Finset.mem_image_of_mem q (Finset.mem_univ x)⟩
    obtain ⟨m', hm'⟩ := Finset.max_of_nonempty hne
    have h1 := Finset.mem_of_max hm'
    obtain ⟨y, -, hy⟩ := Finset.mem_image.1 h1
    have h3 : m' ≤ m := hy ▸ h2 y
    have h4 : m ≤ m' := hx ▸ Finset.le_max_of_eq (Finset.mem_image_of_mem q (Finset.mem_univ x)) hm'
    rw [hm', le_antisymm h3 h4]; rfl

/-- **C18.** For every non-constant array `p` of probabilities with largest value `m`: NotEqual predicts the normalised maximum of `(m - p)/Σ(m - p)` and the floor; the
result is normalised, reverses the ordering (strictly, unless below the floor), and every grid point gets at least the floor share. -/
theorem C18_notEqual (E : Env K gs) (toff t v : K) (names : List String) (pr : Option (Nest (HPrior K)))
    (p : Idx gs → K) (m : K) (hm1 : ∃ x, p x = m) (hm2 : ∀ x, p x ≤ m) (hnc : ∃ x y, p x ≠ p y)
    (fl : K) (hfl : fl = E.ext.pow10 v * ∏ a, E.lattice a) (hfl0 : 0 ≤ fl) :
    ∃ q : Idx gs → K, TM.fwd E toff (.leaf .notEqual names [.scalar v] pr) (some p) t = .ok (some q) ∧
      (∀ x, q x = max ((m - p x) / ∑ y, (m - p y)) fl / ∑ z, max ((m - p z) / ∑ y, (m - p y)) fl) ∧
      ∑ x, q x = 1 ∧
      (∀ x y, p x ≤ p y → q y ≤ q x) ∧ (∀ x y, p x < p y → fl * (∑ z, (m - p z)) < m - p x → q y < q x) ∧
      (∀ x, fl / (1 + (Fintype.card (Idx gs) : K) * fl) ≤ q x) := by
  have hS : 0 < ∑ y, (m - p y) := by
    obtain ⟨x, y, hxy⟩ := hnc
    have : ∃ z, p z ≠ m := by
      by_contra h
      push_neg at h
      exact hxy (by rw [h x, h y])
    obtain ⟨z, hz⟩ := this
    exact Finset.sum_pos' (fun x _ => sub_nonneg.2 (hm2 x)) ⟨z, Finset.mem_univ z, sub_pos.2 (lt_of_le_of_ne (hm2 z) hz)⟩
  set r : Idx gs → K := fun x => (m - p x) / ∑ y, (m - p y) with hr
  have hr0 : ∀ x, 0 ≤ r x := fun x => div_nonneg (sub_nonneg.2 (hm2 x)) hS.le
  have hr1 : ∑ x, r x = 1 := by rw [hr, ← Finset.sum_div]; exact div_self hS.ne'
  have hmono : ∀ x y, p x ≤ p y → r y ≤ r x := fun x y h => div_le_div_of_nonneg_right (by linarith) hS.le
  have hstrict : ∀ x y, p x < p y → r y < r x := fun x y h => div_lt_div_of_pos_right (by linarith) hS
  obtain ⟨q, h1, h2, h3, h4, h5, h6, -⟩ := C17_regimeSwitch E toff t v names pr r hr0 hr1 fl hfl hfl0
  refine ⟨q, ?_, h2, h3, fun x y h => h4 _ _ (hmono x y h), fun x y h hf => h5 _ _ (hstrict x y h) ?_, h6⟩
  · rw [← h1]
    simp only [TM.fwd, leafFwd, regimeFwd, notEqualFwd, scalarAt, bind, Except.bind, List.getElem?_cons_zero, (amax_some p m).2 ⟨hm1, hm2⟩]
    congr 1
    conv_lhs => unfold BL.normalize
    rw [if_neg hS.ne']
    rfl
  · rw [hr]; exact (lt_div_iff₀ hS).2 hf

example :=
  C18_notEqual (Ex.env Ex.gs2 3) 0 0 1 ["log10pMin"] none (Ex.v2 (1 / 4) (3 / 4)) (3 / 4) (by decide +kernel) (by decide +kernel) (by decide +kernel) _ rfl (by decide +kernel)

/-- For a constant array NotEqual divides zero by zero (result `nan`), for every floor. -/
theorem C18_uniform (E : Env K gs) (toff t v : K) (names : List String) (pr : Option (Nest (HPrior K))) (c : K) [Nonempty (Idx gs)] :
    TM.fwd E toff (.leaf .notEqual names [.scalar v] pr) (some fun _ : Idx gs => c) t = .ok none := by
  have : amax (fun _ : Idx gs => c) = some c := (amax_some _ _).2 ⟨⟨Classical.arbitrary _, rfl⟩, fun _ => le_rfl⟩
  simp [TM.fwd, leafFwd, notEqualFwd, scalarAt, bind, Except.bind, this, BL.normalize]

/-- the model object GaussianRandomWalk -/
def walkModel {K : Type} (target : String) (σ : K) : TM K := .leaf (.grw target) ["sigma"] [.scalar σ] none

theorem grw_kernel (E : Env K gs) (hE : Regular E) (target : String) (a : Fin d) (ha : E.axis target = .ok a) (σ : K) (hσ : 0 ≤ σ) :
    ∀ (toff t : K) (p : Idx gs → K), TM.fwd E toff (walkModel target σ) (some p) t =
      .ok (some fun y => ∑ x, p x * kernel E p (walkModel target σ) t x y) := by
  intro toff t p
  simp only [walkModel, TM.fwd, leafFwd, grwFwd, ha, scalarAt, bind, Except.bind, List.getElem?_cons_zero, kernel, val0]
  rw [if_neg (hE.lattice_pos a).ne']
  by_cases hs : 0 < σ / E.lattice a
  · simp only [hs, ↓reduceIte, Option.map_some]
    congr 2; funext y
    exact filterAxis_eq a _ _ (hE.gauss.even _) p y
  · simp only [hs, ↓reduceIte]
    congr 2; funext y; simp [stay]

/-- **C19.** For every grid, lattice, target axis `a`, `σ ≥ 0` and every kernel (symmetric weights with sum one, of any radius, also larger than the grid) there are
transition probabilities `P` such that the Gaussian random walk maps every distribution `p` to `Σ_x p(x) P(x,·)`, where `P` is non-negative with row sums one,
symmetric, changes the coordinate `a` only (the probabilities depend on that coordinate only) and is the identity for `σ = 0`. -/
theorem C19_walk (E : Env K gs) (hE : Regular E) (target : String) (a : Fin d) (ha : E.axis target = .ok a) (σ : K) (hσ : 0 ≤ σ) :
    ∃ P : Idx gs → Idx gs → K,
      (∀ (toff t : K) (p : Idx gs → K), TM.fwd E toff (walkModel target σ) (some p) t = .ok (some fun y => ∑ x, p x * P x y)) ∧
      (∀ x y, 0 ≤ P x y) ∧ (∀ x, ∑ y, P x y = 1) ∧ (∀ x y, P x y = P y x) ∧
      (∀ x y, (∃ b, b ≠ a ∧ x b ≠ y b) → P x y = 0) ∧
      (∀ x y x' y' : Idx gs, (∀ b, b ≠ a → x b = y b) → (∀ b, b ≠ a → x' b = y' b) → x a = x' a → y a = y' a → P x y = P x' y') ∧
      (σ = 0 → ∀ x y, P x y = if x = y then 1 else 0) := by
  have hL : Linear E (walkModel target σ) := by simp [walkModel, Linear, ha]
  have hR : ResetFree (walkModel target σ) := by simp [walkModel, ResetFree]
  refine ⟨kernel E (fun _ => 0) (walkModel target σ) 0, ?_, kernel_nonneg hE.gauss _ (Or.inl hR) 0, kernel_sum hE.gauss _ hL (Or.inl hR) 0,
    kernel_symm hE.gauss 0 _ hL (Or.inl hR) 0, ?_, ?_, ?_⟩
  · intro toff t p
    rw [grw_kernel E hE target a ha σ hσ]
    simp only [walkModel, kernel]
  · rintro x y ⟨b, hb, hne⟩
    simp only [walkModel, kernel, ha, val0]
    by_cases hs : 0 < σ / E.lattice a
    · simp only [hs, ↓reduceIte]; unfold walkAxis; rw [if_neg]; intro h; exact hne (h b hb)
    · simp only [hs, ↓reduceIte]; unfold stay; rw [if_neg]; rintro rfl; exact hne rfl
  · intro x y x' y' h h' h1 h2
    simp only [walkModel, kernel, ha, val0]
    by_cases hs : 0 < σ / E.lattice a
    · simp only [hs, ↓reduceIte]; unfold walkAxis; rw [if_pos h, if_pos h', h1, h2]
    · simp only [hs, ↓reduceIte]; unfold stay
      have e : ∀ (u v : Idx gs), (∀ b, b ≠ a → u b = v b) → (u = v ↔ u a = v a) := fun u v huv =>
        ⟨fun h => h ▸ rfl, fun h => funext fun b => if hb : b = a then by rw [hb]; exact h else huv b hb⟩
      simp only [e x y h, e x' y' h', h1, h2]
  · rintro rfl x y
    simp only [walkModel, kernel, ha, val0, zero_div, lt_irrefl, if_false, stay]

/-- the probability lost or gained is zero, and the uniform distribution is a fixed point -/
theorem C19_total (E : Env K gs) (hE : Regular E) (target : String) (a : Fin d) (ha : E.axis target = .ok a) (σ : K) (hσ : 0 ≤ σ) (toff t : K) (p : Idx gs → K) :
    ∃ q, TM.fwd E toff (walkModel target σ) (some p) t = .ok (some q) ∧ ∑ x, q x = ∑ x, p x ∧
      ((∀ x, 0 ≤ p x) → ∀ x, 0 ≤ q x) ∧ ((∀ x y, p x = p y) → q = p) := by
  obtain ⟨P, h1, h2, h3, h4, -⟩ := C19_walk E hE target a ha σ hσ
  refine ⟨_, h1 toff t p, ?_, fun h y => Finset.sum_nonneg fun x _ => mul_nonneg (h x) (h2 x y), fun h => funext fun y => ?_⟩
  · rw [Finset.sum_comm]
    simp only [← Finset.mul_sum, h3, mul_one]
  · simp only [h _ y, h4 _ y, ← Finset.mul_sum, h3, mul_one]

/-- Any two Gaussian random walks commute (same or different target, any widths). -/
theorem C19_commute (E : Env K gs) (hE : Regular E) (ta tb : String) (a b : Fin d) (ha : E.axis ta = .ok a) (hb : E.axis tb = .ok b)
    (σ τ : K) (hσ : 0 ≤ σ) (hτ : 0 ≤ τ) (toff t : K) (p : Idx gs → K) :
    TM.fwd E toff (.combined [walkModel ta σ, walkModel tb τ]) (some p) t = TM.fwd E toff (.combined [walkModel tb τ, walkModel ta σ]) (some p) t := by
  simp only [TM.fwd, TM.fwdAll, bind, Except.bind]
  rw [grw_kernel E hE ta a ha σ hσ, grw_kernel E hE tb b hb τ hτ]
  simp only
  rw [grw_kernel E hE ta a ha σ hσ, grw_kernel E hE tb b hb τ hτ]
  simp only
  have e : ∀ (m : String) (s : K) (q : Idx gs → K), kernel E q (walkModel m s) t = kernel E (fun _ => 0) (walkModel m s) t := by
    intro m s q; simp only [walkModel, kernel]
  simp only [e]
  have hc := symAlg_comm 0 (kernel_symAlg (ρ := fun _ => 0) hE.gauss (0 : K) (walkModel ta σ) (by simp [walkModel, Linear, ha]) (Or.inr fun _ => rfl) t)
    (kernel_symAlg (ρ := fun _ => 0) hE.gauss (0 : K) (walkModel tb τ) (by simp [walkModel, Linear, hb]) (Or.inr fun _ => rfl) t)
  rw [← toM_comp, ← toM_comp] at hc
  have hc := toM_inj hc
  have := congrArg (fun A => push A p) hc
  simp only [push_comp] at this
  exact congrArg (fun q => Except.ok (some q)) this

/-- a walk whose kernel (radius 1) meets the hypotheses, on three grid points with lattice constant 1/2 -/
example (toff t : ℚ) (p : Idx Ex.gs3 → ℚ) :
    TM.fwd (Ex.env Ex.gs3 (1 / 2)) toff (.combined [walkModel "x" 1, walkModel "x" 2]) (some p) t =
    TM.fwd (Ex.env Ex.gs3 (1 / 2)) toff (.combined [walkModel "x" 2, walkModel "x" 1]) (some p) t :=
  C19_commute _ (Ex.regular3 (by norm_num)) _ _ 0 0 (Ex.axis_x _ _) (Ex.axis_x _ _) 1 2 (by norm_num) (by norm_num) toff t p

end Props
