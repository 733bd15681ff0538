import Verif.Lemmas.AR
import Verif.Model.Jeffreys

/-! # C66: the prior for auto-regressive processes -/

set_option linter.unusedSectionVars false

open MeasureTheory

namespace Spec
open BL

/-- `p` is proportional to the Jeffreys prior of the exact likelihood of `n + 1` observations of an auto-regressive process, times the probability density of the first
observation `d0`.  `noise r s`: the noise amplitude for the parameter values `r` and `s`. -/
def ExactPrior {gs : Fin 2 → ℕ} (n : ℕ) (noise : ℝ → ℝ → ℝ) (d0 : ℝ) (grid : (a : Fin 2) → Fin (gs a) → ℝ) (p : Idx gs → ℝ) : Prop :=
  ∃ c > 0, ∀ i, ∃ I : Matrix (Fin 2) (Fin 2) ℝ, IsFisher IntegralIs (fun θ y => arDensity n (θ 0) (noise (θ 0) (θ 1)) y) 2 (gridPoint grid i) I ∧
    p i = c * (Real.sqrt I.det * arDensity 0 (grid 0 (i 0)) (noise (grid 0 (i 0)) (grid 1 (i 1))) fun _ => d0)

/-- noise amplitude of the models `AR1` and `ScaledAR1` -/
noncomputable def plainNoise (_r s : ℝ) : ℝ := s
noncomputable def scaledNoise (r s : ℝ) : ℝ := s * Real.sqrt (1 - r ^ 2)

end Spec

namespace BL
open Spec

theorem arScore_add (a b a' b' : ℝ) (n : ℕ) (r s : ℝ) (y : Fin (n + 1) → ℝ) : arScore (a + a') (b + b') n r s y = arScore a b n r s y + arScore a' b' n r s y := by
  have h : ∀ F G H : Fin n → ℝ, (∀ i, F i = G i + H i) → ∑ i, F i = ∑ i, G i + ∑ i, H i := by
    intro F G H h
    rw [← Finset.sum_add_distrib]
    exact Finset.sum_congr rfl fun i _ => h i
  unfold arScore
  rw [h (fun i => (a + a') * y i.castSucc * (y i.succ - r * y i.castSucc) / s ^ 2 + (b + b') * (-(1 / s) + (y i.succ - r * y i.castSucc) ^ 2 / s ^ 3))
    (fun i => a * y i.castSucc * (y i.succ - r * y i.castSucc) / s ^ 2 + b * (-(1 / s) + (y i.succ - r * y i.castSucc) ^ 2 / s ^ 3))
    (fun i => a' * y i.castSucc * (y i.succ - r * y i.castSucc) / s ^ 2 + b' * (-(1 / s) + (y i.succ - r * y i.castSucc) ^ 2 / s ^ 3)) fun i => by ring]
  ring

variable {r s : ℝ}

theorem ar_pair (hs : 0 < s) (h1 : -1 < r) (h2 : r < 1) (a b a' b' : ℝ) (n : ℕ) : IntegralIs (fun y => arScore a b n r s y * arScore a' b' n r s y * arDensity n r s y)
    (a * a' * ((1 + r ^ 2) / (1 - r ^ 2) ^ 2 + ((n : ℝ) - 1) / (1 - r ^ 2)) + (a * b' + a' * b) * (2 * r / (s * (1 - r ^ 2))) + b * b' * (2 * ((n : ℝ) + 1) / s ^ 2)) := by
  have h := IntegralIs.add (IntegralIs.const_mul (ar_score_square hs h1 h2 (a + a') (b + b') n) (1 / 2))
    (IntegralIs.add (IntegralIs.const_mul (ar_score_square hs h1 h2 a b n) (-(1 / 2))) (IntegralIs.const_mul (ar_score_square hs h1 h2 a' b' n) (-(1 / 2))))
  refine IntegralIs.congr h (fun y => ?_) ?_
  · rw [arScore_add]; ring
  · ring

/-- Fisher information of an auto-regressive process; `b0`, `b1`: derivatives of the noise amplitude with respect to the parameters -/
theorem ar_fisher {n : ℕ} {noise : ℝ → ℝ → ℝ} {θ : ℕ → ℝ} {b0 b1 : ℝ} (hs : 0 < noise (θ 0) (θ 1)) (h1 : -1 < θ 0) (h2 : θ 0 < 1)
    (d0 : HasDerivAt (fun r => noise r (θ 1)) b0 (θ 0)) (d1 : HasDerivAt (fun s => noise (θ 0) s) b1 (θ 1)) :
    ∃ I : Matrix (Fin 2) (Fin 2) ℝ, IsFisher IntegralIs (fun θ y => arDensity n (θ 0) (noise (θ 0) (θ 1)) y) 2 θ I ∧
      I.det = b1 ^ 2 * (n / (noise (θ 0) (θ 1) ^ 2 * (1 - θ 0 ^ 2)) * (4 * θ 0 ^ 2 / (1 - θ 0 ^ 2) + 2 * ((n : ℝ) + 1))) := by
  have hq := one_sub_sq_pos h1 h2
  have s0 : ∀ y, score (fun θ y => arDensity n (θ 0) (noise (θ 0) (θ 1)) y) θ 0 y = arScore 1 b0 n (θ 0) (noise (θ 0) (θ 1)) y := fun y =>
    score_of_hasDeriv (f := fun θ y => arDensity n (θ 0) (noise (θ 0) (θ 1)) y)
      (by simpa using arDensity_curve (ρ := fun u => u) (σ := fun u => noise u (θ 1)) (hasDerivAt_id' (θ 0)) d0 h1 h2 hs n y) (arDensity_pos hs h1 h2 n y).ne' rfl
  have s1 : ∀ y, score (fun θ y => arDensity n (θ 0) (noise (θ 0) (θ 1)) y) θ 1 y = arScore 0 b1 n (θ 0) (noise (θ 0) (θ 1)) y := fun y =>
    score_of_hasDeriv (f := fun θ y => arDensity n (θ 0) (noise (θ 0) (θ 1)) y)
      (by simpa using arDensity_curve (ρ := fun _ => θ 0) (σ := fun u => noise (θ 0) u) (hasDerivAt_const (θ 1) (θ 0)) d1 h1 h2 hs n y) (arDensity_pos hs h1 h2 n y).ne' rfl
  generalize hσ : noise (θ 0) (θ 1) = σ at *
  set A := (1 + θ 0 ^ 2) / (1 - θ 0 ^ 2) ^ 2 + ((n : ℝ) - 1) / (1 - θ 0 ^ 2) with hA
  set B := 2 * θ 0 / (σ * (1 - θ 0 ^ 2)) with hB
  set C := 2 * ((n : ℝ) + 1) / σ ^ 2 with hC
  refine ⟨!![A + 2 * b0 * B + b0 ^ 2 * C, b1 * B + b0 * b1 * C; b1 * B + b0 * b1 * C, b1 ^ 2 * C], ?_, ?_⟩
  · intro i j
    fin_cases i <;> fin_cases j <;> simp only [Fin.zero_eta, Fin.mk_one, s0, s1, hσ]
    · exact IntegralIs.congr (ar_pair hs h1 h2 1 b0 1 b0 n) (fun _ => rfl) (by change A + 2 * b0 * B + b0 ^ 2 * C = _; rw [hA, hB, hC]; ring)
    · exact IntegralIs.congr (ar_pair hs h1 h2 1 b0 0 b1 n) (fun _ => rfl) (by change b1 * B + b0 * b1 * C = _; rw [hB, hC]; ring)
    · exact IntegralIs.congr (ar_pair hs h1 h2 0 b1 1 b0 n) (fun _ => rfl) (by change b1 * B + b0 * b1 * C = _; rw [hB, hC]; ring)
    · exact IntegralIs.congr (ar_pair hs h1 h2 0 b1 0 b1 n) (fun _ => rfl) (by change b1 ^ 2 * C = _; rw [hC]; ring)
  · rw [Matrix.det_fin_two_of, hA, hB, hC]
    have := hs.ne'
    field_simp
    ring

theorem fisher_unique {n : ℕ} {f : (ℕ → ℝ) → (Fin n → ℝ) → ℝ} {k : ℕ} {θ : ℕ → ℝ} {I J : Matrix (Fin k) (Fin k) ℝ} (hI : IsFisher IntegralIs f k θ I) (hJ : IsFisher IntegralIs f k θ J) :
    I = J := by
  ext i j
  rw [← (hI i j).2, ← (hJ i j).2]

/-- root of the determinant times the density of the first observation, in the form of the code -/
theorem ar_value {n : ℕ} (hs : 0 < s) (h1 : -1 < r) (h2 : r < 1) {b1 : ℝ} (hb : 0 ≤ b1) (d0 : ℝ) :
    Real.sqrt (b1 ^ 2 * (n / (s ^ 2 * (1 - r ^ 2)) * (4 * r ^ 2 / (1 - r ^ 2) + 2 * ((n : ℝ) + 1)))) * arDensity 0 r s (fun _ => d0) =
      Real.sqrt n / Real.sqrt (2 * Real.pi) * (b1 * ar1Value r s d0 n) := by
  have hq := one_sub_sq_pos h1 h2
  have hq' := Real.sqrt_pos.2 hq
  have hsq : Real.sqrt (1 - r ^ 2) ^ 2 = 1 - r ^ 2 := Real.sq_sqrt hq.le
  have hp : Real.sqrt (2 * Real.pi) ≠ 0 := by positivity
  rw [Real.sqrt_mul (by positivity), Real.sqrt_sq hb, Real.sqrt_mul (by positivity), Real.sqrt_div (by positivity), Real.sqrt_mul (by positivity), Real.sqrt_sq hs.le]
  simp only [arDensity, Finset.univ_eq_empty, Finset.prod_empty, mul_one, normalDensity, ar1Value, sub_zero]
  rw [div_pow s, hsq, show -d0 ^ 2 / (2 * (s ^ 2 / (1 - r ^ 2))) = -d0 ^ 2 * (1 - r ^ 2) / (2 * s ^ 2) by field_simp]
  field_simp

theorem ar1Value_pos (hs : 0 < s) (h1 : -1 < r) (h2 : r < 1) (d0 : ℝ) (n : ℕ) : 0 < ar1Value r s d0 n := by
  have hq := one_sub_sq_pos h1 h2
  unfold ar1Value
  positivity

end BL

namespace Props
open BL Spec

variable {gs : Fin 2 → ℕ}

/-- grids of stationary processes: all correlations between -1 and 1, all amplitudes positive -/
def _root_.Spec.Stationary (grid : (a : Fin 2) → Fin (gs a) → ℝ) : Prop := (∀ k, -1 < grid 0 k ∧ grid 0 k < 1) ∧ ∀ k, 0 < grid 1 k

theorem pyIndex_nat {α : Type} {l : List α} {k : ℕ} {x : α} (h : l[k]? = some x) : pyIndex l ((k : ℤ) + 1 - 1) = .ok x := by
  unfold pyIndex
  have h1 : ¬ ((k : ℤ) + 1 - 1 < 0) := by omega
  have h2 : ((k : ℤ) + 1 - 1).toNat = k := by omega
  simp only [h1, if_false, h2, h]

theorem ar1Prior_ok {om : OM} {scale : ℝ → ℝ → ℝ} (hom : ∀ r s, ar1Scale (some om) r s = some (scale r s)) (grid : (a : Fin 2) → Fin (gs a) → ℝ) (hg : Stationary grid)
    (hpos : ∀ i : Idx gs, 0 < scale (grid 0 (i 0)) (grid 1 (i 1))) (hne : Nonempty (Idx gs)) (raw : List (Option ℝ)) (k : ℕ) (d0 : ℝ) (hd : raw[k]? = some (some d0)) :
    ∃ p, ar1Prior (some om) grid raw (k + 1) = .ok (some p) ∧ (∀ i, 0 < p i) ∧ ∑ i, p i = 1 ∧
      ∃ Z > 0, ∀ i, p i = ar1Value (grid 0 (i 0)) (scale (grid 0 (i 0)) (grid 1 (i 1))) d0 raw.length / Z := by
  have hraw : raw.length ≠ 0 := by
    have := (List.getElem?_eq_some_iff.1 hd).1
    omega
  have hr : ¬ ∃ i : Idx gs, 1 ≤ |grid 0 (i 0)| := by
    rintro ⟨i, hi⟩
    exact absurd hi (not_le.2 (abs_lt.2 (hg.1 (i 0))))
  have hs : ¬ ∃ i : Idx gs, (ar1Scale (some om) (grid 0 (i 0)) (grid 1 (i 1))).getD 0 = 0 := by
    rintro ⟨i, hi⟩
    rw [hom] at hi
    exact (hpos i).ne' hi
  set V : Idx gs → ℝ := fun i => ar1Value (grid 0 (i 0)) (scale (grid 0 (i 0)) (grid 1 (i 1))) d0 raw.length with hV
  have hVpos : ∀ i, 0 < V i := fun i => ar1Value_pos (hpos i) (hg.1 _).1 (hg.1 _).2 _ _
  have hZ : 0 < ∑ i, V i := Finset.sum_pos (fun i _ => hVpos i) Finset.univ_nonempty
  refine ⟨fun i => V i / ∑ j, V j, ?_, fun i => div_pos (hVpos i) hZ, ?_, _, hZ, fun i => rfl⟩
  · unfold ar1Prior
    simp only [hom, Option.isNone_some, Bool.false_eq_true, if_false, hr, hraw, pyIndex_nat hd]
    simp only [hom] at hs
    rw [if_neg hs]
    simp only [Option.getD_some, BL.normalize]
    rw [if_neg hZ.ne']
  · rw [← Finset.sum_div, div_self hZ.ne']

theorem gridPoint_zero (grid : (a : Fin 2) → Fin (gs a) → ℝ) (i : Idx gs) : gridPoint grid i 0 = grid 0 (i 0) := rfl
theorem gridPoint_one (grid : (a : Fin 2) → Fin (gs a) → ℝ) (i : Idx gs) : gridPoint grid i 1 = grid 1 (i 1) := rfl

theorem scaled_deriv {r : ℝ} (h1 : -1 < r) (h2 : r < 1) (s : ℝ) : ∃ b, HasDerivAt (fun r => scaledNoise r s) b r := by
  have hq := one_sub_sq_pos h1 h2
  exact ⟨_, ((((hasDerivAt_pow 2 r).const_sub 1).sqrt hq.ne').const_mul s)⟩

/-- the exact prior in closed form -/
theorem exact_plain (n : ℕ) (grid : (a : Fin 2) → Fin (gs a) → ℝ) (hg : Stationary grid) (d0 : ℝ) (i : Idx gs) :
    ∃ I : Matrix (Fin 2) (Fin 2) ℝ, IsFisher IntegralIs (fun θ y => arDensity n (θ 0) (plainNoise (θ 0) (θ 1)) y) 2 (gridPoint grid i) I ∧
      Real.sqrt I.det * arDensity 0 (grid 0 (i 0)) (plainNoise (grid 0 (i 0)) (grid 1 (i 1))) (fun _ => d0) =
        Real.sqrt n / Real.sqrt (2 * Real.pi) * ar1Value (grid 0 (i 0)) (grid 1 (i 1)) d0 n := by
  obtain ⟨I, hI, hdet⟩ := ar_fisher (n := n) (noise := plainNoise) (θ := gridPoint grid i) (b0 := 0) (b1 := 1) (hg.2 _) (hg.1 _).1 (hg.1 _).2
    (hasDerivAt_const _ _) (hasDerivAt_id' _)
  refine ⟨I, hI, ?_⟩
  rw [hdet]
  have := ar_value (n := n) (hg.2 (i 1)) (hg.1 (i 0)).1 (hg.1 (i 0)).2 zero_le_one d0
  rw [one_mul] at this
  exact this

theorem exact_scaled (n : ℕ) (grid : (a : Fin 2) → Fin (gs a) → ℝ) (hg : Stationary grid) (d0 : ℝ) (i : Idx gs) :
    ∃ I : Matrix (Fin 2) (Fin 2) ℝ, IsFisher IntegralIs (fun θ y => arDensity n (θ 0) (scaledNoise (θ 0) (θ 1)) y) 2 (gridPoint grid i) I ∧
      Real.sqrt I.det * arDensity 0 (grid 0 (i 0)) (scaledNoise (grid 0 (i 0)) (grid 1 (i 1))) (fun _ => d0) =
        Real.sqrt n / Real.sqrt (2 * Real.pi) * (Real.sqrt (1 - grid 0 (i 0) ^ 2) * ar1Value (grid 0 (i 0)) (scaledNoise (grid 0 (i 0)) (grid 1 (i 1))) d0 n) := by
  obtain ⟨b, hb⟩ := scaled_deriv (hg.1 (i 0)).1 (hg.1 (i 0)).2 (grid 1 (i 1))
  have hs := scaled_pos (hg.2 (i 1)) (hg.1 (i 0)).1 (hg.1 (i 0)).2
  have hd1 : HasDerivAt (fun s => scaledNoise (grid 0 (i 0)) s) (Real.sqrt (1 - grid 0 (i 0) ^ 2)) (grid 1 (i 1)) :=
    ((hasDerivAt_id' (grid 1 (i 1))).mul_const _).congr_deriv (one_mul _)
  obtain ⟨I, hI, hdet⟩ := ar_fisher (n := n) (noise := scaledNoise) (θ := gridPoint grid i) hs (hg.1 (i 0)).1 (hg.1 (i 0)).2 hb hd1
  refine ⟨I, hI, ?_⟩
  rw [hdet]
  exact ar_value hs (hg.1 (i 0)).1 (hg.1 (i 0)).2 (Real.sqrt_nonneg _) d0

/-- **C66, AR1 (partial).** For every grid of a stationary process, all data and every time step `t = k + 1` with a data point, the array which `computeJeffreysPriorAR1` returns
for the model AR1 is a probability distribution.  With `n` data points it is the Jeffreys prior of the exact likelihood of `n + 1` observations, times the probability
density of the data point of this time step.  Missing: the number of data points is `n`, see `C66_refuted`. -/
theorem C66_partial (grid : (a : Fin 2) → Fin (gs a) → ℝ) (hg : Stationary grid) (hne : Nonempty (Idx gs)) (raw : List (Option ℝ)) (k : ℕ) (d0 : ℝ) (hd : raw[k]? = some (some d0)) :
    ∃ p, ar1Prior (some .ar1) grid raw (k + 1) = .ok (some p) ∧ (∀ i, 0 < p i) ∧ ∑ i, p i = 1 ∧ ExactPrior raw.length plainNoise d0 grid p := by
  obtain ⟨p, hp, h0, h1, Z, hZ, hv⟩ := ar1Prior_ok (om := .ar1) (scale := fun _ s => s) (fun _ _ => rfl) grid hg (fun i => hg.2 _) hne raw k d0 hd
  have hn : 0 < (raw.length : ℝ) := by
    have := (List.getElem?_eq_some_iff.1 hd).1
    exact_mod_cast (by omega : 0 < raw.length)
  refine ⟨p, hp, h0, h1, Real.sqrt (2 * Real.pi) / (Real.sqrt raw.length * Z), by positivity, fun i => ?_⟩
  obtain ⟨I, hI, hval⟩ := exact_plain raw.length grid hg d0 i
  refine ⟨I, hI, ?_⟩
  rw [hval, hv]
  field_simp

/-- **C66, ScaledAR1 (partial).** For the model ScaledAR1 the array is a probability distribution, too.  It has to be multiplied by √(1 - r²) to become the Jeffreys prior
of the exact likelihood of `n + 1` observations in the parameters of the model.  Missing: this factor and the number of observations, see `C66_scaled_refuted`. -/
theorem C66_scaled_partial (grid : (a : Fin 2) → Fin (gs a) → ℝ) (hg : Stationary grid) (hne : Nonempty (Idx gs)) (raw : List (Option ℝ)) (k : ℕ) (d0 : ℝ) (hd : raw[k]? = some (some d0)) :
    ∃ p, ar1Prior (some .scaledAR1) grid raw (k + 1) = .ok (some p) ∧ (∀ i, 0 < p i) ∧ ∑ i, p i = 1 ∧
      ExactPrior raw.length scaledNoise d0 grid fun i => Real.sqrt (1 - grid 0 (i 0) ^ 2) * p i := by
  obtain ⟨p, hp, h0, h1, Z, hZ, hv⟩ := ar1Prior_ok (om := .scaledAR1) (scale := scaledNoise) (fun _ _ => rfl) grid hg
    (fun i => scaled_pos (hg.2 (i 1)) (hg.1 (i 0)).1 (hg.1 (i 0)).2) hne raw k d0 hd
  have hn : 0 < (raw.length : ℝ) := by
    have := (List.getElem?_eq_some_iff.1 hd).1
    exact_mod_cast (by omega : 0 < raw.length)
  refine ⟨p, hp, h0, h1, Real.sqrt (2 * Real.pi) / (Real.sqrt raw.length * Z), by positivity, fun i => ?_⟩
  obtain ⟨I, hI, hval⟩ := exact_scaled raw.length grid hg d0 i
  refine ⟨I, hI, ?_⟩
  simp only [hval, hv]
  field_simp

/-- **C66, errors.** The function raises a `ConfigurationError` for all other models (also if no model is set), for grids with a correlation of absolute value one or
more, and without data. -/
theorem C66_errors (om : Option OM) (grid : (a : Fin 2) → Fin (gs a) → ℝ) (raw : List (Option ℝ)) (t : ℤ)
    (h : (om ≠ some .ar1 ∧ om ≠ some .scaledAR1) ∨ (∃ i : Idx gs, grid 0 (i 0) ≤ -1 ∨ 1 ≤ grid 0 (i 0)) ∨ raw = []) :
    ar1Prior om grid raw t = .error .configuration := by
  unfold ar1Prior
  split
  · rfl
  · rename_i h1
    split
    · rfl
    · rename_i h2
      rcases h with ⟨ha, hb⟩ | ⟨i, hi⟩ | h
      · exfalso
        apply h1
        cases om with
        | none => rfl
        | some m => cases m <;> first | rfl | exact absurd rfl ha | exact absurd rfl hb
      · exfalso
        apply h2
        refine ⟨i, ?_⟩
        rcases hi with hi | hi
        · rw [abs_of_neg (by linarith)]; linarith
        · exact hi.trans (le_abs_self _)
      · subst h
        rfl

/-- **C66, time steps.** Time steps that are not positive count from the end of the data: `t = 0` is the last time step, `t = -1` the one before, and so on. -/
theorem C66_steps (om : Option OM) (grid : (a : Fin 2) → Fin (gs a) → ℝ) (raw : List (Option ℝ)) (k : ℕ) (hk : k < raw.length) :
    ar1Prior om grid raw (-(k : ℤ)) = ar1Prior om grid raw ((raw.length - k : ℕ) : ℤ) := by
  have h : pyIndex raw (-(k : ℤ) - 1) = pyIndex raw (((raw.length - k : ℕ) : ℤ) - 1) := by
    unfold pyIndex
    rw [if_pos (by omega : -(k : ℤ) - 1 < 0), if_neg (by omega : ¬ (((raw.length - k : ℕ) : ℤ) - 1 < 0))]
    have : -(k : ℤ) - 1 + raw.length = ((raw.length - k : ℕ) : ℤ) - 1 := by omega
    simp only [this]
  unfold ar1Prior
  rw [h]

/-! ## Examples and refutations -/

def _root_.Ex.arGs : Fin 2 → ℕ := ![2, 1]

/-- correlations 0 and 1/2, amplitude 1 -/
noncomputable def _root_.Ex.arGrid : (a : Fin 2) → Fin (Ex.arGs a) → ℝ
  | 0, k => if k.val = 0 then 0 else 1 / 2
  | 1, _ => 1

theorem _root_.Ex.arGrid_stationary : Stationary Ex.arGrid := by
  constructor
  · intro k
    by_cases h : k.val = 0 <;> norm_num [Ex.arGrid, h]
  · intro k
    norm_num [Ex.arGrid]

/-- the two points of the grid -/
def _root_.Ex.arPoint (b : Bool) : Idx Ex.arGs
  | 0 => if b then ⟨1, by decide⟩ else ⟨0, by decide⟩
  | 1 => ⟨0, by decide⟩

example : ∃ p, ar1Prior (some .ar1) Ex.arGrid [some 3, none, some (-1)] 1 = .ok (some p) ∧ (∀ i, 0 < p i) ∧ ∑ i, p i = 1 ∧ ExactPrior 3 plainNoise 3 Ex.arGrid p :=
  C66_partial Ex.arGrid Ex.arGrid_stationary ⟨Ex.arPoint true⟩ [some 3, none, some (-1)] 0 3 rfl

/-- An exact prior for first observation zero, at the two points of the grid.  -/
theorem exact_ratio {n : ℕ} {p : Idx Ex.arGs → ℝ} (h : ExactPrior n plainNoise 0 Ex.arGrid p) : p (Ex.arPoint true) ^ 2 * (2 * (n + 1)) = p (Ex.arPoint false) ^ 2 * (4 / 3 + 2 * (n + 1)) := by
  obtain ⟨c, hc, h⟩ := h
  have hv : ∀ i, ∃ v, p i = c * (Real.sqrt n / Real.sqrt (2 * Real.pi) * v) ∧ v = ar1Value (Ex.arGrid 0 (i 0)) (Ex.arGrid 1 (i 1)) 0 n := by
    intro i
    obtain ⟨I, hI, hp⟩ := h i
    obtain ⟨J, hJ, hval⟩ := exact_plain n Ex.arGrid Ex.arGrid_stationary 0 i
    rw [fisher_unique hI hJ, hval] at hp
    exact ⟨_, hp, rfl⟩
  obtain ⟨v, h1, e1⟩ := hv (Ex.arPoint true)
  obtain ⟨w, h2, e2⟩ := hv (Ex.arPoint false)
  have q1 : v ^ 2 = 4 / 3 + 2 * ((n : ℝ) + 1) := by
    have hr : Ex.arGrid 0 (Ex.arPoint true 0) = 1 / 2 := by norm_num [Ex.arGrid, Ex.arPoint]
    have hs : Ex.arGrid 1 (Ex.arPoint true 1) = 1 := rfl
    rw [e1, hr, hs, ar1Value, mul_pow, Real.sq_sqrt (by norm_num; positivity)]
    norm_num
  have q2 : w ^ 2 = 2 * ((n : ℝ) + 1) := by
    have hr : Ex.arGrid 0 (Ex.arPoint false 0) = 0 := by norm_num [Ex.arGrid, Ex.arPoint]
    have hs : Ex.arGrid 1 (Ex.arPoint false 1) = 1 := rfl
    rw [e2, hr, hs, ar1Value, mul_pow, Real.sq_sqrt (by norm_num; positivity)]
    norm_num
  rw [h1, h2, mul_pow, mul_pow, mul_pow, mul_pow, q1, q2]
  ring

theorem exact_scaled_ratio {n : ℕ} {p : Idx Ex.arGs → ℝ} (h : ExactPrior n scaledNoise 0 Ex.arGrid p) :
    p (Ex.arPoint true) ^ 2 * (2 * (n + 1)) = p (Ex.arPoint false) ^ 2 * (4 / 3 * (4 / 3 + 2 * (n + 1))) := by
  obtain ⟨c, hc, h⟩ := h
  have hv : ∀ i, ∃ v, p i = c * (Real.sqrt n / Real.sqrt (2 * Real.pi) * v) ∧
      v = Real.sqrt (1 - Ex.arGrid 0 (i 0) ^ 2) * ar1Value (Ex.arGrid 0 (i 0)) (scaledNoise (Ex.arGrid 0 (i 0)) (Ex.arGrid 1 (i 1))) 0 n := by
    intro i
    obtain ⟨I, hI, hp⟩ := h i
    obtain ⟨J, hJ, hval⟩ := exact_scaled n Ex.arGrid Ex.arGrid_stationary 0 i
    rw [fisher_unique hI hJ, hval] at hp
    exact ⟨_, hp, rfl⟩
  obtain ⟨v, h1, e1⟩ := hv (Ex.arPoint true)
  obtain ⟨w, h2, e2⟩ := hv (Ex.arPoint false)
  have q1 : v ^ 2 = 4 / 3 * (4 / 3 + 2 * ((n : ℝ) + 1)) := by
    have hr : Ex.arGrid 0 (Ex.arPoint true 0) = 1 / 2 := by norm_num [Ex.arGrid, Ex.arPoint]
    have hs : Ex.arGrid 1 (Ex.arPoint true 1) = 1 := rfl
    have hq : Real.sqrt (1 - (1 / 2) ^ 2) ^ 2 = 3 / 4 := by rw [Real.sq_sqrt (by norm_num)]; norm_num
    rw [e1, hr, hs, ar1Value, mul_pow, mul_pow, Real.sq_sqrt (x := 4 * (1 / 2) ^ 2 / (1 - (1 / 2) ^ 2) + 2 * ((n : ℝ) + 1)) (by norm_num; positivity), scaledNoise, one_mul, hq]
    norm_num
    ring
  have q2 : w ^ 2 = 2 * ((n : ℝ) + 1) := by
    have hr : Ex.arGrid 0 (Ex.arPoint false 0) = 0 := by norm_num [Ex.arGrid, Ex.arPoint]
    have hs : Ex.arGrid 1 (Ex.arPoint false 1) = 1 := rfl
    have hq : Real.sqrt (1 - 0 ^ 2) = 1 := by norm_num
    rw [e2, hr, hs, ar1Value, mul_pow, mul_pow, Real.sq_sqrt (x := 4 * 0 ^ 2 / (1 - 0 ^ 2) + 2 * ((n : ℝ) + 1)) (by norm_num; positivity), scaledNoise, one_mul, hq]
    norm_num
  rw [h1, h2, mul_pow, mul_pow, mul_pow, mul_pow, q1, q2]
  ring

/-- **C66 is false for AR1**: two data points, two correlations.  The returned array is not the Jeffreys prior of the exact likelihood of two observations (times the
probability density of the first). -/
theorem C66_refuted : Stationary Ex.arGrid ∧
    ∃ p, ar1Prior (some .ar1) Ex.arGrid [some 0, some 0] 1 = .ok (some p) ∧ ¬ ExactPrior 1 plainNoise 0 Ex.arGrid p := by
  obtain ⟨p, hp, h0, -, h⟩ := C66_partial Ex.arGrid Ex.arGrid_stationary ⟨Ex.arPoint true⟩ [some 0, some 0] 0 0 rfl
  refine ⟨Ex.arGrid_stationary, p, hp, fun h' => ?_⟩
  have e := exact_ratio h
  have e' := exact_ratio h'
  have hpos := pow_pos (h0 (Ex.arPoint false)) 2
  norm_num at e e'
  linarith

/-- **C66 is false for ScaledAR1**: for two data points the returned array is not a Jeffreys prior of the exact likelihood of any number of observations. -/
theorem C66_scaled_refuted : Stationary Ex.arGrid ∧
    ∃ p, ar1Prior (some .scaledAR1) Ex.arGrid [some 0, some 0] 1 = .ok (some p) ∧ ∀ n, ¬ ExactPrior n scaledNoise 0 Ex.arGrid p := by
  obtain ⟨p, hp, h0, -, h⟩ := C66_scaled_partial Ex.arGrid Ex.arGrid_stationary ⟨Ex.arPoint true⟩ [some 0, some 0] 0 0 rfl
  refine ⟨Ex.arGrid_stationary, p, hp, fun n h' => ?_⟩
  have e := exact_scaled_ratio h
  have e' := exact_scaled_ratio h'
  have hpos := pow_pos (h0 (Ex.arPoint false)) 2
  have hr1 : Ex.arGrid 0 (Ex.arPoint true 0) = 1 / 2 := by norm_num [Ex.arGrid, Ex.arPoint]
  have hr0 : Ex.arGrid 0 (Ex.arPoint false 0) = 0 := by norm_num [Ex.arGrid, Ex.arPoint]
  rw [mul_pow, mul_pow, hr1, hr0, Real.sq_sqrt (by norm_num), Real.sq_sqrt (by norm_num)] at e
  norm_num at e
  have e2 : p (Ex.arPoint true) ^ 2 = 176 / 81 * p (Ex.arPoint false) ^ 2 := by linarith
  rw [e2] at e'
  have e3 : p (Ex.arPoint false) ^ 2 * (17 * (n : ℝ) - 1) = 0 := by linarith
  have e4 : (17 * (n : ℝ) - 1) = 0 := (mul_eq_zero.1 e3).resolve_left hpos.ne'
  have e5 : ((17 * n : ℕ) : ℝ) = ((1 : ℕ) : ℝ) := by push_cast; linarith
  have e6 := Nat.cast_injective e5
  omega

end Props
