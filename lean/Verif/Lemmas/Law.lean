import Verif.Spec.Law
import Mathlib.Analysis.Matrix.Order
import Mathlib.Analysis.Matrix.PosDef
import Mathlib.LinearAlgebra.Matrix.ToLinearEquiv
import Mathlib.Analysis.Calculus.FDeriv.Pi
import Mathlib.Analysis.Calculus.FDeriv.Comp
import Mathlib.Analysis.Calculus.Deriv.Comp
import Mathlib.Analysis.Calculus.Deriv.Pi
import Mathlib.Topology.Algebra.InfiniteSum.Basic
import Mathlib.Topology.Algebra.InfiniteSum.Order
import Mathlib.MeasureTheory.Function.Jacobian

/-! # Lemmas: Fisher information -/

set_option linter.unusedSectionVars false

open MeasureTheory Spec

namespace Spec

/-! ## sums and integrals -/

theorem TotalIs.add {b : Bool} {lo hi : EReal} {g g' : ℝ → ℝ} {v v' : ℝ} (h : TotalIs b lo hi g v) (h' : TotalIs b lo hi g' v') : TotalIs b lo hi (fun x => g x + g' x) (v + v') := by
  cases b with
  | true => exact HasSum.add h h'
  | false => exact ⟨h.1.add h'.1, by rw [integral_add h.1 h'.1, h.2, h'.2]⟩

theorem TotalIs.const {b : Bool} {lo hi : EReal} {g : ℝ → ℝ} {v : ℝ} (c : ℝ) (h : TotalIs b lo hi g v) : TotalIs b lo hi (fun x => c * g x) (c * v) := by
  cases b with
  | true => exact HasSum.mul_left c h
  | false => exact ⟨h.1.const_mul c, by rw [integral_const_mul, h.2]⟩

theorem TotalIs.zero {b : Bool} {lo hi : EReal} : TotalIs b lo hi (fun _ => 0) 0 := by
  cases b with
  | true => exact hasSum_zero
  | false => exact ⟨integrableOn_zero, by simp⟩

theorem TotalIs.sum {b : Bool} {lo hi : EReal} {ι : Type} (s : Finset ι) {g : ι → ℝ → ℝ} {v : ι → ℝ} (h : ∀ i ∈ s, TotalIs b lo hi (g i) (v i)) :
    TotalIs b lo hi (fun x => ∑ i ∈ s, g i x) (∑ i ∈ s, v i) := by
  classical
  induction s using Finset.induction_on with
  | empty => simpa using TotalIs.zero
  | insert a s ha ih =>
    simp only [Finset.sum_insert ha]
    exact TotalIs.add (h a (Finset.mem_insert_self a s)) (ih fun i hi => h i (Finset.mem_insert_of_mem hi))

theorem measurable_support (lo hi : EReal) : MeasurableSet {x : ℝ | lo ≤ (x : EReal) ∧ (x : EReal) ≤ hi} :=
  (measurableSet_Ici.preimage measurable_coe_real_ereal).inter (measurableSet_Iic.preimage measurable_coe_real_ereal)

theorem TotalIs.congr {b : Bool} {lo hi : EReal} {g g' : ℝ → ℝ} {v v' : ℝ} (h : TotalIs b lo hi g v) (e : Almost b lo hi fun x => g' x = g x) (e' : v' = v) :
    TotalIs b lo hi g' v' := by
  subst e'
  cases b with
  | true =>
    have h2 : HasSum (fun k : {k : ℤ // lo ≤ ((k : ℝ) : EReal) ∧ ((k : ℝ) : EReal) ≤ hi} => g (k : ℤ)) v' := h
    exact h2.congr_fun fun k => e k.1 k.2.1 k.2.2
  | false =>
    have e2 : g' =ᵐ[volume.restrict {x : ℝ | lo ≤ (x : EReal) ∧ (x : EReal) ≤ hi}] g := by
      rw [Filter.EventuallyEq, ae_restrict_iff' (measurable_support lo hi)]
      exact e.mono fun x hx hx' => hx hx'.1 hx'.2
    exact ⟨h.1.congr e2.symm, by rw [integral_congr_ae e2, h.2]⟩

theorem TotalIs.nonneg {b : Bool} {lo hi : EReal} {g : ℝ → ℝ} {v : ℝ} (h : TotalIs b lo hi g v) (h0 : Almost b lo hi fun x => 0 ≤ g x) : 0 ≤ v := by
  cases b with
  | true =>
    have h2 : HasSum (fun k : {k : ℤ // lo ≤ ((k : ℝ) : EReal) ∧ ((k : ℝ) : EReal) ≤ hi} => g (k : ℤ)) v := h
    have h3 : ∀ k : {k : ℤ // lo ≤ ((k : ℝ) : EReal) ∧ ((k : ℝ) : EReal) ≤ hi}, 0 ≤ g (k : ℤ) := fun k => h0 k.1 k.2.1 k.2.2
    exact hasSum_le h3 hasSum_zero h2
  | false =>
    rw [← h.2]
    refine integral_nonneg_of_ae ?_
    rw [Filter.EventuallyLE, ae_restrict_iff' (measurable_support lo hi)]
    exact h0.mono fun x hx hx' => hx hx'.1 hx'.2

theorem TotalIs.unique {b : Bool} {lo hi : EReal} {g : ℝ → ℝ} {v v' : ℝ} (h : TotalIs b lo hi g v) (h' : TotalIs b lo hi g v') : v = v' := by
  cases b with
  | true => exact HasSum.unique h h'
  | false => rw [← h.2, ← h'.2]

theorem Almost.mono {b : Bool} {lo hi : EReal} {P Q : ℝ → Prop} (h : Almost b lo hi P) (pq : ∀ x, P x → Q x) : Almost b lo hi Q := by
  cases b with
  | true => exact fun k h1 h2 => pq _ (h k h1 h2)
  | false => exact Filter.Eventually.mono h fun x hx h1 h2 => pq _ (hx h1 h2)

theorem Almost.of {b : Bool} {lo hi : EReal} {P : ℝ → Prop} (h : ∀ x, P x) : Almost b lo hi P := by
  cases b with
  | true => exact fun k _ _ => h k
  | false => exact Filter.Eventually.of_forall fun x _ _ => h x

end Spec

namespace BL

variable {k : ℕ}

/-! ## the function in terms of the Fisher information -/

theorem symBind_get {names : Fin k → String} (hn : Function.Injective names) (v : Fin k → ℝ) (i : Fin k) : symBind names v (names i) = v i := by
  have h : ∃ j, names j = names i := ⟨i, rfl⟩
  unfold symBind
  rw [dif_pos h]
  exact congrArg v (hn h.choose_spec)

theorem law_pdf {L : SymLaw k} (hL : ProperNames L) (v : Fin k → ℝ) (x : ℝ) : L.pdf (Function.update (symBind L.free v) "x" x) = L.density x v := by
  unfold SymLaw.pdf
  rw [Function.update_self]
  congr 1
  funext i
  rw [Function.update_of_ne (hL.2 i), symBind_get hL.1]

theorem law_diff {L : SymLaw k} (hL : ProperNames L) (v : Fin k → ℝ) (x : ℝ) (i : Fin k) :
    symDiff (symLn L.pdf) (L.free i) (Function.update (symBind L.free v) "x" x) = scoreAt (fun v x => L.density x v) v i x := by
  have hne := hL.2
  unfold symDiff scoreAt symLn
  rw [Function.update_of_ne (hne i), symBind_get hL.1]
  congr 1
  funext s
  unfold SymLaw.pdf
  congr 1
  rw [Function.update_of_ne (hne i).symm, Function.update_self]
  congr 1
  funext j
  by_cases h : j = i
  · subst h; simp
  · rw [Function.update_of_ne (fun e => h (hL.1 e)), Function.update_of_ne (hne j), symBind_get hL.1, Function.update_of_ne h]

theorem law_info {L : SymLaw k} (hL : ProperNames L) {v : Fin k → ℝ} {I : Matrix (Fin k) (Fin k) ℝ} (hI : FisherInfo L v I) :
    L.info (symBind L.free v) = I := by
  ext i j
  have hv : (fun i => symBind L.free v (L.free i)) = v := funext fun i => symBind_get hL.1 v i
  have h := hI i j
  simp only [SymLaw.info, Matrix.of_apply, SymLaw.total]
  rw [hv]
  simp only [law_pdf hL, law_diff hL]
  cases hb : L.iterable with
  | true =>
    rw [hb] at h
    rw [if_pos rfl, ← HasSum.tsum_eq h]
    exact tsum_congr fun k => by ring
  | false =>
    rw [hb] at h
    rw [if_neg (by simp), ← h.2]
    exact integral_congr_ae (Filter.Eventually.of_forall fun x => by simp only; ring)

theorem fisher_info_unique {L : SymLaw k} {v : Fin k → ℝ} {I J : Matrix (Fin k) (Fin k) ℝ} (hI : FisherInfo L v I) (hJ : FisherInfo L v J) : I = J := by
  ext i j
  exact (hI i j).unique (hJ i j)

/-! ## the Fisher information is positive semidefinite -/

/-- the information about a linear combination of the parameters -/
theorem fisher_quad {L : SymLaw k} {v : Fin k → ℝ} {I : Matrix (Fin k) (Fin k) ℝ} (hI : FisherInfo L v I) (c : Fin k → ℝ) :
    TotalIs L.iterable (L.inf v) (L.sup v) (fun x => (∑ i, c i * scoreAt (fun v x => L.density x v) v i x) ^ 2 * L.density x v) (c ⬝ᵥ (I.mulVec c)) := by
  have h := TotalIs.sum Finset.univ fun i _ => TotalIs.sum Finset.univ fun j _ => (hI i j).const (c i * c j)
  refine h.congr (Almost.of fun x => ?_) ?_
  · rw [sq, Finset.sum_mul_sum, Finset.sum_mul]
    refine Finset.sum_congr rfl fun i _ => ?_
    rw [Finset.sum_mul]
    exact Finset.sum_congr rfl fun j _ => by ring
  · unfold dotProduct Matrix.mulVec dotProduct
    refine Finset.sum_congr rfl fun i _ => ?_
    rw [Finset.mul_sum]
    exact Finset.sum_congr rfl fun j _ => by ring

theorem fisher_symm {L : SymLaw k} {v : Fin k → ℝ} {I : Matrix (Fin k) (Fin k) ℝ} (hI : FisherInfo L v I) : I.IsHermitian := by
  ext i j
  rw [Matrix.conjTranspose_apply]
  exact ((hI j i).congr (Almost.of fun x => by ring) rfl).unique (hI i j)

theorem fisher_posSemidef {L : SymLaw k} {v : Fin k → ℝ} {I : Matrix (Fin k) (Fin k) ℝ} (h0 : ProperDensity L v) (hI : FisherInfo L v I) :
    I.PosSemidef := by
  refine Matrix.PosSemidef.of_dotProduct_mulVec_nonneg (fisher_symm hI) fun c => ?_
  exact (fisher_quad hI c).nonneg (h0.mono fun x hx => mul_nonneg (sq_nonneg _) hx)

theorem fisher_singular {L : SymLaw k} {v : Fin k → ℝ} {I : Matrix (Fin k) (Fin k) ℝ} (h0 : ProperDensity L v) (hI : FisherInfo L v I) :
    I.det = 0 ↔ ∃ c : Fin k → ℝ, c ≠ 0 ∧ TotalIs L.iterable (L.inf v) (L.sup v) (fun x => (∑ i, c i * scoreAt (fun v x => L.density x v) v i x) ^ 2 * L.density x v) 0 := by
  rw [← Matrix.exists_mulVec_eq_zero_iff]
  constructor
  · rintro ⟨c, hc, h⟩
    have := fisher_quad hI c
    rw [h, dotProduct_zero] at this
    exact ⟨c, hc, this⟩
  · rintro ⟨c, hc, h⟩
    refine ⟨c, hc, ((fisher_posSemidef h0 hI).dotProduct_mulVec_zero_iff c).1 ?_⟩
    exact (fisher_quad hI c).unique h

/-! ## other parameters -/

/-- chain rule for the scores -/
theorem score_chain {f g : (Fin k → ℝ) → ℝ → ℝ} {h : (Fin k → ℝ) → Fin k → ℝ} {φ : Fin k → ℝ} {h' : (Fin k → ℝ) →L[ℝ] Fin k → ℝ} (hh : HasFDerivAt h h' φ) {x : ℝ}
    (hd : DifferentiableAt ℝ (fun v => Real.log (f v x)) (h φ)) (hg : ∀ᶠ ψ in nhds φ, g ψ x = f (h ψ) x) (a : Fin k) :
    scoreAt g φ a x = ∑ i, h' (Pi.single a 1) i * scoreAt f (h φ) i x := by
  have hu : ∀ (v : Fin k → ℝ) (i : Fin k), HasDerivAt (fun s => Function.update v i s) (Pi.single i 1) (v i) := fun v i => hasDerivAt_update v i (v i)
  obtain ⟨F, hF⟩ := hd
  have hs : ∀ i, scoreAt f (h φ) i x = F (Pi.single i 1) := fun i => by
    have h1 : HasFDerivAt (fun v => Real.log (f v x)) F (Function.update (h φ) i (h φ i)) := by rw [Function.update_eq_self]; exact hF
    exact (h1.comp_hasDerivAt (h φ i) (hu (h φ) i)).deriv
  have hc : HasFDerivAt (fun ψ => Real.log (g ψ x)) (F.comp h') φ := by
    refine (hF.comp φ hh).congr_of_eventuallyEq (hg.mono fun ψ hψ => ?_)
    simp [Function.comp, hψ]
  have h2 : HasFDerivAt (fun ψ => Real.log (g ψ x)) (F.comp h') (Function.update φ a (φ a)) := by rw [Function.update_eq_self]; exact hc
  have h3 : scoreAt g φ a x = F (h' (Pi.single a 1)) := (h2.comp_hasDerivAt (φ a) (hu φ a)).deriv
  rw [h3]
  have h4 : h' (Pi.single a 1) = ∑ i, h' (Pi.single a 1) i • Pi.single i (1 : ℝ) := by
    funext j
    simp [Finset.sum_apply, Pi.single_apply]
  rw [h4, map_sum]
  refine Finset.sum_congr rfl fun i _ => ?_
  rw [map_smul, smul_eq_mul, hs i, ← h4]

end BL
