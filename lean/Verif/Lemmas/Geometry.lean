import Verif.Spec.Relabel
import Verif.Lemmas.Relabel
import Verif.Lemmas.Units
import Mathlib.Algebra.BigOperators.Intervals
import Mathlib.Tactic.FinCases

/-! # Other order and orientation of the parameters: the transition models -/

set_option linter.unusedSectionVars false

namespace BL
open Spec

variable {K : Type} [Field K] [LinearOrder K] [IsStrictOrderedRing K] {d : ℕ} {gs : Fin d → ℕ} {τ : Fin d ≃ Fin d} {s : Fin d → Bool}

theorem relabel_apply (x : Idx gs) (b : Fin d) : relabel τ s x b = if s b then (x (τ b)).rev else x (τ b) := by
  simp only [relabel, Equiv.trans_apply, Equiv.piCongrRight_apply, Pi.map_apply, Equiv.piCongrLeft'_apply, Equiv.symm_symm]
  split <;> rfl

theorem relabel_update (x : Idx gs) (b : Fin d) (v : Fin (gs (τ b))) :
    relabel τ s (Function.update x (τ b) v) = Function.update (relabel τ s x) b (if s b then v.rev else v) := by
  funext c
  by_cases h : c = b
  · subst h
    rw [relabel_apply]
    simp
  · rw [Function.update_of_ne h, relabel_apply, relabel_apply, Function.update_of_ne (fun h' => h (τ.injective h'))]

theorem reflIdx_val (n : ℕ) (i : Fin n) (k : ℤ) :
    ((reflIdx n i k : ℕ) : ℤ) = if ((i : ℕ) + k) % (2 * n) < n then ((i : ℕ) + k) % (2 * n) else 2 * n - 1 - ((i : ℕ) + k) % (2 * n) := by
  have hn := i.pos
  have h1 : 0 ≤ (((i : ℕ) : ℤ) + k) % (2 * n) := Int.emod_nonneg _ (by omega)
  have h2 : (((i : ℕ) : ℤ) + k) % (2 * n) < 2 * n := Int.emod_lt_of_pos _ (by omega)
  unfold reflIdx
  by_cases h : (((i : ℕ) : ℤ) + k) % (2 * n) < n
  · simp only [h, dif_pos, if_true]
    omega
  · simp only [h, dif_neg, not_false_eq_true, if_false]
    omega

theorem reflIdx_rev (n : ℕ) (i : Fin n) (k : ℤ) : reflIdx n i.rev (-k) = (reflIdx n i k).rev := by
  apply Fin.ext
  have hn := i.pos
  have hi := i.isLt
  have hr := (reflIdx n i k).isLt
  have hv := reflIdx_val n i k
  have hw := reflIdx_val n i.rev (-k)
  have e : (((i.rev : Fin n) : ℕ) : ℤ) + -k = (n - 1) - ((i : ℕ) + k) := by
    rw [Fin.val_rev]
    omega
  rw [e] at hw
  rw [Fin.val_rev]
  generalize ((i : ℕ) : ℤ) + k = z at *
  have h1 : 0 ≤ z % (2 * n) := Int.emod_nonneg _ (by omega)
  have h2 : z % (2 * n) < 2 * n := Int.emod_lt_of_pos _ (by omega)
  have h3 : z = 2 * n * (z / (2 * n)) + z % (2 * n) := (Int.mul_ediv_add_emod z (2 * n)).symm
  have h4 : ((n : ℤ) - 1 - z) % (2 * n) = if z % (2 * n) < n then (n - 1 - z % (2 * n)) else (3 * n - 1 - z % (2 * n)) := by
    split
    · have e1 : (n : ℤ) - 1 - z = (n - 1 - z % (2 * n)) + 2 * n * (-(z / (2 * n))) := by linarith
      rw [e1, Int.add_mul_emod_self_left, Int.emod_eq_of_lt (by omega) (by omega)]
    · have e1 : (n : ℤ) - 1 - z = (3 * n - 1 - z % (2 * n)) + 2 * n * (-(z / (2 * n)) - 1) := by linarith
      rw [e1, Int.add_mul_emod_self_left, Int.emod_eq_of_lt (by omega) (by omega)]
  rw [h4] at hw
  by_cases hlt : z % (2 * n) < n
  · have h5 : (n : ℤ) - 1 - z % (2 * n) < n := by omega
    simp only [hlt, if_true, h5] at hv hw
    omega
  · have h5 : ¬ (3 * (n : ℤ) - 1 - z % (2 * n) < n) := by omega
    simp only [hlt, if_false, h5] at hv hw
    omega

theorem filterAxis_carry {w : ℤ → K} (hw : ∀ k, w (-k) = w k) (r : ℕ) (b : Fin d) (p : Idx gs → K) :
    filterAxis r w b (carry (relabel τ s) p) = carry (relabel τ s) (filterAxis r w (τ b) p) := by
  funext y
  obtain ⟨x, rfl⟩ := (relabel τ s).surjective y
  simp only [filterAxis, carry, Equiv.symm_apply_apply]
  by_cases hs : s b = true
  · refine Finset.sum_bij' (fun k _ => -k) (fun k _ => -k) ?_ ?_ ?_ ?_ ?_
    · intro k hk; simp only [Finset.mem_Icc] at hk ⊢; omega
    · intro k hk; simp only [Finset.mem_Icc] at hk ⊢; omega
    · intro k _; simp
    · intro k _; simp
    · intro k _
      rw [neg_neg, hw k]
      congr 2
      rw [Equiv.symm_apply_eq, relabel_update, relabel_apply]
      simp only [hs, if_true]
      congr 1
      have := reflIdx_rev (gs (τ b)) (x (τ b)) (-k)
      rw [neg_neg] at this
      exact this
  · refine Finset.sum_congr rfl fun k _ => ?_
    congr 2
    rw [Equiv.symm_apply_eq, relabel_update, relabel_apply]
    simp only [hs, if_false, Bool.false_eq_true]

theorem relabel_diff (x x' : Idx gs) (b : Fin d) : (((relabel τ s x b : Fin (gs (τ b))) : ℕ) : ℤ) - ((relabel τ s x' b : Fin (gs (τ b))) : ℕ) =
    if s b then -(((x (τ b) : ℕ) : ℤ) - (x' (τ b) : ℕ)) else ((x (τ b) : ℕ) : ℤ) - (x' (τ b) : ℕ) := by
  rw [relabel_apply, relabel_apply]
  split
  · have h1 := (x (τ b)).isLt
    have h2 := (x' (τ b)).isLt
    rw [Fin.val_rev, Fin.val_rev]
    show ((gs (τ b) - ((x (τ b) : ℕ) + 1) : ℕ) : ℤ) - ((gs (τ b) - ((x' (τ b) : ℕ) + 1) : ℕ) : ℤ) = _
    omega
  · rfl

theorem convSame_carry {ker ker' : (Fin d → ℤ) → K} (h : ∀ v : Fin d → ℤ, ker' (fun b => if s b then -v (τ b) else v (τ b)) = ker v) (p : Idx gs → K) :
    convSame ker' (carry (relabel τ s) p) = carry (relabel τ s) (convSame ker p) := by
  funext y
  obtain ⟨x, rfl⟩ := (relabel τ s).surjective y
  simp only [convSame, carry, Equiv.symm_apply_apply]
  rw [← Equiv.sum_comp (relabel τ s)]
  refine Finset.sum_congr rfl fun x' _ => ?_
  rw [Equiv.symm_apply_apply]
  congr 1
  rw [← h]
  congr 1
  funext b
  exact relabel_diff x x' b

theorem amax_carry {gs' : Fin d → ℕ} (e : Idx gs ≃ Idx gs') (p : Idx gs → K) : amax (carry e p) = amax p := by
  unfold amax
  congr 1
  ext v
  simp only [Finset.mem_image, Finset.mem_univ, true_and, carry]
  constructor
  · rintro ⟨y, rfl⟩; exact ⟨_, rfl⟩
  · rintro ⟨x, rfl⟩; exact ⟨e x, by simp⟩

theorem resetArr_carry {gs' : Fin d → ℕ} {e : Idx gs ≃ Idx gs'} (E : Env K gs) (E' : Env K gs') (pr : PriorSpec K gs) :
    ({ E' with prior := pr.carry e } : Env K gs').resetArr = ({ E with prior := pr } : Env K gs).resetArr.map (carry e) := by
  cases pr with
  | none => exact normalize_const (e := e)
  | array a => exact bind_normalize_carry a
  | badArray => exact normalize_const (e := e)
  | func v => exact normalize_carry v
  | funcConst c =>
      simp only [Env.resetArr, PriorSpec.carry]
      split <;> rfl
  | rvs n ok v => exact normalize_const (e := e)

variable {E : Env K gs} {E' : Env K fun b => gs (τ b)}

theorem relabel_cell (h : EnvRelabel τ s E E') : E'.cell = E.cell := by
  unfold Env.cell
  rw [← Equiv.prod_comp τ (fun a => E.lattice a)]
  exact Finset.prod_congr rfl fun b _ => h.lattice b

theorem axis_distinct {E : Env K gs} (hd : Function.Injective E.names) (a : Fin d) : E.axis (E.names a) = .ok a := by
  unfold Env.axis
  cases h : (List.finRange d).find? fun b => decide (E.names b = E.names a) with
  | none =>
      have := List.find?_eq_none.1 h a (List.mem_finRange a)
      simp at this
  | some b =>
      have := List.find?_some h
      simp only [decide_eq_true_eq] at this
      rw [hd this]

theorem axis_error {E : Env K gs} {target : String} {x : PyErr} (h : E.axis target = .error x) : x = .valueError ∧ ∀ a, E.names a ≠ target := by
  unfold Env.axis at h
  split at h
  · cases h
  · rename_i hn
    cases h
    refine ⟨rfl, fun a ha => ?_⟩
    have := List.find?_eq_none.1 hn a (List.mem_finRange a)
    simp [ha] at this

/-- axis of a parameter in the other order -/
theorem relabel_axis (h : EnvRelabel τ s E E') (target : String) : (∃ b, E.axis target = .ok (τ b) ∧ E'.axis target = .ok b ∧ E.names (τ b) = target) ∨
    (E.axis target = .error .valueError ∧ E'.axis target = .error .valueError) := by
  cases ha : E.axis target with
  | ok a =>
      obtain ⟨b, rfl⟩ := τ.surjective a
      have hn := axis_name ha
      left
      refine ⟨b, rfl, ?_, hn⟩
      rw [← hn, ← h.names]
      refine axis_distinct ?_ b
      intro c c' hc
      rw [h.names, h.names] at hc
      exact τ.injective (h.distinct hc)
  | error x =>
      obtain ⟨rfl, hx⟩ := axis_error ha
      right
      refine ⟨rfl, ?_⟩
      cases hb : E'.axis target with
      | ok b => exact absurd ((h.names b).symm.trans (axis_name hb)) (hx _)
      | error y => rw [(axis_error hb).1]

theorem detShift_carry (h : EnvRelabel τ s E E') (b : Fin d) (v : K) (p : Arr K gs) :
    detShift E' b (if s b then -v else v) (p.map (carry (relabel τ s))) = (detShift E (τ b) v p).map (Option.map (carry (relabel τ s))) := by
  unfold detShift
  rw [h.lattice]
  split
  · rfl
  · simp only [Except.map]
    congr 1
    cases p with
    | none => rfl
    | some q =>
        simp only [Option.map_some, Option.bind_some]
        rw [← normalize_carry]
        congr 1
        funext y
        obtain ⟨x, rfl⟩ := (relabel τ s).surjective y
        have := h.shift b (v / E.lattice (τ b)) q x
        have e : (if s b = true then -v else v) / E.lattice (τ b) = if s b = true then -(v / E.lattice (τ b)) else v / E.lattice (τ b) := by split <;> ring
        rw [e]
        simp only [carry, Equiv.symm_apply_apply]
        exact this


theorem floorAt_carry {gs' : Fin d → ℕ} (e : Idx gs ≃ Idx gs') (l : K) (p : Idx gs → K) : floorAt l (carry e p) = carry e (floorAt l p) := rfl

theorem resetCell_carry (h : EnvRelabel τ s E E') (hr : E'.resetArr = E.resetArr.map (carry (relabel τ s))) :
    E'.resetCell = E.resetCell.map (carry (relabel τ s)) := by
  unfold Env.resetCell
  rw [hr, relabel_cell h]
  cases E.resetArr <;> rfl

theorem bind_norm_carry {gs' : Fin d → ℕ} (e : Idx gs ≃ Idx gs') {F : (Idx gs → K) → Idx gs → K} {F' : (Idx gs' → K) → Idx gs' → K} (hF : ∀ q, F' (carry e q) = carry e (F q)) (p : Arr K gs) :
    ((p.map (carry e)).bind fun q => BL.normalize (F' q)) = (p.bind fun q => BL.normalize (F q)).map (carry e) := by
  cases p with
  | none => rfl
  | some q => simp only [Option.map_some, Option.bind_some, hF, normalize_carry]

theorem detDist_sign (c : Bool) (f : K → List K → K) (vs : List K) (toff t0 t1 : K) :
    detDist (fun t vs => if c then -f t vs else f t vs) vs toff t0 t1 = if c then -detDist f vs toff t0 t1 else detDist f vs toff t0 t1 := by
  unfold detDist
  split <;> ring

theorem two_cases {d : ℕ} (h : d = 2) (b : Fin d) : b = ⟨0, by omega⟩ ∨ b = ⟨1, by omega⟩ := by
  subst h
  fin_cases b
  · left; rfl
  · right; rfl

theorem perm_two {d : ℕ} (h : d = 2) (τ : Fin d ≃ Fin d) : (τ ⟨0, by omega⟩ = ⟨0, by omega⟩ ∧ τ ⟨1, by omega⟩ = ⟨1, by omega⟩) ∨
    (τ ⟨0, by omega⟩ = ⟨1, by omega⟩ ∧ τ ⟨1, by omega⟩ = ⟨0, by omega⟩) := by
  have hne : τ ⟨0, by omega⟩ ≠ τ ⟨1, by omega⟩ := fun h' => by
    have := τ.injective h'
    simp at this
  rcases two_cases h (τ ⟨0, by omega⟩) with h0 | h0 <;> rcases two_cases h (τ ⟨1, by omega⟩) with h1 | h1
  · exact absurd (h0.trans h1.symm) hne
  · exact Or.inl ⟨h0, h1⟩
  · exact Or.inr ⟨h0, h1⟩
  · exact absurd (h0.trans h1.symm) hne

variable {sgn : String → Bool}

theorem leafFwd_carry (h : EnvRelabel τ s E E') (hs : ∀ b, s b = sgn (E'.names b)) (hr : E'.resetArr = E.resetArr.map (carry (relabel τ s))) (toff : K) {k k' : Leaf K} {vals vals' : List (HVal K)}
    (hk : LeafRelabel τ s sgn k vals k' vals') (p : Arr K gs) (t : K) :
    leafFwd E' toff k' vals' (p.map (carry (relabel τ s))) t = (leafFwd E toff k vals p t).map (Option.map (carry (relabel τ s))) := by
  cases hk with
  | static => rfl
  | grw target =>
      simp only [leafFwd, grwFwd]
      rcases relabel_axis h target with ⟨b, h1, h2, -⟩ | ⟨h1, h2⟩
      · simp only [h1, h2, bind, Except.bind, h.lattice, h.gaussR, h.gaussW]
        cases scalarAt vals 0 with
        | error x => rfl
        | ok σ =>
            simp only
            by_cases hl : E.lattice (τ b) = 0
            · simp only [hl, if_true]
              split <;> rfl
            · simp only [hl, if_false]
              split
              · simp only [Except.map]
                congr 1
                cases p with
                | none => rfl
                | some q => simp only [Option.map_some]; rw [filterAxis_carry (h.gauss_even _)]
              · rfl
      · simp only [h1, h2]
        rfl
  | alphaStable target =>
      simp only [leafFwd, alphaFwd, bind, Except.bind]
      cases scalarAt vals 0 with
      | error x => rfl
      | ok c =>
          cases scalarAt vals 1 with
          | error x => rfl
          | ok α =>
              simp only
              rcases relabel_axis h target with ⟨b, h1, h2, -⟩ | ⟨h1, h2⟩
              · simp only [h1, h2, h.lattice, h.stableKer]
                have e : (d = 1 ∨ (d = 2 ∧ ∀ c, gs (τ c) % 2 = 0)) ↔ (d = 1 ∨ (d = 2 ∧ ∀ a, gs a % 2 = 0)) := by
                  rw [τ.forall_congr_left (p := fun c => gs (τ c) % 2 = 0)]
                  simp
                simp only [e]
                split
                · split
                  · rfl
                  · simp only [Except.map]
                    congr 1
                    refine bind_norm_carry _ (fun q => convSame_carry (fun v => ?_) q) p
                    have e1 : (∀ c, c ≠ b → (if s c = true then -v (τ c) else v (τ c)) = 0) ↔ ∀ a, a ≠ τ b → v a = 0 := by
                      constructor
                      · intro hc a ha
                        obtain ⟨c, rfl⟩ := τ.surjective a
                        have := hc c (fun hcb => ha (hcb ▸ rfl))
                        split at this
                        · exact neg_eq_zero.1 this
                        · exact this
                      · intro ha c hc
                        have := ha (τ c) (fun h' => hc (τ.injective h'))
                        simp [this]
                    simp only [e1]
                    split
                    · split
                      · exact h.stable_even _ _ _
                      · rfl
                    · rfl
                · split <;> rfl
              · simp only [h1, h2]
                rfl
  | changePoint =>
      simp only [leafFwd, bind, Except.bind, resetCell_carry h hr]
      cases cpHit vals t with
      | error x => rfl
      | ok b => cases b <;> rfl
  | independent => simp only [leafFwd, hr]; rfl
  | regimeSwitch =>
      simp only [leafFwd, regimeFwd, bind, Except.bind, h.pow10, relabel_cell h]
      cases scalarAt vals 0 with
      | error x => rfl
      | ok v =>
          simp only [Except.map]
          congr 1
          exact bind_norm_carry _ (fun q => floorAt_carry _ _ q) p
  | notEqual =>
      simp only [leafFwd, notEqualFwd, bind, Except.bind, h.pow10, relabel_cell h]
      cases scalarAt vals 0 with
      | error x => rfl
      | ok v =>
          cases p with
          | none => rfl
          | some q =>
              simp only [Option.map_some, amax_carry]
              cases amax q with
              | none => rfl
              | some m =>
                  simp only [Except.map]
                  congr 1
                  have e : (fun y => m - carry (relabel τ s) q y) = carry (relabel τ s) fun x => m - q x := rfl
                  rw [e, normalize_carry]
                  exact bind_norm_carry _ (fun q => floorAt_carry _ _ q) _
  | deterministic f target =>
      simp only [leafFwd]
      rcases relabel_axis h target with ⟨b, h1, h2, h3⟩ | ⟨h1, h2⟩
      · simp only [h1, h2, bind, Except.bind]
        cases scalars vals with
        | error x => rfl
        | ok vs =>
            simp only
            have e : sgn target = s b := by rw [hs, h.names, h3]
            rw [detDist_sign, e, detShift_carry h]
      · simp only [h1, h2]
        rfl
  | bivariate h0 h1 σ ρ =>
      simp only [leafFwd, bivFwd, numberAt, List.getElem?_cons_zero, List.getElem?_cons_succ, bind, Except.bind, h.lattice, h.bivKer]
      by_cases hd : d = 2
      · rw [dif_pos hd, dif_pos hd]
        have hρ : (if s ⟨0, h0⟩ = s ⟨1, h1⟩ then ρ else -ρ) * (if s ⟨0, h0⟩ = s ⟨1, h1⟩ then ρ else -ρ) = ρ * ρ := by split <;> ring
        rw [hρ]
        have hneg : ∀ a b ρ k l, E.ext.bivKer a b (-ρ) k (-l) = E.ext.bivKer a b ρ k l := fun a b ρ k l => by
          have := h.biv_neg a b ρ (-k) (-l)
          rw [neg_neg, h.biv_even] at this
          exact this
        have hboth : ∀ (a b : K) (k l : ℤ), E.ext.bivKer a b (if s ⟨0, h0⟩ = s ⟨1, h1⟩ then ρ else -ρ) (if s ⟨0, h0⟩ = true then -k else k) (if s ⟨1, h1⟩ = true then -l else l) = E.ext.bivKer a b ρ k l := by
          intro a b k l
          cases s ⟨0, h0⟩ <;> cases s ⟨1, h1⟩
          · simp
          · simpa using hneg a b ρ k l
          · simpa using h.biv_neg a b ρ k l
          · simpa using h.biv_even a b ρ k l
        rcases perm_two hd τ with ⟨e0, e1⟩ | ⟨e0, e1⟩
        · rw [e0, e1]
          split
          · rfl
          · split
            · rfl
            · simp only [Except.map]
              congr 1
              refine bind_norm_carry _ (fun q => convSame_carry (fun v => ?_) q) p
              simp only [e0, e1]
              exact hboth _ _ _ _
        · rw [e0, e1]
          simp only [or_comm (a := E.lattice ⟨1, h1⟩ = 0), or_left_comm (a := σ ⟨1, h1⟩ ≤ 0)]
          split
          · rfl
          · split
            · rfl
            · simp only [Except.map]
              congr 1
              refine bind_norm_carry _ (fun q => convSame_carry (fun v => ?_) q) p
              simp only [e0, e1]
              rw [hboth]
              exact h.biv_swap _ _ _ _ _
      · rw [dif_neg hd, dif_neg hd]
        rfl

theorem leafBwd_carry (h : EnvRelabel τ s E E') (hs : ∀ b, s b = sgn (E'.names b)) (hr : E'.resetArr = E.resetArr.map (carry (relabel τ s))) (toff : K) {k k' : Leaf K} {vals vals' : List (HVal K)}
    (hk : LeafRelabel τ s sgn k vals k' vals') (p : Arr K gs) (t : K) :
    leafBwd E' toff k' vals' (p.map (carry (relabel τ s))) t = (leafBwd E toff k vals p t).map (Option.map (carry (relabel τ s))) := by
  have key := leafFwd_carry h hs hr toff hk p (t - 1)
  cases hk with
  | deterministic f target =>
      simp only [leafBwd]
      rcases relabel_axis h target with ⟨b, h1, h2, h3⟩ | ⟨h1, h2⟩
      · simp only [h1, h2, bind, Except.bind]
        cases scalars vals with
        | error x => rfl
        | ok vs =>
            simp only
            have e : sgn target = s b := by rw [hs, h.names, h3]
            rw [detDist_sign, e, detShift_carry h]
      · simp only [h1, h2]
        rfl
  | _ => simpa only [leafBwd] using key

theorem cpCheck_carry (h : EnvRelabel τ s E E') (hr : E'.resetArr = E.resetArr.map (carry (relabel τ s))) (vs : List K) (mask : List Bool) (p : Arr K gs) (t : K) :
    cpCheck E' vs mask (p.map (carry (relabel τ s))) t = (cpCheck E vs mask p t).map (carry (relabel τ s)) := by
  unfold cpCheck
  split
  · exact resetCell_carry h hr
  · rfl

mutual
theorem fwd_carry (h : EnvRelabel τ s E E') (hs : ∀ b, s b = sgn (E'.names b)) (hr : E'.resetArr = E.resetArr.map (carry (relabel τ s))) :
    ∀ (tm tm' : TM K), Relabelled τ s sgn tm tm' → ∀ (toff : K) (p : Arr K gs) (t : K),
      tm'.fwd E' toff (p.map (carry (relabel τ s))) t = (tm.fwd E toff p t).map (Option.map (carry (relabel τ s)))
  | .leaf k _ vals _, .leaf k' _ vals' _, hm, toff, p, t => by
      simp only [Relabelled] at hm
      simp only [TM.fwd]
      exact leafFwd_carry h hs hr toff hm p t
  | .combined ms, .combined ms', hm, toff, p, t => by
      simp only [Relabelled] at hm
      simp only [TM.fwd]
      exact fwdAll_carry h hs hr ms ms' hm toff p t
  | .serial _ vals _ mask ms, .serial _ vals' _ mask' ms', hm, toff, p, t => by
      simp only [Relabelled] at hm
      obtain ⟨rfl, rfl, hm2⟩ := hm
      simp only [TM.fwd]
      cases scalars vals' with
      | error e => rfl
      | ok vs =>
          simp only [bind, Except.bind]
          rw [fwdNth_carry h hs hr ms ms' hm2]
          generalize TM.fwdNth E _ ms _ p t = r
          cases r with
          | error e => rfl
          | ok q => simp only [Except.map, cpCheck_carry h hr]
  | .leaf .., .combined _, hm, _, _, _ => by simp [Relabelled] at hm
  | .leaf .., .serial .., hm, _, _, _ => by simp [Relabelled] at hm
  | .combined _, .leaf .., hm, _, _, _ => by simp [Relabelled] at hm
  | .combined _, .serial .., hm, _, _, _ => by simp [Relabelled] at hm
  | .serial .., .leaf .., hm, _, _, _ => by simp [Relabelled] at hm
  | .serial .., .combined _, hm, _, _, _ => by simp [Relabelled] at hm
theorem fwdAll_carry (h : EnvRelabel τ s E E') (hs : ∀ b, s b = sgn (E'.names b)) (hr : E'.resetArr = E.resetArr.map (carry (relabel τ s))) :
    ∀ (ms ms' : List (TM K)), RelabelledAll τ s sgn ms ms' → ∀ (toff : K) (p : Arr K gs) (t : K),
      TM.fwdAll E' toff ms' (p.map (carry (relabel τ s))) t = (TM.fwdAll E toff ms p t).map (Option.map (carry (relabel τ s)))
  | [], [], _, _, _, _ => rfl
  | m :: ms, m' :: ms', hm, toff, p, t => by
      simp only [RelabelledAll] at hm
      simp only [TM.fwdAll, fwd_carry h hs hr m m' hm.1]
      cases TM.fwd E toff m p t with
      | error e => rfl
      | ok q => exact fwdAll_carry h hs hr ms ms' hm.2 toff q t
  | [], _ :: _, hm, _, _, _ => by simp [RelabelledAll] at hm
  | _ :: _, [], hm, _, _, _ => by simp [RelabelledAll] at hm
theorem fwdNth_carry (h : EnvRelabel τ s E E') (hs : ∀ b, s b = sgn (E'.names b)) (hr : E'.resetArr = E.resetArr.map (carry (relabel τ s))) :
    ∀ (ms ms' : List (TM K)), RelabelledAll τ s sgn ms ms' → ∀ (toff : K) (i : ℕ) (p : Arr K gs) (t : K),
      TM.fwdNth E' toff ms' i (p.map (carry (relabel τ s))) t = (TM.fwdNth E toff ms i p t).map (Option.map (carry (relabel τ s)))
  | [], [], _, _, _, _, _ => rfl
  | m :: ms, m' :: ms', hm, toff, 0, p, t => by
      simp only [RelabelledAll] at hm
      simp only [TM.fwdNth, fwd_carry h hs hr m m' hm.1]
  | m :: ms, m' :: ms', hm, toff, i + 1, p, t => by
      simp only [RelabelledAll] at hm
      simp only [TM.fwdNth]
      exact fwdNth_carry h hs hr ms ms' hm.2 toff i p t
  | [], _ :: _, hm, _, _, _, _ => by simp [RelabelledAll] at hm
  | _ :: _, [], hm, _, _, _, _ => by simp [RelabelledAll] at hm
end

mutual
theorem bwd_carry (h : EnvRelabel τ s E E') (hs : ∀ b, s b = sgn (E'.names b)) (hr : E'.resetArr = E.resetArr.map (carry (relabel τ s))) :
    ∀ (tm tm' : TM K), Relabelled τ s sgn tm tm' → ∀ (toff : K) (p : Arr K gs) (t : K),
      tm'.bwd E' toff (p.map (carry (relabel τ s))) t = (tm.bwd E toff p t).map (Option.map (carry (relabel τ s)))
  | .leaf k _ vals _, .leaf k' _ vals' _, hm, toff, p, t => by
      simp only [Relabelled] at hm
      simp only [TM.bwd]
      exact leafBwd_carry h hs hr toff hm p t
  | .combined ms, .combined ms', hm, toff, p, t => by
      simp only [Relabelled] at hm
      simp only [TM.bwd]
      exact bwdAll_carry h hs hr ms ms' hm toff p t
  | .serial _ vals _ mask ms, .serial _ vals' _ mask' ms', hm, toff, p, t => by
      simp only [Relabelled] at hm
      obtain ⟨rfl, rfl, hm2⟩ := hm
      simp only [TM.bwd]
      cases scalars vals' with
      | error e => rfl
      | ok vs =>
          simp only [bind, Except.bind]
          rw [bwdNth_carry h hs hr ms ms' hm2]
          generalize TM.bwdNth E _ ms _ p t = r
          cases r with
          | error e => rfl
          | ok q => simp only [Except.map, cpCheck_carry h hr]
  | .leaf .., .combined _, hm, _, _, _ => by simp [Relabelled] at hm
  | .leaf .., .serial .., hm, _, _, _ => by simp [Relabelled] at hm
  | .combined _, .leaf .., hm, _, _, _ => by simp [Relabelled] at hm
  | .combined _, .serial .., hm, _, _, _ => by simp [Relabelled] at hm
  | .serial .., .leaf .., hm, _, _, _ => by simp [Relabelled] at hm
  | .serial .., .combined _, hm, _, _, _ => by simp [Relabelled] at hm
theorem bwdAll_carry (h : EnvRelabel τ s E E') (hs : ∀ b, s b = sgn (E'.names b)) (hr : E'.resetArr = E.resetArr.map (carry (relabel τ s))) :
    ∀ (ms ms' : List (TM K)), RelabelledAll τ s sgn ms ms' → ∀ (toff : K) (p : Arr K gs) (t : K),
      TM.bwdAll E' toff ms' (p.map (carry (relabel τ s))) t = (TM.bwdAll E toff ms p t).map (Option.map (carry (relabel τ s)))
  | [], [], _, _, _, _ => rfl
  | m :: ms, m' :: ms', hm, toff, p, t => by
      simp only [RelabelledAll] at hm
      simp only [TM.bwdAll, bwd_carry h hs hr m m' hm.1]
      cases TM.bwd E toff m p t with
      | error e => rfl
      | ok q => exact bwdAll_carry h hs hr ms ms' hm.2 toff q t
  | [], _ :: _, hm, _, _, _ => by simp [RelabelledAll] at hm
  | _ :: _, [], hm, _, _, _ => by simp [RelabelledAll] at hm
theorem bwdNth_carry (h : EnvRelabel τ s E E') (hs : ∀ b, s b = sgn (E'.names b)) (hr : E'.resetArr = E.resetArr.map (carry (relabel τ s))) :
    ∀ (ms ms' : List (TM K)), RelabelledAll τ s sgn ms ms' → ∀ (toff : K) (i : ℕ) (p : Arr K gs) (t : K),
      TM.bwdNth E' toff ms' i (p.map (carry (relabel τ s))) t = (TM.bwdNth E toff ms i p t).map (Option.map (carry (relabel τ s)))
  | [], [], _, _, _, _, _ => rfl
  | m :: ms, m' :: ms', hm, toff, 0, p, t => by
      simp only [RelabelledAll] at hm
      simp only [TM.bwdNth, bwd_carry h hs hr m m' hm.1]
  | m :: ms, m' :: ms', hm, toff, i + 1, p, t => by
      simp only [RelabelledAll] at hm
      simp only [TM.bwdNth]
      exact bwdNth_carry h hs hr ms ms' hm.2 toff i p t
  | [], _ :: _, hm, _, _, _, _ => by simp [RelabelledAll] at hm
  | _ :: _, [], hm, _, _, _, _ => by simp [RelabelledAll] at hm
end

mutual
theorem returnsArg_carry : ∀ (tm tm' : TM K), Relabelled τ s sgn tm tm' → ∀ t, tm'.returnsArg t = tm.returnsArg t
  | .leaf k _ vals _, .leaf k' _ vals' _, hm, t => by
      simp only [Relabelled] at hm
      simp only [TM.returnsArg]
      cases hm <;> rfl
  | .combined _, .combined _, _, _ => by simp only [TM.returnsArg]
  | .serial _ vals _ mask ms, .serial _ vals' _ mask' ms', hm, t => by
      simp only [Relabelled] at hm
      obtain ⟨rfl, rfl, hm2⟩ := hm
      simp only [TM.returnsArg]
      cases scalars vals' with
      | error e => rfl
      | ok vs => simp only [returnsArgNth_carry ms ms' hm2]
  | .leaf .., .combined _, hm, _ => by simp [Relabelled] at hm
  | .leaf .., .serial .., hm, _ => by simp [Relabelled] at hm
  | .combined _, .leaf .., hm, _ => by simp [Relabelled] at hm
  | .combined _, .serial .., hm, _ => by simp [Relabelled] at hm
  | .serial .., .leaf .., hm, _ => by simp [Relabelled] at hm
  | .serial .., .combined _, hm, _ => by simp [Relabelled] at hm
theorem returnsArgNth_carry : ∀ (ms ms' : List (TM K)), RelabelledAll τ s sgn ms ms' → ∀ i t, TM.returnsArgNth ms' i t = TM.returnsArgNth ms i t
  | [], [], _, _, _ => rfl
  | m :: ms, m' :: ms', hm, 0, t => by
      simp only [RelabelledAll] at hm
      simp only [TM.returnsArgNth, returnsArg_carry m m' hm.1]
  | m :: ms, m' :: ms', hm, i + 1, t => by
      simp only [RelabelledAll] at hm
      simp only [TM.returnsArgNth]
      exact returnsArgNth_carry ms ms' hm.2 i t
  | [], _ :: _, hm, _, _ => by simp [RelabelledAll] at hm
  | _ :: _, [], hm, _, _ => by simp [RelabelledAll] at hm
end

theorem relabelled_same (h : EnvRelabel τ s E E') (hs : ∀ b, s b = sgn (E'.names b)) {tm tm' : TM K} (hm : Relabelled τ s sgn tm tm') : Same (relabel τ s) E E' tm tm' where
  cell := relabel_cell h
  fwd := fun pr p t => fwd_carry (E := { E with prior := pr }) (E' := { E' with prior := pr.carry (relabel τ s) }) { h with } hs (resetArr_carry E E' pr) tm tm' hm 0 p t
  bwd := fun pr p t => bwd_carry (E := { E with prior := pr }) (E' := { E' with prior := pr.carry (relabel τ s) }) { h with } hs (resetArr_carry E E' pr) tm tm' hm 0 p t
  arg := returnsArg_carry tm tm' hm

end BL
