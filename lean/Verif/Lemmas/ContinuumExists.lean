import Verif.Lemmas.Continuum
import Verif.Spec.Fragment

/-! # Filtering and smoothing in the continuum exist for positive likelihoods -/

set_option linter.unusedSectionVars false

namespace BL
open Spec MeasureTheory Filter Topology Set

variable {d : ℕ} {a b : Fin d → ℝ} {names : Fin d → String} {reset : Dens d} {gs : Fin d → ℕ}

/-- continuous and positive on the box -/
def Nice (a b : Fin d → ℝ) (ρ : Dens d) : Prop := ContinuousOn ρ (Icc a b) ∧ ∀ y ∈ Icc a b, 0 < ρ y

theorem Nice.mul {ρ τ : Dens d} (h : Nice a b ρ) (h' : Nice a b τ) : Nice a b fun y => ρ y * τ y := ⟨h.1.mul h'.1, fun y hy => mul_pos (h.2 y hy) (h'.2 y hy)⟩

theorem Nice.mass_pos (hab : ∀ k, a k < b k) {ρ : Dens d} (h : Nice a b ρ) : 0 < boxMass a b ρ := by
  have hne : (Icc a b).Nonempty := ⟨a, le_rfl, fun k => (hab k).le⟩
  obtain ⟨y, hy, hmin⟩ := isCompact_Icc.exists_isMinOn hne h.1
  have h1 : 0 < boxMass a b fun _ => ρ y := by
    rw [boxMass_const _ fun k => (hab k).le]
    exact mul_pos (Finset.prod_pos fun k _ => sub_pos.2 (hab k)) (h.2 y hy)
  refine h1.trans_le ?_
  unfold boxMass
  exact setIntegral_mono_on (continuousOn_const.integrableOn_compact isCompact_Icc) (h.1.integrableOn_compact isCompact_Icc) measurableSet_Icc fun z hz => hmin hz

theorem Nice.unit (hab : ∀ k, a k < b k) {ρ : Dens d} (h : Nice a b ρ) : Nice a b (unitMass a b ρ) :=
  ⟨unitMass_continuousOn h.1, fun y hy => div_pos (h.2 y hy) (h.mass_pos hab)⟩

theorem nice_one : Nice a b fun _ => 1 := ⟨continuousOn_const, fun _ _ => one_pos⟩

theorem Nice.walk (hab : ∀ k, a k < b k) {σ : ℝ} (hσ : 0 < σ) (k : Fin d) {ρ : Dens d} (h : Nice a b ρ) : Nice a b (gaussWalk a b σ k ρ) := by
  refine ⟨gaussWalk_continuousOn hab σ k h.1, fun y hy => ?_⟩
  rw [gaussWalk_eq hab σ k ρ hy]
  refine div_pos (intervalIntegral.intervalIntegral_pos_of_pos ?_ (fun u => ?_) (by linarith)) (walkNorm_pos hσ)
  · exact ((walkIntegrand_continuous hab σ k h.1).comp (by fun_prop : Continuous fun u : ℝ => (y, u))).intervalIntegrable _ _
  · rw [walkIntegrand_eq hab σ k ρ hy]
    exact mul_pos (Real.exp_pos _) (h.2 _ (update_mem hy k (mirror_mem (hab k) _)))

theorem axis_inv (E : Env ℝ gs) {target : String} {k : Fin d} (h : E.axis target = .ok k) : E.names k = target ∧ ∀ i < k, E.names i ≠ target := by
  unfold Env.axis at h
  split at h
  · rename_i k' hk
    simp only [Except.ok.injEq] at h
    subst h
    rw [List.find?_eq_some_iff_getElem] at hk
    obtain ⟨h1, i, hi, h2, h3⟩ := hk
    refine ⟨by simpa using h1, fun j hj => ?_⟩
    have hik : i = (k' : ℕ) := by rw [← h2]; simp
    have hj' : (j : ℕ) < i := by rw [hik]; exact hj
    simpa using h3 j hj'
  · exact absurd h (by simp)

theorem scalars_list : ∀ vals : List (HVal ℝ), (∀ v ∈ vals, ∃ c, v = .scalar c) → ∃ vs : List ℝ, vals = vs.map .scalar
  | [], _ => ⟨[], rfl⟩
  | v :: l, h => by
      obtain ⟨c, rfl⟩ := h v List.mem_cons_self
      obtain ⟨vs, rfl⟩ := scalars_list l fun w hw => h w (List.mem_cons_of_mem _ hw)
      exact ⟨c :: vs, rfl⟩

mutual
theorem moves_exists (hab : ∀ k, a k < b k) (E : Env ℝ gs) (hr : Nice a b reset) : ∀ (tm : TM ℝ), Linear E tm → ∀ (t : ℝ) (j : ℕ),
    ∃ j', ∀ ρ, Nice a b ρ → ∃ ρ', Nice a b ρ' ∧ Moves E.names a b reset tm t (ρ, j) (ρ', j')
  | .leaf kind hn vals pr, hl, t, j => by
      cases kind with
      | static => exact ⟨j, fun ρ h => ⟨ρ, h, by simp only [Moves, LeafMoves]⟩⟩
      | grw target =>
        simp only [Linear] at hl
        obtain ⟨⟨k, hk⟩, σ, rfl⟩ := hl
        obtain ⟨h1, h2⟩ := axis_inv E hk
        refine ⟨j, fun ρ h => ⟨if 0 < σ then gaussWalk a b σ k ρ else ρ, ?_, ?_⟩⟩
        · split
          · rename_i hσ; exact h.walk hab hσ k
          · exact h
        · simp only [Moves, LeafMoves]
          exact ⟨k, σ, h1, h2, rfl, rfl⟩
      | changePoint =>
        simp only [Linear] at hl
        obtain ⟨τ, rfl⟩ := hl
        by_cases ht : t = τ
        · exact ⟨1, fun ρ h => ⟨reset, hr, by simp only [Moves, LeafMoves]; exact ⟨τ, rfl, by rw [if_pos ht]⟩⟩⟩
        · exact ⟨j, fun ρ h => ⟨ρ, h, by simp only [Moves, LeafMoves]; exact ⟨τ, rfl, by rw [if_neg ht]⟩⟩⟩
      | independent => exact ⟨0, fun ρ h => ⟨reset, hr, by simp only [Moves, LeafMoves]⟩⟩
      | alphaStable _ => exact absurd hl (by simp [Linear])
      | regimeSwitch => exact absurd hl (by simp [Linear])
      | notEqual => exact absurd hl (by simp [Linear])
      | deterministic _ _ => exact absurd hl (by simp [Linear])
      | bivariate => exact absurd hl (by simp [Linear])
      | breakPoint => exact absurd hl (by simp [Linear])
  | .combined ms, hl, t, j => by
      simp only [Linear] at hl
      simp only [Moves]
      exact movesAll_exists hab E hr ms hl t j
  | .serial hn vals pr mask ms, hl, t, j => by
      simp only [Linear] at hl
      obtain ⟨h1, h2, h3⟩ := hl
      obtain ⟨vs, rfl⟩ := scalars_list vals h1
      have hlt : (vs.countP fun v => decide (v ≤ t)) < ms.length := by
        have := List.countP_le_length (p := fun v => decide (v ≤ t)) (l := vs)
        simp only [List.length_map] at h2
        omega
      obtain ⟨j', hj'⟩ := movesNth_exists hab E hr ms h3 _ hlt t j
      simp only [Moves]
      by_cases hc : ∃ p ∈ vs.zip mask, p.2 = true ∧ p.1 = t
      · refine ⟨1, fun ρ h => ⟨reset, hr, vs, rfl, ?_⟩⟩
        obtain ⟨ρ', _, hm⟩ := hj' ρ h
        exact ⟨_, hm, by rw [if_pos hc]⟩
      · refine ⟨j', fun ρ h => ?_⟩
        obtain ⟨ρ', hn', hm⟩ := hj' ρ h
        exact ⟨ρ', hn', vs, rfl, _, hm, by rw [if_neg hc]⟩
theorem movesAll_exists (hab : ∀ k, a k < b k) (E : Env ℝ gs) (hr : Nice a b reset) : ∀ (ms : List (TM ℝ)), LinearAll E ms → ∀ (t : ℝ) (j : ℕ),
    ∃ j', ∀ ρ, Nice a b ρ → ∃ ρ', Nice a b ρ' ∧ MovesAll E.names a b reset ms t (ρ, j) (ρ', j')
  | [], _, t, j => ⟨j, fun ρ h => ⟨ρ, h, by simp only [MovesAll]⟩⟩
  | m :: ms, hl, t, j => by
      simp only [LinearAll] at hl
      obtain ⟨j₁, h₁⟩ := moves_exists hab E hr m hl.1 t j
      obtain ⟨j₂, h₂⟩ := movesAll_exists hab E hr ms hl.2 t j₁
      refine ⟨j₂, fun ρ h => ?_⟩
      obtain ⟨ρ₁, n₁, m₁⟩ := h₁ ρ h
      obtain ⟨ρ₂, n₂, m₂⟩ := h₂ ρ₁ n₁
      exact ⟨ρ₂, n₂, by simp only [MovesAll]; exact ⟨_, m₁, m₂⟩⟩
theorem movesNth_exists (hab : ∀ k, a k < b k) (E : Env ℝ gs) (hr : Nice a b reset) : ∀ (ms : List (TM ℝ)), LinearAll E ms → ∀ i < ms.length, ∀ (t : ℝ) (j : ℕ),
    ∃ j', ∀ ρ, Nice a b ρ → ∃ ρ', Nice a b ρ' ∧ MovesNth E.names a b reset ms i t (ρ, j) (ρ', j')
  | [], _, i, hi, t, j => absurd hi (by simp)
  | m :: _, hl, 0, _, t, j => by
      simp only [LinearAll] at hl
      simp only [MovesNth]
      exact moves_exists hab E hr m hl.1 t j
  | _ :: ms, hl, i + 1, hi, t, j => by
      simp only [LinearAll] at hl
      simp only [MovesNth]
      exact movesNth_exists hab E hr ms hl.2 i (by simpa using hi) t j
end

/-- The number of change-points between data points does not depend on the data. -/
theorem filtered_exists (hab : ∀ k, a k < b k) (E : Env ℝ gs) (hr : Nice a b reset) (tm : TM ℝ) (hl : Linear E tm) : ∀ (times : List ℝ) (j : ℕ),
    ∃ n, ∀ ρ, Nice a b ρ → ∀ data : List (Dens d × ℝ), data.map Prod.snd = times → (∀ D ∈ data, Nice a b D.1) →
      ∃ out, Filtered a b (Moves E.names a b reset tm) (ρ, j) data out n ∧ ∀ o ∈ out, 0 < o.1 ∧ Nice a b o.2
  | [], j => ⟨0, fun ρ _ data hd _ => by
      have : data = [] := List.map_eq_nil_iff.1 hd
      subst this
      exact ⟨[], .done _, by simp⟩⟩
  | t :: times, j => by
      obtain ⟨j', hj'⟩ := moves_exists hab E hr tm hl t 0
      obtain ⟨n, hn⟩ := filtered_exists hab E hr tm hl times j'
      refine ⟨j + n, fun ρ h data hd hD => ?_⟩
      match data, hd with
      | (L, t') :: rest, hd1 =>
        simp only [List.map_cons, List.cons.injEq] at hd1
        obtain ⟨rfl, hd2⟩ := hd1
        have hL := hD (L, t') List.mem_cons_self
        have hp := h.mul hL
        obtain ⟨ρ', n', m'⟩ := hj' _ (hp.unit hab)
        obtain ⟨out, ho, ho'⟩ := hn ρ' n' rest hd2 fun D hD' => hD D (List.mem_cons_of_mem _ hD')
        refine ⟨_, .data (ρ, j) (ρ', j') L t' rest out n (hp.mass_pos hab) m' ho, fun o hoo => ?_⟩
        rcases List.mem_cons.1 hoo with rfl | hoo
        · exact ⟨hp.mass_pos hab, hp.unit hab⟩
        · exact ho' o hoo

theorem smoothed_exists (hab : ∀ k, a k < b k) (E : Env ℝ gs) (hr : Nice a b reset) (tm : TM ℝ) (hl : Linear E tm) : ∀ (items : List (Dens d × Dens d × ℝ)), (∀ i ∈ items, Nice a b i.1 ∧ Nice a b i.2.1) →
    ∃ posts β, Smoothed a b (Moves E.names a b reset tm) items posts β ∧ Nice a b β
  | [], _ => ⟨[], _, .done, nice_one.unit hab⟩
  | (ρ, L, t) :: items, h => by
      obtain ⟨posts, β, hS, hβ⟩ := smoothed_exists hab E hr tm hl items fun i hi => h i (List.mem_cons_of_mem _ hi)
      obtain ⟨hρ, hL⟩ := h (ρ, L, t) List.mem_cons_self
      obtain ⟨j', hj'⟩ := moves_exists hab E hr tm hl (t - 1) 0
      obtain ⟨ρ', n', m'⟩ := hj' _ (hβ.mul hL)
      exact ⟨_, _, .data ρ L t items posts β (ρ', j') hS ((hρ.mul hβ).mass_pos hab) m' (n'.mass_pos hab).ne', n'.unit hab⟩

end BL
