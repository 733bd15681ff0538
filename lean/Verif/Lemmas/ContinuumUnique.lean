import Verif.Spec.Continuum
import Verif.Spec.Fragment

/-! # Filtering and smoothing in the continuum have at most one result -/

set_option linter.unusedSectionVars false

namespace BL
open Spec

variable {d : ℕ} {a b : Fin d → ℝ} {names : Fin d → String} {reset : Dens d}

theorem first_unique {target : String} {k k' : Fin d} (h : names k = target) (h1 : ∀ i < k, names i ≠ target) (h' : names k' = target) (h1' : ∀ i < k', names i ≠ target) : k = k' := by
  rcases lt_trichotomy k k' with hlt | he | hlt
  · exact absurd h (h1' k hlt)
  · exact he
  · exact absurd h' (h1 k' hlt)

theorem leafMoves_unique {kind : Leaf ℝ} {vals : List (HVal ℝ)} {t : ℝ} {s s' s'' : Dens d × ℕ} (h : LeafMoves names a b reset kind vals t s s') (h' : LeafMoves names a b reset kind vals t s s'') : s' = s'' := by
  unfold LeafMoves at h h'
  cases kind with
  | static => exact h.trans h'.symm
  | grw target =>
    obtain ⟨k, σ, h1, h2, h3, h4⟩ := h
    obtain ⟨k', σ', h1', h2', h3', h4'⟩ := h'
    rw [h3] at h3'
    simp only [Option.some.injEq, HVal.scalar.injEq] at h3'
    subst h3'
    have := first_unique h1 h2 h1' h2'
    subst this
    rw [h4, h4']
  | changePoint =>
    obtain ⟨τ, h3, h4⟩ := h
    obtain ⟨τ', h3', h4'⟩ := h'
    rw [h3] at h3'
    simp only [Option.some.injEq, HVal.scalar.injEq] at h3'
    subst h3'
    rw [h4, h4']
  | independent => exact h.trans h'.symm
  | regimeSwitch =>
    obtain ⟨τ, h3, -, h4⟩ := h
    obtain ⟨τ', h3', -, h4'⟩ := h'
    rw [h3] at h3'
    simp only [Option.some.injEq, HVal.scalar.injEq] at h3'
    subst h3'
    rw [h4, h4']
  | notEqual =>
    obtain ⟨v, M, h3, hM, -, h4⟩ := h
    obtain ⟨v', M', h3', hM', -, h4'⟩ := h'
    rw [h3] at h3'
    simp only [Option.some.injEq, HVal.scalar.injEq] at h3'
    subst h3'
    have := hM.unique hM'
    subst this
    rw [h4, h4']
  | alphaStable _ => exact h.elim
  | deterministic _ _ => exact h.elim
  | bivariate => exact h.elim
  | breakPoint => exact h.elim

mutual
theorem moves_unique : ∀ (tm : TM ℝ) {t : ℝ} {s s' s'' : Dens d × ℕ}, Moves names a b reset tm t s s' → Moves names a b reset tm t s s'' → s' = s''
  | .leaf _ _ _ _, t, s, s', s'', h, h' => by
      simp only [Moves] at h h'
      exact leafMoves_unique h h'
  | .combined ms, t, s, s', s'', h, h' => by
      simp only [Moves] at h h'
      exact movesAll_unique ms h h'
  | .serial hn vals pr mask ms, t, s, s', s'', h, h' => by
      simp only [Moves] at h h'
      obtain ⟨vs, h1, s₁, h2, h3⟩ := h
      obtain ⟨vs', h1', s₁', h2', h3'⟩ := h'
      have hv : vs = vs' := List.map_injective_iff.2 (fun x y hxy => by simpa using hxy) (h1.symm.trans h1')
      subst hv
      have := movesNth_unique ms _ h2 h2'
      subst this
      rw [h3, h3']
theorem movesAll_unique : ∀ (ms : List (TM ℝ)) {t : ℝ} {s s' s'' : Dens d × ℕ}, MovesAll names a b reset ms t s s' → MovesAll names a b reset ms t s s'' → s' = s''
  | [], t, s, s', s'', h, h' => by
      simp only [MovesAll] at h h'
      exact h.trans h'.symm
  | m :: ms, t, s, s', s'', h, h' => by
      simp only [MovesAll] at h h'
      obtain ⟨s₁, h1, h2⟩ := h
      obtain ⟨s₁', h1', h2'⟩ := h'
      have := moves_unique m h1 h1'
      subst this
      exact movesAll_unique ms h2 h2'
theorem movesNth_unique : ∀ (ms : List (TM ℝ)) (i : ℕ) {t : ℝ} {s s' s'' : Dens d × ℕ}, MovesNth names a b reset ms i t s s' → MovesNth names a b reset ms i t s s'' → s' = s''
  | [], _, t, s, s', s'', h, _ => by simp only [MovesNth] at h
  | m :: _, 0, t, s, s', s'', h, h' => by
      simp only [MovesNth] at h h'
      exact moves_unique m h h'
  | _ :: ms, i + 1, t, s, s', s'', h, h' => by
      simp only [MovesNth] at h h'
      exact movesNth_unique ms i h h'
end

theorem filtered_unique {moves : ℝ → Dens d × ℕ → Dens d × ℕ → Prop} (hm : ∀ t s s' s'', moves t s s' → moves t s s'' → s' = s'') {s : Dens d × ℕ} {data : List (Dens d × ℝ)} {out : List (ℝ × Dens d)} {k : ℕ}
    (h : Filtered a b moves s data out k) : ∀ {out' : List (ℝ × Dens d)} {k' : ℕ}, Filtered a b moves s data out' k' → out = out' ∧ k = k' := by
  induction h with
  | done s => intro out' k' h'; cases h'; exact ⟨rfl, rfl⟩
  | data s s' L t rest out n hpos hmv _ ih =>
    intro out' k' h'
    cases h' with
    | data s s'' L t rest out'' n' hpos' hmv' hF' =>
      have := hm _ _ _ _ hmv hmv'
      subst this
      obtain ⟨rfl, rfl⟩ := ih hF'
      exact ⟨rfl, rfl⟩

theorem smoothed_unique {moves : ℝ → Dens d × ℕ → Dens d × ℕ → Prop} (hm : ∀ t s s' s'', moves t s s' → moves t s s'' → s' = s'') {items : List (Dens d × Dens d × ℝ)} {posts : List (Dens d)} {β : Dens d}
    (h : Smoothed a b moves items posts β) : ∀ {posts' : List (Dens d)} {β' : Dens d}, Smoothed a b moves items posts' β' → posts = posts' ∧ β = β' := by
  induction h with
  | done => intro posts' β' h'; cases h'; exact ⟨rfl, rfl⟩
  | data ρ L t rest posts β s' _ hpos hmv hne ih =>
    intro posts' β' h'
    cases h' with
    | data ρ L t rest posts'' β'' s'' hS' hpos' hmv' hne' =>
      obtain ⟨rfl, rfl⟩ := ih hS'
      have := hm _ _ _ _ hmv hmv'
      subst this
      exact ⟨rfl, rfl⟩

mutual
/-- without change-points nothing is counted -/
theorem moves_count : ∀ (tm : TM ℝ), NoChangePoint tm → ∀ {t : ℝ} {s s' : Dens d × ℕ}, s.2 = 0 → Moves names a b reset tm t s s' → s'.2 = 0
  | .leaf kind _ _ _, hn, t, s, s', hs, h => by
      simp only [Moves] at h
      unfold LeafMoves at h
      cases kind with
      | static => rw [h]; exact hs
      | grw target => obtain ⟨k, σ, -, -, -, h4⟩ := h; rw [h4]; exact hs
      | changePoint => exact absurd hn (by simp [NoChangePoint])
      | independent => rw [h]
      | regimeSwitch => obtain ⟨τ, h3, -, h4⟩ := h; rw [h4]
      | notEqual => obtain ⟨v, M, h3, hM, -, h4⟩ := h; rw [h4]
      | alphaStable _ => exact h.elim
      | deterministic _ _ => exact h.elim
      | bivariate => exact h.elim
      | breakPoint => exact h.elim
  | .combined ms, hn, t, s, s', hs, h => by
      simp only [Moves] at h
      simp only [NoChangePoint] at hn
      exact movesAll_count ms hn hs h
  | .serial _ vals _ mask ms, hn, t, s, s', hs, h => by
      simp only [Moves] at h
      simp only [NoChangePoint] at hn
      obtain ⟨vs, h1, s₁, h2, h3⟩ := h
      rw [if_neg] at h3
      · rw [h3]; exact movesNth_count ms hn.2 _ hs h2
      · rintro ⟨p, hp, hp2, -⟩
        have := (List.of_mem_zip hp).2
        rw [hp2] at this
        exact hn.1 this
theorem movesAll_count : ∀ (ms : List (TM ℝ)), NoChangePointAll ms → ∀ {t : ℝ} {s s' : Dens d × ℕ}, s.2 = 0 → MovesAll names a b reset ms t s s' → s'.2 = 0
  | [], _, t, s, s', hs, h => by
      simp only [MovesAll] at h
      rw [h]; exact hs
  | m :: ms, hn, t, s, s', hs, h => by
      simp only [MovesAll] at h
      simp only [NoChangePointAll] at hn
      obtain ⟨s₁, h1, h2⟩ := h
      exact movesAll_count ms hn.2 (moves_count m hn.1 hs h1) h2
theorem movesNth_count : ∀ (ms : List (TM ℝ)), NoChangePointAll ms → ∀ (i : ℕ) {t : ℝ} {s s' : Dens d × ℕ}, s.2 = 0 → MovesNth names a b reset ms i t s s' → s'.2 = 0
  | [], _, _, t, s, s', _, h => by simp only [MovesNth] at h
  | m :: _, hn, 0, t, s, s', hs, h => by
      simp only [MovesNth] at h
      simp only [NoChangePointAll] at hn
      exact moves_count m hn.1 hs h
  | _ :: ms, hn, i + 1, t, s, s', hs, h => by
      simp only [MovesNth] at h
      simp only [NoChangePointAll] at hn
      exact movesNth_count ms hn.2 i hs h
end

theorem filtered_count {tm : TM ℝ} (hn : NoChangePoint tm) {s : Dens d × ℕ} {data : List (Dens d × ℝ)} {out : List (ℝ × Dens d)} {k : ℕ} (h : Filtered a b (Moves names a b reset tm) s data out k) :
    s.2 = 0 → k = 0 := by
  induction h with
  | done => intro _; rfl
  | data s s' L t rest out n hpos hmv _ ih =>
    intro hs
    rw [hs, ih (moves_count tm hn rfl hmv)]

end BL
