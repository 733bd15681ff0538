import Verif.Lemmas.Rounding

/-! # Rounding errors of the forward and backward loop of `fit` -/

set_option linter.unusedSectionVars false

namespace BL
open Spec
variable {K : Type} [Field K] [LinearOrder K] [IsStrictOrderedRing K] {d : ℕ} {gs : Fin d → ℕ} {u : K}

/-- exact and rounded steps of the forward loop; `Z`, `Z'`: products of the normalisation constants so far, `N`: number of roundings so far -/
def StepsAcc (u : K) (G eL k : ℕ) : ℕ → K → K → List (Step K gs) → List (Step K gs) → Prop
  | _, _, _, [], [] => True
  | N, Z, Z', s :: ss, s' :: ss' => 0 < s.norm ∧ 0 < s'.norm ∧ (∀ x, Acc u (N + eL + 2) (Z * s.norm * s.alpha x) (Z' * s'.norm * s'.alpha x)) ∧ Acc u (N + eL + 1 + G) (Z * s.norm) (Z' * s'.norm) ∧
      (∀ x, Acc u eL (s.lik x) (s'.lik x)) ∧ s'.t = s.t ∧ StepsAcc u G eL k (N + (eL + 2 + G + k)) (Z * s.norm) (Z' * s'.norm) ss ss'
  | _, _, _, _, _ => False

/-- one step: product with the likelihood, sum, quotient -/
theorem step_acc (hu : 0 ≤ u) (hu1 : u < 1) {N eL : ℕ} {Z Z' : K} (hZ : 0 < Z) (hZ' : 0 < Z') {a a' L L' b b' : Idx gs → K} {norm' : K}
    (ha : ∀ x, Acc u N (Z * a x) (Z' * a' x)) (hL : ∀ x, Acc u eL (L x) (L' x)) (h1 : ∀ x, Rounded u (a' x * L' x) (b x)) (h2 : RSumGrid u b norm') :
    (∀ x, Acc u (N + eL + 1) (Z * (a x * L x)) (Z' * b x)) ∧ Acc u (N + eL + 1 + Fintype.card (Idx gs)) (Z * ∑ x, a x * L x) (Z' * norm') ∧
      (0 < norm' → (∀ x, Rounded u (b x / norm') (b' x)) → ∀ x, Acc u (N + eL + 2) (Z * (a x * L x)) (Z' * norm' * b' x)) := by
  have hn : ∀ x, 0 ≤ a' x * L' x := fun x => mul_nonneg (nonneg_of_mul_nonneg_right (ha x).right hZ') (hL x).right
  have hb : ∀ x, Acc u 1 (a' x * L' x) (b x) := fun x => (h1 x).acc hu hu1 (hn x)
  have h3 : ∀ x, Acc u (N + eL + 1) (Z * (a x * L x)) (Z' * b x) := by
    intro x
    have := ((ha x).mul hu1 (hL x)).trans hu1 (c := Z' * b x) (M := 1) (by
      have := (hb x).weight hZ'.le
      rwa [← mul_assoc] at this)
    rwa [mul_assoc] at this
  refine ⟨h3, ?_, ?_⟩
  · have h4 := Acc.sum Finset.univ (fun x _ => h3 x)
    rw [← Finset.mul_sum, ← Finset.mul_sum] at h4
    exact h4.trans hu1 ((h2.acc hu hu1 fun x => (hb x).right).weight hZ'.le)
  · intro hp h5 x
    have h6 : Acc u 1 (b x / norm') (b' x) := (h5 x).acc hu hu1 (div_nonneg (hb x).right hp.le)
    have h7 := h6.weight (mul_pos hZ' hp).le
    rw [mul_assoc Z', mul_div_cancel₀ _ hp.ne'] at h7
    exact (h3 x).trans hu1 h7

/-- the arrays after a transition -/
theorem passes_norm {k N : ℕ} {Z Z' : K} (hu : 0 ≤ u) (hu1 : u < 1) (hZ : 0 < Z) (hZ' : 0 < Z') {p p' q q' : Idx gs → K} (h : Passes u k p p' q q') (hN : Acc u N Z Z') (hp : ∀ x, Acc u N (Z * p x) (Z' * p' x)) :
    ∀ x, Acc u (N + k) (Z * q x) (Z' * q' x) := by
  intro x
  rcases h with h | h
  · exact hN.mul hu1 (h x)
  · have := h (Z' / Z) N (div_pos hZ' hZ).le (fun x => by
      have := (hp x).weight (w := 1 / Z) (by positivity)
      have e1 : 1 / Z * (Z * p x) = p x := by field_simp
      have e2 : 1 / Z * (Z' * p' x) = Z' / Z * p' x := by field_simp
      rwa [e1, e2] at this) x
    have := this.weight hZ.le
    have e2 : Z * (Z' / Z * q' x) = Z' * q' x := by field_simp
    rwa [e2] at this

/-- the forward loop -/
theorem fwd_acc {E E' : Env K gs} (hE : Twin E E') (hu : 0 ≤ u) (hu1 : u < 1) {e eL : ℕ} {tm : TM K} (hL : Linear E tm) {Ls' : List (Idx gs → K)} {ts : List K} {a' : Idx gs → K} {ss' : List (Step K gs)}
    {st : Bool} (h' : RFwd E' tm u e a' Ls' ts ss' st) : ∀ {Ls : List (Idx gs → K)}, List.Forall₂ (fun L L' => ∀ x, Acc u eL (L x) (L' x)) Ls Ls' → ∀ {al : Bool} {pr : PriorSpec K gs},
    (ResetFree tm ∨ al = false ∧ E'.prior = pr ∧ ∃ r, ({ E with prior := pr } : Env K gs).resetArr = some r) → ∀ {N : ℕ} {Z Z' : K}, 0 < Z → 0 < Z' → ∀ {a : Idx gs → K}, (∀ x, Acc u N (Z * a x) (Z' * a' x)) →
    ∀ {f : FwdOut K gs}, fwdPass E tm al pr (some a) Ls ts = .ok f →
      f.stopped = st ∧ (al = false → f.prior = pr) ∧ StepsAcc u (Fintype.card (Idx gs)) eL (elements tm * e) N Z Z' f.steps ss' := by
  induction h' with
  | done a' ts =>
      intro Ls hLs al pr _ N Z Z' _ _ a _ f h
      cases hLs
      rw [fwdPass, Except.ok.injEq] at h
      subst h
      exact ⟨rfl, fun _ => rfl, trivial⟩
  | @stop a' b L' Ls' ts norm' h1 h2 h3 =>
      intro Ls hLs al pr _ N Z Z' hZ hZ' a ha f h
      obtain ⟨L, Ls, hL1, hL2, rfl⟩ := List.forall₂_cons_right_iff.1 hLs
      obtain ⟨-, k2, -⟩ := step_acc (b' := b) hu hu1 hZ hZ' ha hL1 h1 h2
      have h4 : ¬ 0 < ∑ x, a x * L x := by
        intro hp
        exact h3 (pos_of_mul_pos_right (k2.pos hu1 (mul_pos hZ hp)) hZ'.le)
      rw [fwdPass, if_neg h4, Except.ok.injEq] at h
      subst h
      refine ⟨rfl, fun h => ?_, trivial⟩
      simp [h]
  | @step a' b α' c L' Ls' t ts norm' ss' st h1 h2 h3 h4 h5 _ ih =>
      intro Ls hLs al pr hR N Z Z' hZ hZ' a ha f h
      obtain ⟨L, Ls, hL1, hL2, rfl⟩ := List.forall₂_cons_right_iff.1 hLs
      obtain ⟨-, k2, k3⟩ := step_acc (b' := α') hu hu1 hZ hZ' ha hL1 h1 h2
      have hp : 0 < ∑ x, a x * L x := pos_of_mul_pos_right (k2.symm.pos hu1 (mul_pos hZ' h3)) hZ.le
      have k4 : ∀ x, Acc u (N + eL + 2) (Z * (∑ x, a x * L x) * (a x * L x / ∑ x, a x * L x)) (Z' * norm' * α' x) := by
        intro x
        have := k3 h3 h4 x
        rwa [mul_assoc Z, mul_div_cancel₀ _ hp.ne']
      rw [fwdPass, if_pos hp] at h
      simp only [bind, Except.bind] at h
      generalize hpr : (if al = true then PriorSpec.array (some fun x => a x * L x / ∑ x, a x * L x) else pr) = pr' at h
      generalize hq : tm.fwd { E with prior := pr' } 0 (some fun x => a x * L x / ∑ x, a x * L x) t = q at h
      cases q with
      | error _ => simp at h
      | ok q =>
        dsimp only at h
        have hR' : ResetFree tm ∨ E'.prior = pr' ∧ ∃ r, ({ E with prior := pr' } : Env K gs).resetArr = some r := by
          refine hR.imp id fun ⟨h6, h7, h8⟩ => ?_
          rw [h6] at hpr
          simp only [Bool.false_eq_true, if_false] at hpr
          rw [← hpr]; exact ⟨h7, h8⟩
        obtain ⟨q0, rfl, hq0⟩ := fwd_passes (E := { E with prior := pr' }) (E' := E') ⟨hE.gauss, hE.names, hE.lattice, hE.ext⟩ hu hu1 e tm (linear_prior pr' tm hL) hR' 0 t _ α' c q hq h5
        have k5 := passes_norm hu hu1 (mul_pos hZ hp) (mul_pos hZ' h3) hq0 (k2.mono hu hu1 (M := N + (eL + 2 + Fintype.card (Idx gs))) (by omega)) fun x => (k4 x).mono hu hu1 (by omega)
        generalize hf : fwdPass E tm (al && tm.returnsArg t) pr' (some q0) Ls ts = f' at h
        cases f' with
        | error _ => simp at h
        | ok f' =>
          simp only [Except.ok.injEq] at h
          subst h
          have hR'' : ResetFree tm ∨ (al && tm.returnsArg t) = false ∧ E'.prior = pr' ∧ ∃ r, ({ E with prior := pr' } : Env K gs).resetArr = some r := by
            rcases hR with hR | ⟨h6, _⟩
            · exact Or.inl hR
            · exact hR'.imp id fun h => ⟨by rw [h6]; rfl, h⟩
          obtain ⟨i1, i2, i3⟩ := ih hL2 hR'' (mul_pos hZ hp) (mul_pos hZ' h3) (N := N + (eL + 2 + Fintype.card (Idx gs) + elements tm * e)) (by simpa only [add_assoc] using k5) hf
          refine ⟨i1, fun h6 => ?_, ?_⟩
          · rw [h6] at i2 hpr
            simp only [Bool.false_eq_true, if_false] at hpr
            rw [i2 rfl, hpr]
          · rw [StepsAcc]
            exact ⟨hp, h3, k4, k2, hL1, rfl, i3⟩

/-- the posterior distributions of a forward-only fit -/
theorem StepsAcc.alpha (hu : 0 ≤ u) (hu1 : u < 1) {G eL k C : ℕ} : ∀ {ss ss' : List (Step K gs)} {N : ℕ} {Z Z' : K}, 0 < Z → 0 < Z' → StepsAcc u G eL k N Z Z' ss ss' → 2 * (N + ss.length * (eL + 2 + G + k)) ≤ C →
    List.Forall₂ (fun s s' => ∀ x, Acc u C (s.alpha x) (s'.alpha x)) ss ss'
  | [], [], _, _, _, _, _, _, _ => .nil
  | [], _ :: _, _, _, _, _, _, h, _ => by simp [StepsAcc] at h
  | _ :: _, [], _, _, _, _, _, h, _ => by simp [StepsAcc] at h
  | s :: ss, s' :: ss', N, Z, Z', hZ, hZ', h, hC => by
      rw [StepsAcc] at h
      obtain ⟨h1, h2, h3, h4, h5, h6, h7⟩ := h
      rw [List.length_cons, Nat.add_one_mul ss.length] at hC
      refine .cons (fun x => ?_) (StepsAcc.alpha hu hu1 (mul_pos hZ h1) (mul_pos hZ' h2) h7 (by omega))
      have := (h3 x).div hu1 h4 (mul_pos hZ h1) (mul_pos hZ' h2)
      rw [mul_div_cancel_left₀ _ (mul_pos hZ h1).ne', mul_div_cancel_left₀ _ (mul_pos hZ' h2).ne'] at this
      exact this.mono hu hu1 (by omega)

/-- the product of the normalisation constants -/
theorem StepsAcc.prod (hu : 0 ≤ u) (hu1 : u < 1) {G eL k : ℕ} : ∀ {ss ss' : List (Step K gs)} {N : ℕ} {Z Z' : K}, Acc u N Z Z' → StepsAcc u G eL k N Z Z' ss ss' →
    Acc u (N + ss.length * (eL + 2 + G + k)) (Z * (ss.map Step.norm).prod) (Z' * (ss'.map Step.norm).prod)
  | [], [], N, Z, Z', hZ, _ => by simpa using hZ
  | [], _ :: _, _, _, _, _, h => by simp [StepsAcc] at h
  | _ :: _, [], _, _, _, _, h => by simp [StepsAcc] at h
  | s :: ss, s' :: ss', N, Z, Z', hZ, h => by
      rw [StepsAcc] at h
      obtain ⟨h1, h2, h3, h4, h5, h6, h7⟩ := h
      have := StepsAcc.prod hu hu1 (h4.mono hu hu1 (by omega)) h7
      rw [List.map_cons, List.map_cons, List.prod_cons, List.prod_cons, ← mul_assoc, ← mul_assoc]
      refine this.mono hu hu1 ?_
      rw [List.length_cons, Nat.add_one_mul ss.length]
      omega

theorem StepsAcc.length {G eL k : ℕ} : ∀ {ss ss' : List (Step K gs)} {N : ℕ} {Z Z' : K}, StepsAcc u G eL k N Z Z' ss ss' → ss'.length = ss.length
  | [], [], _, _, _, _ => rfl
  | [], _ :: _, _, _, _, h => by simp [StepsAcc] at h
  | _ :: _, [], _, _, _, h => by simp [StepsAcc] at h
  | s :: ss, s' :: ss', N, Z, Z', h => by
      rw [StepsAcc] at h
      rw [List.length_cons, List.length_cons, StepsAcc.length h.2.2.2.2.2.2]

/-- one backward step -/
theorem back_acc (hu : 0 ≤ u) (hu1 : u < 1) {M eL k : ℕ} {c : K} (hc : 0 < c) {b β L L' l q q' β' : Idx gs → K} {norm' : K} (hb : ∀ x, Acc u M (b x) (c * β x)) (hL : ∀ x, Acc u eL (L x) (L' x))
    (h1 : ∀ x, Rounded u (β x * L' x) (l x)) (h2 : Passes u k (fun x => b x * L x) l q q') (h3 : RSumGrid u q' norm') (h4 : ∀ x, Rounded u (q' x / norm') (β' x)) (hs : ∑ x, q x ≠ 0) :
    ∃ c', 0 < c' ∧ ∀ x, Acc u (M + (eL + 2 + k)) (q x / ∑ y, q y) (c' * β' x) := by
  have hβ : ∀ x, 0 ≤ β x := fun x => nonneg_of_mul_nonneg_right (hb x).right hc
  have hl : ∀ x, Acc u (M + eL + 1) (b x * L x) (c * l x) := by
    intro x
    have h5 := ((h1 x).acc hu hu1 (mul_nonneg (hβ x) (hL x).right)).weight hc.le
    rw [← mul_assoc] at h5
    exact ((hb x).mul hu1 (hL x)).trans hu1 h5
  obtain ⟨c1, hc1, hq⟩ : ∃ c1, 0 < c1 ∧ ∀ x, Acc u (M + eL + 1 + k) (q x) (c1 * q' x) := by
    rcases h2 with h2 | h2
    · exact ⟨1, one_pos, fun x => by rw [one_mul]; exact (h2 x).mono hu hu1 (by omega)⟩
    · exact ⟨c, hc, h2 c _ hc.le hl⟩
  have hq0 : ∀ x, 0 ≤ q' x := fun x => nonneg_of_mul_nonneg_right (hq x).right hc1
  have hs' : 0 < ∑ x, q x := lt_of_le_of_ne (Finset.sum_nonneg fun x _ => (hq x).left) (Ne.symm hs)
  have h5 := Acc.sum Finset.univ fun x _ => hq x
  rw [← Finset.mul_sum] at h5
  have h6 : 0 < ∑ x, q' x := pos_of_mul_pos_right (h5.pos hu1 hs') hc1.le
  have h7 : 0 < norm' := (h3.acc hu hu1 hq0).pos hu1 h6
  refine ⟨c1 * norm' / ∑ y, q y, div_pos (mul_pos hc1 h7) hs', fun x => ?_⟩
  have h8 := ((h4 x).acc hu hu1 (div_nonneg (hq0 x) h7.le)).weight (div_pos (mul_pos hc1 h7) hs').le
  have h9 := (hq x).weight (w := 1 / ∑ y, q y) (by positivity)
  have e1 : c1 * norm' / (∑ y, q y) * (q' x / norm') = 1 / (∑ y, q y) * (c1 * q' x) := by field_simp
  rw [e1] at h8
  have := (h9.trans hu1 h8).mono hu hu1 (M := M + (eL + 2 + k)) (by omega)
  rwa [one_div_mul_eq_div] at this

/-- the backward loop -/
theorem bwd_acc [Nonempty (Idx gs)] {E E' : Env K gs} (hE : Twin E E') (hu : 0 ≤ u) (hu1 : u < 1) {e eL C : ℕ} {tm : TM K} (hL : Linear E tm) (hR : ResetFree tm ∨ E'.prior = E.prior ∧ ∃ r, E.resetArr = some r)
    {ss' : List (Step K gs)} {posts' : List (Idx gs → K)} {β' : Idx gs → K} (h' : RBwd E' tm u e ss' posts' β') : ∀ {ss : List (Step K gs)} {N : ℕ} {Z Z' : K}, 0 < Z → 0 < Z' →
    StepsAcc u (Fintype.card (Idx gs)) eL (elements tm * e) N Z Z' ss ss' → 2 * (N + 1 + ss.length * (eL + 2 + Fintype.card (Idx gs) + elements tm * e)) + Fintype.card (Idx gs) + 1 ≤ C →
    ∀ {o : BwdOut K gs}, bwdPass E tm ss = .ok o → o.stopped = false →
      List.Forall₂ (fun c p' => ∃ p, c = Cell.val p ∧ ∀ x, Acc u C (p x) (p' x)) o.posts posts' ∧
      ∀ b, o.beta = some b → ∃ c, 0 < c ∧ ∀ x, Acc u (1 + ss.length * (eL + 2 + elements tm * e)) (b x) (c * β' x) := by
  induction h' with
  | @start β s h1 h2 =>
      intro ss N Z Z' hZ hZ' hs hC o h ho
      cases ss with
      | cons => simp [StepsAcc] at hs
      | nil =>
        rw [bwdPass, Except.ok.injEq] at h
        subst h
        refine ⟨.nil, fun b hb => ?_⟩
        have hG : (0 : K) < Fintype.card (Idx gs) := card_pos_K
        have h3 := h1.acc hu hu1 fun _ => zero_le_one
        have hs1 : ∑ _x : Idx gs, (1 : K) = Fintype.card (Idx gs) := by rw [sum_const_card, mul_one]
        rw [hs1] at h3
        have hsp : 0 < s := h3.pos hu1 hG
        dsimp only at hb
        rw [normalize, hs1, if_neg hG.ne', Option.some.injEq] at hb
        subst hb
        refine ⟨s / Fintype.card (Idx gs), div_pos hsp hG, fun x => ?_⟩
        have h4 := ((h2 x).acc hu hu1 (by positivity)).weight (div_pos hsp hG).le
        have e1 : s / (Fintype.card (Idx gs) : K) * (1 / s) = 1 / Fintype.card (Idx gs) := by field_simp
        rw [e1] at h4
        simpa using h4
  | @step β q' post' l b' β' s' ss' posts' norm norm' _ h1 h2 h3 h4 h5 h6 h7 h8 ih =>
      intro ss N Z Z' hZ hZ' hs hC o h ho
      cases ss with
      | nil => simp [StepsAcc] at hs
      | cons s ss =>
        rw [StepsAcc] at hs
        obtain ⟨k1, k2, k3, k4, k5, k6, k7⟩ := hs
        have hG : 1 ≤ Fintype.card (Idx gs) := Fintype.card_pos
        have hM : ss.length * (eL + 2 + elements tm * e) ≤ ss.length * (eL + 2 + Fintype.card (Idx gs) + elements tm * e) := Nat.mul_le_mul_left _ (by omega)
        rw [List.length_cons, Nat.add_one_mul ss.length] at hC
        rw [bwdPass] at h
        simp only [bind, Except.bind] at h
        generalize ho' : bwdPass E tm ss = o' at h
        cases o' with
        | error _ => simp at h
        | ok o' =>
          dsimp only at h
          by_cases hst : o'.stopped = true
          · rw [if_pos hst, Except.ok.injEq] at h
            subst h
            simp [hst] at ho
          · rw [if_neg hst] at h
            obtain ⟨i1, i2⟩ := ih (mul_pos hZ k1) (mul_pos hZ' k2) k7 (by omega) ho' (by simpa using hst)
            generalize hbt : o'.beta = bt at h i2
            cases bt with
            | none =>
                simp only [Except.ok.injEq] at h
                subst h
                simp at ho
            | some b =>
              dsimp only at h
              obtain ⟨c, hc, hb⟩ := i2 b rfl
              split_ifs at h with hn
              · generalize hnb : tm.bwd E 0 (some fun x => b x * s.lik x) s.t = nb at h
                cases nb with
                | error _ => simp at h
                | ok nb =>
                  simp only [Except.ok.injEq] at h
                  subst h
                  dsimp only
                  rw [bwd_eq_fwd tm hL] at hnb
                  rw [k6] at h6
                  obtain ⟨q0, rfl, hq0⟩ := fwd_passes hE hu hu1 e tm hL hR 0 _ _ l b' nb hnb h6
                  have hβ : ∀ x, 0 ≤ β x := fun x => nonneg_of_mul_nonneg_right (hb x).right hc
                  have hα : ∀ x, 0 ≤ s'.alpha x := fun x => nonneg_of_mul_nonneg_right (k3 x).right (mul_pos hZ' k2)
                  -- posterior
                  have hq1 : ∀ x, Acc u (N + eL + 2 + (1 + ss.length * (eL + 2 + elements tm * e)) + 1) (Z * s.norm * (s.alpha x * b x)) (Z' * s'.norm * c * q' x) := by
                    intro x
                    have h9 := (k3 x).mul hu1 (hb x)
                    have h10 := ((h1 x).acc hu hu1 (mul_nonneg (hα x) (hβ x))).weight (mul_pos (mul_pos hZ' k2) hc).le
                    have e1 : Z' * s'.norm * c * (s'.alpha x * β x) = Z' * s'.norm * s'.alpha x * (c * β x) := by ring
                    rw [e1] at h10
                    have := h9.trans hu1 h10
                    rwa [mul_assoc (Z * s.norm)] at this
                  have hq2 := Acc.sum Finset.univ fun x _ => hq1 x
                  rw [← Finset.mul_sum, ← Finset.mul_sum] at hq2
                  have hzc := mul_pos (mul_pos hZ' k2) hc
                  have hq3 := hq2.trans hu1 ((h2.acc hu hu1 fun x => nonneg_of_mul_nonneg_right (hq1 x).right hzc).weight hzc.le)
                  refine ⟨.cons ⟨_, rfl, fun x => ?_⟩ i1, ?_⟩
                  · have h9 := (hq1 x).div hu1 hq3 (mul_pos (mul_pos hZ k1) hn) (mul_pos hzc h3)
                    rw [mul_div_mul_left _ _ (mul_pos hZ k1).ne', mul_div_mul_left _ _ hzc.ne'] at h9
                    have h10 := (h4 x).acc hu hu1 (div_nonneg (nonneg_of_mul_nonneg_right (hq1 x).right hzc) h3.le)
                    exact (h9.trans hu1 h10).mono hu hu1 (by omega)
                  · intro b1 hb1
                    rw [Option.bind_some, normalize] at hb1
                    split_ifs at hb1 with hz
                    simp only [Option.some.injEq] at hb1
                    subst hb1
                    have := back_acc hu hu1 hc hb k5 h5 hq0 h7 h8 hz
                    rw [List.length_cons, Nat.add_one_mul ss.length, ← add_assoc]
                    exact this
              · simp only [Except.ok.injEq] at h
                subst h
                simp at ho

end BL
