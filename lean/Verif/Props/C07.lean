import Verif.Props.Ex
import Verif.Lemmas.Nonneg

/-! # C07: stored posteriors are probability distributions, means lie inside the grid -/

set_option linter.unusedSectionVars false

namespace Props
open BL

variable {K : Type} [Field K] [LinearOrder K] [IsStrictOrderedRing K] {d : ℕ} {gs : Fin d → ℕ}

/-- **C07 (normalisation).** For EVERY transition model (all kinds, all nestings), prior, data (any sign) and timestamps: if the fit
ends with non-zero evidence, one posterior per data point is stored and each sums to one. -/
theorem C07_normalised (E : Env K gs) (grid : (a : Fin d) → Fin (gs a) → K) (tm : TM K) (Ls : List (Idx gs → K)) (ts : List K)
    (fo : Bool) (S S' : FitState K gs) (h : fit E grid tm Ls ts fo false S = .ok S') (hfin : S'.logEv ≠ LogV.ninf) :
    S'.posts.length = Ls.length ∧ ∀ c ∈ S'.posts, ∃ p, c = .val p ∧ ∑ x, p x = 1 := by
  simp only [fit, bind, Except.bind] at h
  split at h
  · simp at h
  · split at h
    · simp at h
    · rename_i _ ap hap _ r hr
      obtain ⟨hs, hlen⟩ := fwdPass_sum _ _ _ _ _ _ hr
      split at h
      · cases h; simp at hfin
      · rename_i hst
        have hlen := hlen (by simpa using hst)
        simp only [Bool.false_eq_true, if_false] at h
        split at h
        · cases h
          refine ⟨by simp [hlen], ?_⟩
          intro c hc
          obtain ⟨s, hs', rfl⟩ := List.mem_map.1 hc
          exact ⟨_, rfl, hs s hs'⟩
        · split at h
          · simp at h
          · rename_i b hb
            split at h
            · cases h; simp at hfin
            · rename_i hbs
              cases h
              obtain ⟨h1, h2⟩ := bwdPass_sum _ b hb (by simpa using hbs)
              exact ⟨by rw [h2, hlen], h1⟩

/-- **C07.** If moreover the likelihoods and the prior values are non-negative and the external functions (filter weights, alpha-stable
and bivariate kernels, spline shift) do not create negative values, every stored posterior is non-negative and every
posterior mean lies between any lower and upper bound of the grid values of that parameter. -/
theorem C07_distribution (E : Env K gs) (grid : (a : Fin d) → Fin (gs a) → K) (tm : TM K) (Ls : List (Idx gs → K)) (ts : List K)
    (fo : Bool) (S S' : FitState K gs) (hX : ExtNN E.ext) (hl : ∀ a, 0 ≤ E.lattice a) (hpr : PriorNN S.prior)
    (hL : ∀ L ∈ Ls, ∀ x, 0 ≤ L x) (h : fit E grid tm Ls ts fo false S = .ok S') (hfin : S'.logEv ≠ LogV.ninf) :
    (∀ c ∈ S'.posts, ∃ p, c = .val p ∧ (∀ x, 0 ≤ p x) ∧ ∑ x, p x = 1) ∧
    ∀ a lo hi, (∀ i, lo ≤ grid a i ∧ grid a i ≤ hi) →
      (S'.means a).length = Ls.length ∧ ∀ m ∈ S'.means a, lo ≤ m ∧ m ≤ hi := by
  obtain ⟨hlen0, hsum⟩ := C07_normalised E grid tm Ls ts fo S S' h hfin
  simp only [fit, bind, Except.bind] at h
  split at h
  · simp at h
  · split at h
    · simp at h
    · rename_i _ ap hap _ r hr
      obtain ⟨a0, pr0⟩ := ap
      obtain ⟨hn1, hn2⟩ := computePrior_NN (E := { E with prior := S.prior }) hl hpr hap
      obtain ⟨hinv, hprr⟩ := fwdPass_inv hX hl _ _ _ _ _ _ hL hn2 hn1 hr
      split at h
      · cases h; simp at hfin
      · simp only [Bool.false_eq_true, if_false] at h
        split at h
        · cases h
          refine ⟨?_, ?_⟩
          · intro c hc
            obtain ⟨s, hs', rfl⟩ := List.mem_map.1 hc
            exact ⟨_, rfl, (hinv s hs').1, (hinv s hs').2.1⟩
          · intro a lo hi hg
            refine ⟨by simpa using hlen0, ?_⟩
            intro m hm
            obtain ⟨s, hs', rfl⟩ := List.mem_map.1 hm
            exact mean_bounds hg (hinv s hs').1 (hinv s hs').2.1
        · split at h
          · simp at h
          · rename_i b hb
            split at h
            · cases h; simp at hfin
            · cases h
              obtain ⟨hb1, -⟩ := bwdPass_NN (E := { E with prior := r.prior }) hX hl hprr _ b (fun s hs => ⟨(hinv s hs).1, (hinv s hs).2.2.1⟩) hb
              have hall : ∀ c ∈ b.posts, ∃ p, c = .val p ∧ (∀ x, 0 ≤ p x) ∧ ∑ x, p x = 1 := by
                intro c hc
                obtain ⟨p, hp, hp1⟩ := hsum c hc
                exact ⟨p, hp, hb1 c hc p hp, hp1⟩
              refine ⟨hall, ?_⟩
              intro a lo hi hg
              constructor
              · rw [← hlen0]
                have : ∀ l : List (Cell (Idx gs → K)), (∀ c ∈ l, ∃ p, c = .val p ∧ (∀ x, 0 ≤ p x) ∧ ∑ x, p x = 1) →
                    (l.filterMap fun c => c.get?.map (mean grid a)).length = l.length := by
                  intro l
                  induction l with
                  | nil => simp
                  | cons c l ih =>
                      intro hl
                      obtain ⟨p, rfl, -⟩ := hl c (by simp)
                      have := ih fun c' h' => hl c' (by simp [h'])
                      rw [List.filterMap_cons]
                      simp only [Cell.get?, Option.map_some, List.length_cons]
                      exact congrArg (· + 1) this
                exact this _ hall
              · intro m hm
                obtain ⟨c, hc, hcm⟩ := List.mem_filterMap.1 hm
                obtain ⟨p, rfl, hp0, hp1⟩ := hall c hc
                simp only [Cell.get?, Option.map_some, Option.some.injEq] at hcm
                rw [← hcm]
                exact mean_bounds hg hp0 hp1

/-- a nonlinear nested model: walk, then RegimeSwitch combined with NotEqual -/
def exNonlinear : TM ℚ := Ex.ser true 1 (Ex.grw 1) (.combined [Ex.regime, .leaf .notEqual ["p"] [.scalar 2] none])

example : ExtNN (Ex.ext Ex.gs3) where
  gauss := by intro s k; simp only [Ex.ext]; split <;> norm_num
  stable := by intro a b k; simp only [Ex.ext]; split <;> norm_num
  biv := by intro a b c k l; simp only [Ex.ext]; split <;> norm_num
  shift := by intro a s p h x; exact h x

/-- the hypotheses are met by a nonlinear nested model -/
example : ∃ S', fit (Ex.env Ex.gs3 (1 / 2)) (Ex.grid Ex.gs3) exNonlinear
    [Ex.v3 1 2 3, Ex.v3 1 1 0, Ex.v3 1 0 2, Ex.v3 2 1 1] [0, 1, 2, 3] false false (Ex.S0 (.func (Ex.v3 1 2 4))) = .ok S' ∧
    S'.logEv ≠ LogV.ninf :=
  Ex.ok_of_ev (by decide +kernel)

end Props
