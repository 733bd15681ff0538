import Verif.Model.RoundingHyper

/-!
# `OnlineStudy.step` in floating-point arithmetic (core.py 2105-2215)

As in Model/Rounding.lean and Model/RoundingHyper.lean, a run of the program is any sequence of intermediate results with the stated accuracy.  The updates of the single hypotheses have relative errors of
at most `u` per operation (no underflow); the sums over hyper-parameter values and over transition models are computed in log-space with accuracy `κ`, exponentials may underflow (error `τ`).
-/

namespace BL

variable {d : ℕ} {gs : Fin d → ℕ}

/-- Product of the predictive distribution `b` with the likelihood `L`, sum and quotient, core.py 2164-2168 and 2175.  A vanishing sum, which makes the posterior nan, is not considered. -/
def ROAbsorb (u : ℝ) (b L : Idx gs → ℝ) (norm : ℝ) (post : Idx gs → ℝ) : Prop :=
  ∃ α : Idx gs → ℝ, (∀ x, Rounded u (b x * L x) (α x)) ∧ RSumGrid u α norm ∧ 0 < norm ∧ ∀ x, Rounded u (α x / norm) (post x)

/-- All updates of one hypothesis, core.py 2128, 2156-2175, for the likelihoods of the data segments analysed so far: computed posterior, normalisation constants and entry of `logEvidenceList`.  `a` is the
computed prior, `c` the computed cell volume of the parameter grid; the transition model is called with time `-1` (`len(self.formattedData)-1`, `formattedData` is never set). -/
inductive ROHyp (E : Env ℝ gs) (tm : TM ℝ) (u : ℝ) (e : ℕ) (a : Idx gs → ℝ) (c : ℝ) : List (Idx gs → ℝ) → (Idx gs → ℝ) → List ℝ → ℝ → Prop
  | first {L post : Idx gs → ℝ} {norm lc ln le : ℝ} : ROAbsorb u a L norm post → Rounded u (Real.log c) lc → Rounded u (Real.log norm) ln → Rounded u (lc + ln) le →
      ROHyp E tm u e a c [L] post [norm] le
  | next {Ls : List (Idx gs → ℝ)} {L post b post' : Idx gs → ℝ} {norms : List ℝ} {norm ln le le' : ℝ} : ROHyp E tm u e a c Ls post norms le → tm.rounded E u e post (-1) b →
      ROAbsorb u b L norm post' → Rounded u (Real.log norm) ln → Rounded u (le + ln) le' → ROHyp E tm u e a c (Ls ++ [L]) post' (norms ++ [norm]) le'

/-- `logEvidenceList[i][j] + np.log(hyperPriorValues[i][j])`, core.py 2172, 2179; `hyperLogEvidenceList + np.log(transitionModelPrior)`, 2215: a prior value of zero gives `-inf`. -/
def ROLog (κ hp le : ℝ) (r : Option ℝ) : Prop := if hp = 0 then r = none else ∃ a l, Near κ (Real.log hp) a ∧ Near κ (le + a) l ∧ r = some l

/-- `scipy.misc.logsumexp`, core.py 2179, 2215: `np.log(np.sum(np.exp(l - amax))) + amax` -/
def RLogSumExp (κ τ : ℝ) {ι : Type} [Fintype ι] (l : ι → Option ℝ) (L : ℝ) : Prop :=
  ∃ (m : ℝ) (v : ι → ℝ) (s a : ℝ), IsGreatest {y | ∃ i, l i = some y} m ∧ (∀ i, RShift κ τ m (l i) (v i)) ∧ RSum κ (Finset.univ.val.map v) s ∧ Near κ (Real.log s) a ∧ Near κ (a + m) L

/-- `l -= np.amax(l)`, `l = np.exp(l)`, `l /= np.sum(l)`, core.py 2185-2187, 2200-2202, 2204-2206 -/
def RWeights (κ τ : ℝ) {ι : Type} [Fintype ι] (l : ι → Option ℝ) (q : ι → ℝ) : Prop :=
  ∃ (m : ℝ) (v : ι → ℝ) (s : ℝ), IsGreatest {y | ∃ i, l i = some y} m ∧ RSoft κ τ m l v s q

/-- One transition model after the update of its `n` hypotheses (log-evidences `le`, posteriors `post`), core.py 2171-2197: prior values `hp`, computed product `c` of the hyper-grid constants (`1` if there
are none, then line 2189 is not executed); results: distribution `D` of the hyper-parameters, entry `L` of `hyperLogEvidenceList`, posterior `Q`. -/
structure ROModel (κ τ : ℝ) {n : ℕ} (le hp : Fin n → ℝ) (post : Fin n → Idx gs → ℝ) (c : ℝ) (D : Fin n → ℝ) (L : ℝ) (Q : Idx gs → ℝ) : Prop where
  evidence : ∃ l : Fin n → Option ℝ, (∀ j, ROLog κ (hp j) (le j) (l j)) ∧ RLogSumExp κ τ l L
  hpd : ∃ (l : Fin n → Option ℝ) (q : Fin n → ℝ), (∀ j, ROLog κ (hp j) (le j) (l j)) ∧ RWeights κ τ l q ∧ ∀ j, RTiny κ τ (q j / c) (D j)
  post : ∀ x, ∃ y z : Fin n → ℝ, (∀ j, RTiny κ τ (post j x * D j) (y j)) ∧ (∀ j, RTiny κ τ (y j * c) (z j)) ∧ RSum κ (Finset.univ.val.map z) (Q x)

/-- Combination of `r` transition models, core.py 2180, 2199-2215: entries `L` of `hyperLogEvidenceList`, posteriors `Q`, prior probabilities `π` of the models; results: distribution `w` of the models,
posterior `P`, log-evidence `Λ`. -/
structure ROCombine (κ τ : ℝ) {r : ℕ} (L π : Fin r → ℝ) (Q : Fin r → Idx gs → ℝ) (w : Fin r → ℝ) (P : Idx gs → ℝ) (Λ : ℝ) : Prop where
  tmd : RWeights κ τ (fun i => some (L i)) w
  marg : ∀ x, ∃ z : Fin r → ℝ, (∀ i, RTiny κ τ (Q i x * w i) (z i)) ∧ RSum κ (Finset.univ.val.map z) (P x)
  evidence : ∃ l : Fin r → Option ℝ, (∀ i, ROLog κ (π i) (L i) (l i)) ∧ RLogSumExp κ τ l Λ

/-- Local distribution of the transition models, core.py 2181-2182, 2204-2206: `Lo` and `L` are the entries of `hyperLogEvidenceList` before and after the update. -/
def ROLocal (κ τ : ℝ) {r : ℕ} (Lo L π : Fin r → ℝ) (w : Fin r → ℝ) : Prop :=
  ∃ (δ : Fin r → ℝ) (l : Fin r → Option ℝ), (∀ i, Near κ (L i - Lo i) (δ i)) ∧ (∀ i, ROLog κ (π i) (δ i) (l i)) ∧ RWeights κ τ l w

end BL
