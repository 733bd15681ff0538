import Verif.Props.C100
import Verif.Props.C121
import Verif.Props.C109

/-! # C123: the results of an online study are calibrated -/

set_option linter.unusedSectionVars false

open MeasureTheory
open scoped ENNReal

namespace Spec
open BL
variable {d : ℕ} {gs : Fin d → ℕ} {D : Type}

/-- One of several transition models, together with one of its combinations of hyper-parameter values. -/
abbrev Hypothesis {M : ℕ} (G : Fin M → HyperGrid ℝ) : Type := (i : Fin M) × Fin (combinations (G i)).length

/-- Prior probability of a transition model (all equally probable) with a combination of hyper-parameter values: `1 / M` times prior density times volume of a cell of the hyper-grid. -/
noncomputable def hypothesisPrior {M : ℕ} (G : Fin M → HyperGrid ℝ) (ρ : Fin M → List ℝ) (u : Hypothesis G) : ℝ := 1 / (M : ℝ) * ((ρ u.1).getD u.2 0 * (G u.1).hgc.prod)

/-- The transition model with its combination of hyper-parameter values. -/
noncomputable def hypothesisModel (ms : List (String × TM ℝ)) (G : Fin ms.length → HyperGrid ℝ) (u : Hypothesis G) : TM ℝ := modelAt ms[u.1].2 (combinations (G u.1))[u.2]

/-- The probability that an online study currently reports for a set of transition models. -/
def modelProbIn {M : ℕ} (r : Except PyErr (OState ℝ D gs)) (A : Finset (Fin M)) : ℝ :=
  match r with
  | .ok R => ∑ i ∈ A, (R.tmd.getD []).getD i 0
  | .error _ => 0

/-- The probability that an online study currently reports for a set of transition models with hyper-parameter values: probability of the transition model times probability of the values in the hyper-parameter distribution of this model. -/
noncomputable def hypothesisProbIn {M : ℕ} (G : Fin M → HyperGrid ℝ) (r : Except PyErr (OState ℝ D gs)) (A : Finset (Hypothesis G)) : ℝ :=
  match r with
  | .ok R => ∑ u ∈ A, (R.tmd.getD []).getD u.1 0 * (((R.models[(u.1 : ℕ)]?.bind OModelSt.hpd).getD []).getD u.2 0 * (G u.1).hgc.prod)
  | .error _ => 0

/-- The probability that an online study currently reports for a set of parameter values. -/
def currentProbIn (r : Except PyErr (OState ℝ D gs)) (A : Finset (Idx gs)) : ℝ :=
  match r with
  | .ok R => match R.marg with
    | some Q => ∑ x ∈ A, Q x
    | none => 0
  | .error _ => 0

/-- The mean value that an online study currently reports for a parameter. -/
noncomputable def currentMeanOf (c : OConf ℝ D gs) (name : String) (r : Except PyErr (OState ℝ D gs)) : ℝ :=
  match r with
  | .ok R => match R.getCurrentMean c name with
    | .ok (some v) => v
    | _ => 0
  | .error _ => 0

end Spec

namespace Props
open BL Spec

variable {K : Type} [Field K] [LinearOrder K] [IsStrictOrderedRing K] {d : ℕ} {gs : Fin d → ℕ} {D : Type}

theorem overAll_getD (f : List K → K) : ∀ (rows : List (List K)) (ps : List K), overAll rows ps f = ∑ j : Fin rows.length, ps.getD j 0 * f rows[j]
  | [], ps => by simp [overAll]
  | r :: rows, [] => by simp [overAll]
  | r :: rows, p :: ps => by
      have ih := overAll_getD f rows ps
      unfold overAll at ih ⊢
      rw [List.zip_cons_cons, List.map_cons, List.sum_cons, ih]
      change _ = ∑ j : Fin (rows.length + 1), _
      rw [Fin.sum_univ_succ]
      rfl

/-- every combination of hyper-parameter values of a random walk makes a random walk -/
theorem live_linear {E : Env K gs} {ms : List (String × TM K)} (hg : LiveModels E ms) (hnd : (ms.flatMap fun q => (entries q.2).map (·.1)).Nodup) {q : String × TM K} (hq : q ∈ ms) (w : WalkModel E q.2) {g : HyperGrid K}
    (hgr : createHyperGrid q.2 [] = .ok g) {r : List K} (hr : r ∈ combinations g) : Linear E (modelAt q.2 r) ∧ ResetFree (modelAt q.2 r) := by
  obtain ⟨g1, g2, g3⟩ := hg q hq
  obtain ⟨k1, ⟨ps, k2, k3, k4⟩, k5⟩ := g3 g hgr
  have hb := Built.matched g1
  have h0 : g.rows.length = 0 → entries q.2 = [] := by
    intro hz
    by_contra hc
    have := weights_len hb hc hgr k2
    rw [hz] at this
    exact k3 (List.length_eq_zero_iff.1 this)
  exact modelAt_walk w ((List.nodup_flatMap.1 hnd).1 q hq) (combos_length hb.proper hgr h0 r hr)

/-- with likelihoods that are positive everywhere, no combination rules out the data -/
theorem live_walks {c : OConf K D gs} {ms : List (String × TM K)} (hE : Regular c.E) (hX : ProperExt c.E.ext) (hg : LiveModels c.E ms) (hnd : (ms.flatMap fun q => (entries q.2).map (·.1)).Nodup)
    (hwm : ∀ q ∈ ms, WalkModel c.E q.2 ∧ Timeless q.2) {prior : PriorSpec K gs} (hpr : FullPrior prior) {π : Idx gs → K} (hp : PriorMass c.E.cell prior π) {n : ℕ} {L : Fin (n + 1) → Idx gs → K} (hL : ∀ i x, 0 < L i x)
    (τ : Fin (n + 1) → K) : Walks c.E π τ L ms := by
  have := hE.nonempty
  intro q hq
  obtain ⟨w1, w2⟩ := hwm q hq
  obtain ⟨g1, g2, g3⟩ := hg q hq
  have hn : ((entries q.2).map (·.1)).Nodup := (List.nodup_flatMap.1 hnd).1 q hq
  refine ⟨w1, w2, hn, fun g hgr => ?_⟩
  obtain ⟨k1, ⟨ps, k2, k3, k4⟩, k5⟩ := g3 g hgr
  refine ⟨k1.ne', fun ps' h => ?_, fun r hr => ?_⟩
  · rw [k2] at h
    cases h
    obtain ⟨p, hp⟩ := List.exists_mem_of_ne_nil _ k3
    exact ⟨p, hp, (k4 p hp).ne'⟩
  · have hb := Built.matched g1
    have h0 : g.rows.length = 0 → entries q.2 = [] := by
      intro hz
      by_contra hc
      have := weights_len hb hc hgr k2
      rw [hz] at this
      exact k3 (List.length_eq_zero_iff.1 this)
    rw [hypotheses_eq hb.proper h0] at k5
    obtain ⟨u1, u2⟩ := modelAt_walk w1 hn (combos_length hb.proper hgr h0 r hr)
    let T : FitState K gs := ⟨prior, [], fun _ => [], 0, []⟩
    obtain ⟨F, f1, f2⟩ := C01_evidence_is_path_sum c.E c.grid _ hE u1 u2 T π hp L (fun i x => (hL i x).le) τ true false (.inr (.inl rfl))
    obtain ⟨F', f3, f4, -⟩ := C70_partial c.E c.grid _ T hE.nonempty hE.lattice_pos hX (k5 _ (List.mem_map_of_mem hr)) hpr (List.ofFn L) (List.ofFn τ) (by simp) (by
      intro l hl
      obtain ⟨i, rfl⟩ := List.mem_ofFn.1 hl
      exact hL i) true false
    rw [f1] at f3
    cases f3
    rw [f2] at f4
    exact f4.ne'

/-- the current report of an online study, in terms of prior probabilities and evidences of all hypotheses -/
theorem online_report (c : OConf ℝ D gs) (h1 : 1 ≤ c.seg) (ms : List (String × TM ℝ)) (hg : GoodModels ms) (hnn : NonnegPriors ms) (hne : ms ≠ []) (hE : Regular c.E) (store : Bool)
    (prior : PriorSpec ℝ gs) (hn : prior.isArray = false) (π : Idx gs → ℝ) (hp : PriorMass c.E.cell prior π) (p : Option (List ℝ)) (S R : OState ℝ D gs) (hs : setup store prior ms p = .ok S) (xs : List D)
    {n : ℕ} (L : Fin (n + 1) → Idx gs → ℝ) (hls : segLiks c xs = List.ofFn L) (hL0 : ∀ i x, 0 ≤ L i x) (τ : Fin (n + 1) → ℝ) (hw : Walks c.E π τ L ms)
    (hr : runSteps c S xs = .ok R) (hx : c.seg ≤ xs.length) (G : Fin ms.length → HyperGrid ℝ) (ρ : Fin ms.length → List ℝ) (hG : ∀ i : Fin ms.length, createHyperGrid ms[i].2 [] = .ok (G i))
    (hρ : ∀ i, (G i).priors = some (ρ i)) (κ : ℝ) (hκ : ∀ i, (G i).hgc.prod = κ) (ev : Hypothesis G → ℝ) (hev : ∀ u, ev u = rowEvidence c.E π ms[u.1].2 τ L (combinations (G u.1))[u.2]) :
    (∀ i : Fin ms.length, (R.tmd.getD []).getD i 0 = (∑ j : Fin (combinations (G i)).length, hypothesisPrior G ρ ⟨i, j⟩ * ev ⟨i, j⟩) / ∑ u, hypothesisPrior G ρ u * ev u) ∧
    (∀ u : Hypothesis G, (R.tmd.getD []).getD u.1 0 * (((R.models[(u.1 : ℕ)]?.bind OModelSt.hpd).getD []).getD u.2 0 * (G u.1).hgc.prod) = hypothesisPrior G ρ u * ev u / ∑ u, hypothesisPrior G ρ u * ev u) ∧
    ∃ Q, R.marg = some Q ∧ (∀ f : Idx gs → ℝ, ∑ x, Q x * f x =
      (∑ u : Hypothesis G, hypothesisPrior G ρ u * (ev u * ∑ x, rowPosterior c.E π ms[u.1].2 τ L (combinations (G u.1))[u.2] (Fin.last n) x * f x)) / ∑ u, hypothesisPrior G ρ u * ev u) ∧
      ∀ name a, paramIndex c.E.names name = some a → R.getCurrentMean c name = .ok (some (∑ x, Q x * c.grid a (x a))) := by
  obtain ⟨e1, ⟨Q, e2, e3⟩, -⟩ := C120_models_partial c h1 ms hg hnn hne hE store prior hn π hp p S R hs xs L hls hL0 τ hw hr hx G ρ hG hρ κ hκ
  have hex := online_exact c h1 ms hg hnn hne hE store prior hn π hp p S R hs xs L hls hL0 τ hw hr hx
  have hlen := hex.length_eq
  have hM : (ms.length : ℝ) ≠ 0 := Nat.cast_ne_zero.2 (by simpa using hne)
  have hκ0 : κ ≠ 0 := by
    rw [← hκ ⟨0, List.length_pos_iff.2 hne⟩]
    exact ((hw _ (List.getElem_mem _)).2.2.2 _ (hG ⟨0, List.length_pos_iff.2 hne⟩)).1
  have hO : ∀ (i : Fin ms.length) (F : List ℝ → ℝ), ∑ j : Fin (combinations (G i)).length, hypothesisPrior G ρ ⟨i, j⟩ * F (combinations (G i))[j] = 1 / (ms.length : ℝ) * (overAll (combinations (G i)) (ρ i) F * κ) := by
    intro i F
    rw [overAll_getD, Finset.sum_mul, Finset.mul_sum]
    refine Finset.sum_congr rfl fun j _ => ?_
    simp only [hypothesisPrior, hκ]
    ring
  have hmE : ∀ i : Fin ms.length, ∑ j : Fin (combinations (G i)).length, hypothesisPrior G ρ ⟨i, j⟩ * ev ⟨i, j⟩ = 1 / (ms.length : ℝ) * modelEvidence c.E π ms[i].2 (G i) (ρ i) τ L := by
    intro i
    rw [modelEvidence_eq, hκ, ← hO i]
    exact Finset.sum_congr rfl fun j _ => by rw [hev]
  have htot : ∑ u, hypothesisPrior G ρ u * ev u = 1 / (ms.length : ℝ) * ∑ i : Fin ms.length, modelEvidence c.E π ms[i].2 (G i) (ρ i) τ L := by
    rw [Fintype.sum_sigma, Finset.mul_sum]
    exact Finset.sum_congr rfl fun i _ => hmE i
  have hM' : 1 / (ms.length : ℝ) ≠ 0 := one_div_ne_zero hM
  have ht : ∀ i : Fin ms.length, (R.tmd.getD []).getD i 0 = modelEvidence c.E π ms[i].2 (G i) (ρ i) τ L / ∑ j : Fin ms.length, modelEvidence c.E π ms[j].2 (G j) (ρ j) τ L := by
    intro i
    rw [e1, Option.getD_some, List.getD_eq_getElem?_getD, List.getElem?_ofFn, dif_pos i.2, Option.getD_some]
  have hget : ∀ i : Fin ms.length, 0 < overAll (combinations (G i)) (ρ i) (rowEvidence c.E π ms[i].2 τ L) ∧ (ρ i).length = (combinations (G i)).length ∧
      (R.models[i.val]'(by omega)).hpd = some (((combinations (G i)).zip (ρ i)).map fun a => a.2 * rowEvidence c.E π ms[i].2 τ L a.1 / overAll (combinations (G i)) (ρ i) (rowEvidence c.E π ms[i].2 τ L) / (G i).hgc.prod) := by
    intro i
    obtain ⟨-, g2, ps, g3, g7, g4, g5, -⟩ := List.Forall₂.get hex i.2 (by omega)
    have e := hG i
    simp only [List.get_eq_getElem] at g2 g3 g4 g5 g7
    rw [Fin.getElem_fin, g2] at e
    have e' := Except.ok.inj e
    have e2 := hρ i
    rw [← e', g3] at e2
    cases e2
    rw [← e']
    exact ⟨g4, g7, g5⟩
  refine ⟨fun i => ?_, fun u => ?_, Q, e2, fun f => ?_, fun name a ha => ?_⟩
  · rw [ht, hmE, htot, mul_div_mul_left _ _ hM']
  · obtain ⟨k1, k2, k3⟩ := hget u.1
    rw [ht, List.getElem?_eq_getElem (by omega), Option.bind_some, k3, Option.getD_some, List.getD_eq_getElem?_getD, List.getElem?_map, List.getElem?_eq_getElem (by rw [List.length_zip, k2]; simp), Option.map_some,
      Option.getD_some, List.getElem_zip, hev, modelEvidence_eq, htot, hκ]
    have hgd : (ρ u.1).getD u.2 0 = (ρ u.1)[(u.2 : ℕ)]'(by omega) := by
      rw [List.getD_eq_getElem?_getD, List.getElem?_eq_getElem (by omega), Option.getD_some]
    simp only [hypothesisPrior, hκ, hgd, Fin.getElem_fin]
    have hk := k1.ne'
    simp only [Fin.getElem_fin] at hk
    field_simp
  · simp only [e3]
    rw [htot, Fintype.sum_sigma]
    have : ∀ i : Fin ms.length, (∑ j : Fin (combinations (G i)).length, hypothesisPrior G ρ ⟨i, j⟩ * (ev ⟨i, j⟩ * ∑ x, rowPosterior c.E π ms[i].2 τ L (combinations (G i))[j] (Fin.last n) x * f x)) =
        1 / (ms.length : ℝ) * ∑ x, modelEvidence c.E π ms[i].2 (G i) (ρ i) τ L * modelPosterior c.E π ms[i].2 (G i) (ρ i) τ L x * f x := by
      intro i
      obtain ⟨k1, -⟩ := hget i
      have e4 : ∀ x, modelEvidence c.E π ms[i].2 (G i) (ρ i) τ L * modelPosterior c.E π ms[i].2 (G i) (ρ i) τ L x =
          overAll (combinations (G i)) (ρ i) (fun r => rowEvidence c.E π ms[i].2 τ L r * rowPosterior c.E π ms[i].2 τ L r (Fin.last n) x) * κ := by
        intro x
        rw [modelEvidence_eq, modelPosterior, hκ, mul_right_comm, mul_div_cancel₀ _ k1.ne']
      simp only [e4]
      rw [Finset.mul_sum]
      have e5 : ∀ x, 1 / (ms.length : ℝ) * (overAll (combinations (G i)) (ρ i) (fun r => rowEvidence c.E π ms[i].2 τ L r * rowPosterior c.E π ms[i].2 τ L r (Fin.last n) x) * κ * f x) =
          ∑ j : Fin (combinations (G i)).length, hypothesisPrior G ρ ⟨i, j⟩ * (ev ⟨i, j⟩ * (rowPosterior c.E π ms[i].2 τ L (combinations (G i))[j] (Fin.last n) x * f x)) := by
        intro x
        rw [← mul_assoc, ← hO i, Finset.sum_mul]
        refine Finset.sum_congr rfl fun j _ => ?_
        rw [hev]
        ring
      simp only [e5]
      rw [Finset.sum_comm]
      refine Finset.sum_congr rfl fun j _ => ?_
      rw [Finset.mul_sum, Finset.mul_sum]
    simp only [this]
    rw [← Finset.mul_sum, mul_div_mul_left _ _ hM', Finset.sum_comm, Finset.sum_div]
    refine Finset.sum_congr rfl fun x _ => ?_
    rw [div_mul_eq_mul_div, Finset.sum_mul]
  · simp only [OState.getCurrentMean, ha, e2, Option.map_some]
    rfl

/-- prior probabilities of hypotheses are not negative -/
theorem hypothesisPrior_nonneg {E : Env ℝ gs} {ms : List (String × TM ℝ)} (hg : LiveModels E ms) {G : Fin ms.length → HyperGrid ℝ} {ρ : Fin ms.length → List ℝ} (hG : ∀ i : Fin ms.length, createHyperGrid ms[i].2 [] = .ok (G i))
    (hρ : ∀ i, (G i).priors = some (ρ i)) (u : Hypothesis G) : 0 ≤ hypothesisPrior G ρ u := by
  obtain ⟨k1, ⟨ps, k2, k3, k4⟩, -⟩ := (hg _ (List.getElem_mem u.1.2)).2.2 _ (hG u.1)
  rw [hρ] at k2
  cases k2
  refine mul_nonneg (by positivity) (mul_nonneg ?_ k1.le)
  rw [List.getD_eq_getElem?_getD]
  rcases h : (ρ u.1)[(u.2 : ℕ)]? with _ | v
  · exact le_rfl
  · exact (k4 v (List.mem_of_getElem? h)).le

/-- the current report of an online study, as conditional probabilities under the weights of all hypotheses and paths -/
theorem online_given (c : OConf ℝ D gs) (h1 : 1 ≤ c.seg) (hE : Regular c.E) (hX : ProperExt c.E.ext) (ms : List (String × TM ℝ)) (hne : ms ≠ [])
    (hg : LiveModels c.E ms) (hnd : (ms.flatMap fun q => (entries q.2).map (·.1)).Nodup) (hwm : ∀ q ∈ ms, WalkModel c.E q.2 ∧ Timeless q.2) (store : Bool) (prior : PriorSpec ℝ gs) (hpr : FullPrior prior)
    (hn : prior.isArray = false) (π : Idx gs → ℝ) (hp : PriorMass c.E.cell prior π) (p : Option (List ℝ)) (S : OState ℝ D gs) (hs : setup store prior ms p = .ok S)
    (G : Fin ms.length → HyperGrid ℝ) (ρ : Fin ms.length → List ℝ) (hG : ∀ i : Fin ms.length, createHyperGrid ms[i].2 [] = .ok (G i)) (hρ : ∀ i, (G i).priors = some (ρ i)) (κ : ℝ) (hκ : ∀ i, (G i).hgc.prod = κ)
    {n : ℕ} (τ : Fin (n + 1) → ℝ) (xs : List D) (L : Fin (n + 1) → Idx gs → ℝ) (hls : segLiks c xs = List.ofFn L) (hL : ∀ i x, 0 < L i x) (w : Hypothesis G × (Fin (n + 1) → Idx gs) → ℝ)
    (hw : ∀ uz, w uz = hypothesisPrior G ρ uz.1 * pathWeight π (fun i : Fin n => kernel c.E π (hypothesisModel ms G uz.1) (τ i.castSucc)) L uz.2) :
    (∀ A, modelProbIn (runSteps c S xs) A = (∑ uz, w uz * if uz.1.1 ∈ A then 1 else 0) / ∑ uz, w uz) ∧ (∀ A, hypothesisProbIn G (runSteps c S xs) A = (∑ uz, w uz * if uz.1 ∈ A then 1 else 0) / ∑ uz, w uz) ∧
    (∀ A, currentProbIn (runSteps c S xs) A = (∑ uz, w uz * if uz.2 (Fin.last n) ∈ A then 1 else 0) / ∑ uz, w uz) ∧
    ∀ name a, paramIndex c.E.names name = some a → currentMeanOf c name (runSteps c S xs) = (∑ uz, w uz * c.grid a (uz.2 (Fin.last n) a)) / ∑ uz, w uz := by
  have := hE.nonempty
  obtain ⟨T, hT⟩ : ∃ T : Hypothesis G → Fin n → Idx gs → Idx gs → ℝ, T = fun u i => kernel c.E π (hypothesisModel ms G u) (τ i.castSucc) := ⟨_, rfl⟩
  obtain rfl : w = fun uz => hypothesisPrior G ρ uz.1 * pathWeight π (T uz.1) L uz.2 := funext fun uz => by rw [hw, hT]
  clear hw
  have hsumU : ∀ g : Hypothesis G → ℝ, ∑ uz : Hypothesis G × (Fin (n + 1) → Idx gs), hypothesisPrior G ρ uz.1 * pathWeight π (T uz.1) L uz.2 * g uz.1 = ∑ u, hypothesisPrior G ρ u * evidence π (T u) L * g u := fun g => by
    rw [Fintype.sum_prod_type]
    refine Finset.sum_congr rfl fun u _ => ?_
    rw [evidence, Finset.mul_sum, Finset.sum_mul]
  have htot : ∑ uz : Hypothesis G × (Fin (n + 1) → Idx gs), hypothesisPrior G ρ uz.1 * pathWeight π (T uz.1) L uz.2 = ∑ u, hypothesisPrior G ρ u * evidence π (T u) L := by
    have := hsumU (fun _ => 1)
    simpa only [mul_one] using this
  have hwalks : Walks c.E π τ L ms := live_walks hE hX hg hnd hwm hpr hp hL τ
  obtain ⟨R, hR, -⟩ := runSteps_total hE.lattice_pos hX h1 hg hne hnd hs hpr xs (by
    rw [hls]
    intro l hl
    obtain ⟨i, rfl⟩ := List.mem_ofFn.1 hl
    exact hL i)
  have hx : c.seg ≤ xs.length := by
    have := congrArg List.length hls
    simp only [segLiks, List.length_map, movingWindow_len, List.length_ofFn] at this
    omega
  have hne0 : ∀ u, evidence π (T u) L ≠ 0 := by
    intro u
    rw [hT]
    exact ((hwalks _ (List.getElem_mem u.1.2)).2.2.2 _ (hG u.1)).2.2 _ (List.getElem_mem u.2.2)
  obtain ⟨r1, r2, Q, q1, q2, q3⟩ := online_report c h1 ms hg.good hg.nonneg hne hE store prior hn π hp p S R hs xs L hls (fun i x => (hL i x).le) τ hwalks hR hx
    G ρ hG hρ κ hκ (fun u => evidence π (T u) L) (fun u => by rw [hT]; rfl)
  have hpost : ∀ f : Idx gs → ℝ, ∑ uz : Hypothesis G × (Fin (n + 1) → Idx gs), hypothesisPrior G ρ uz.1 * pathWeight π (T uz.1) L uz.2 * f (uz.2 (Fin.last n)) =
      ∑ u : Hypothesis G, hypothesisPrior G ρ u * (evidence π (T u) L * ∑ x, rowPosterior c.E π ms[u.1].2 τ L (combinations (G u.1))[u.2] (Fin.last n) x * f x) := by
    intro f
    rw [Fintype.sum_prod_type]
    refine Finset.sum_congr rfl fun u _ => ?_
    have e : ∀ x, rowPosterior c.E π ms[u.1].2 τ L (combinations (G u.1))[u.2] (Fin.last n) x = posterior π (T u) L (Fin.last n) x := fun x => by rw [hT]; rfl
    simp only [e]
    rw [posterior_given, show ∑ z, pathWeight π (T u) L z = evidence π (T u) L from rfl, mul_div_cancel₀ _ (hne0 u), Finset.mul_sum]
    exact Finset.sum_congr rfl fun z _ => mul_assoc _ _ _
  have hcur : ∀ f : Idx gs → ℝ, ∑ x, Q x * f x = (∑ uz : Hypothesis G × (Fin (n + 1) → Idx gs), hypothesisPrior G ρ uz.1 * pathWeight π (T uz.1) L uz.2 * f (uz.2 (Fin.last n))) /
      ∑ uz : Hypothesis G × (Fin (n + 1) → Idx gs), hypothesisPrior G ρ uz.1 * pathWeight π (T uz.1) L uz.2 := fun f => by rw [q2, htot, hpost]
  rw [hR]
  refine ⟨fun A => ?_, fun A => ?_, fun A => ?_, fun name a ha => ?_⟩
  · simp only [modelProbIn, r1]
    rw [htot, hsumU (fun u => if u.1 ∈ A then 1 else 0), ← Finset.sum_div]
    congr 1
    simp only [mul_ite, mul_one, mul_zero]
    rw [Fintype.sum_sigma, ← Finset.sum_filter_add_sum_filter_not Finset.univ (· ∈ A)]
    rw [Finset.filter_mem_eq_inter, Finset.univ_inter]
    rw [Finset.sum_eq_zero (s := Finset.univ.filter fun i => i ∉ A) fun i hi => ?_, add_zero]
    · exact Finset.sum_congr rfl fun i hi => by simp [hi]
    · have : i ∉ A := by simpa using hi
      simp [this]
  · simp only [hypothesisProbIn, r2]
    rw [htot, hsumU (fun u => if u ∈ A then 1 else 0), ← Finset.sum_div]
    congr 1
    simp only [mul_ite, mul_one, mul_zero]
    rw [Finset.sum_ite_mem, Finset.univ_inter]
  · simp only [currentProbIn, q1]
    rw [← hcur (fun x => if x ∈ A then 1 else 0)]
    simp
  · rw [← hcur (fun x => c.grid a (x a))]
    simp only [currentMeanOf, q3 name a ha]

/-- **C123 (general; what is proved).** Consider an online study whose transition models are random walks (`WalkModel`, `Timeless`) with hyper-grids of the same cell volume, and a prior without zeros.  One of the transition models is drawn (all are equally
probable), then hyper-parameter values from their prior, then a parameter path from prior and transition model; the data have a joint distribution with them whose density is the weight of the path, with likelihoods `L` that are positive and may depend on the
data in any way.  After the data have been passed to the study one by one, its report is calibrated: for the transition models, for the transition models together with their hyper-parameter values, and for the current parameter values; the mean values
reported are the conditional expectations of the current parameter values given the data, and no other estimate from the data has a smaller mean squared error. -/
theorem C123_full_partial {Ω Y : Type} [MeasurableSpace Ω] [MeasurableSpace Y] (c : OConf ℝ D gs) (h1 : 1 ≤ c.seg) (hE : Regular c.E) (hX : ProperExt c.E.ext) (ms : List (String × TM ℝ)) (hne : ms ≠ [])
    (hg : LiveModels c.E ms) (hnd : (ms.flatMap fun q => (entries q.2).map (·.1)).Nodup) (hwm : ∀ q ∈ ms, WalkModel c.E q.2 ∧ Timeless q.2) (store : Bool) (prior : PriorSpec ℝ gs) (hpr : FullPrior prior)
    (hn : prior.isArray = false) (π : Idx gs → ℝ) (hp : PriorMass c.E.cell prior π) (p : Option (List ℝ)) (S : OState ℝ D gs) (hs : setup store prior ms p = .ok S)
    (G : Fin ms.length → HyperGrid ℝ) (ρ : Fin ms.length → List ℝ) (hG : ∀ i : Fin ms.length, createHyperGrid ms[i].2 [] = .ok (G i)) (hρ : ∀ i, (G i).priors = some (ρ i)) (κ : ℝ) (hκ : ∀ i, (G i).hgc.prod = κ)
    {n : ℕ} (τ : Fin (n + 1) → ℝ) (ν : Measure Y) (data : Y → List D) (L : Y → Fin (n + 1) → Idx gs → ℝ) (hls : ∀ y, segLiks c (data y) = List.ofFn (L y)) (hL : ∀ y i x, 0 < L y i x) (hLm : ∀ i x, Measurable fun y => L y i x)
    (P : Measure Ω) [IsProbabilityMeasure P] (U : Ω → Hypothesis G) (Z : Ω → Fin (n + 1) → Idx gs) (X : Ω → Y)
    (hJ : Joint P (fun ω => (U ω, Z ω)) X ν fun uz y => hypothesisPrior G ρ uz.1 * pathWeight π (fun i : Fin n => kernel c.E π (hypothesisModel ms G uz.1) (τ i.castSucc)) (L y) uz.2) :
    (Calibrated P (fun ω => (U ω).1) X fun ω => modelProbIn (runSteps c S (data (X ω)))) ∧ (Calibrated P U X fun ω => hypothesisProbIn G (runSteps c S (data (X ω)))) ∧
    (Calibrated P (fun ω => Z ω (Fin.last n)) X fun ω => currentProbIn (runSteps c S (data (X ω)))) ∧
    ∀ name a, paramIndex c.E.names name = some a → P[fun ω => c.grid a (Z ω (Fin.last n) a) | MeasurableSpace.comap X inferInstance] =ᵐ[P] (fun ω => currentMeanOf c name (runSteps c S (data (X ω)))) ∧
      ∀ δ : Y → ℝ, Measurable δ → ∫⁻ ω, ENNReal.ofReal ((c.grid a (Z ω (Fin.last n) a) - currentMeanOf c name (runSteps c S (data (X ω)))) ^ 2) ∂P ≤ ∫⁻ ω, ENNReal.ofReal ((c.grid a (Z ω (Fin.last n) a) - δ (X ω)) ^ 2) ∂P := by
  have := hE.nonempty
  have hcell : 0 < c.E.cell := cell_pos hE.lattice_pos
  have hπ : ∀ x, 0 ≤ π x := priorMass_nonneg hcell hp
  have hprior0 : ∀ u : Hypothesis G, 0 ≤ hypothesisPrior G ρ u := hypothesisPrior_nonneg hg hG hρ
  have hw : ∀ uz : Hypothesis G × (Fin (n + 1) → Idx gs), Measurable fun y => hypothesisPrior G ρ uz.1 * pathWeight π (fun i : Fin n => kernel c.E π (hypothesisModel ms G uz.1) (τ i.castSucc)) (L y) uz.2 := fun uz => by
    unfold pathWeight
    fun_prop
  have hw0 : ∀ (uz : Hypothesis G × (Fin (n + 1) → Idx gs)) y, 0 ≤ hypothesisPrior G ρ uz.1 * pathWeight π (fun i : Fin n => kernel c.E π (hypothesisModel ms G uz.1) (τ i.castSucc)) (L y) uz.2 := fun uz y =>
    mul_nonneg (hprior0 _) (mul_nonneg (mul_nonneg (hπ _) (Finset.prod_nonneg fun i _ => kernel_nonneg (ρ := π) hE.gauss _ (.inr hπ) _ _ _)) (Finset.prod_nonneg fun i _ => (hL _ _ _).le))
  have hgiven := fun y => online_given c h1 hE hX ms hne hg hnd hwm store prior hpr hn π hp p S hs G ρ hG hρ κ hκ τ (data y) (L y) (hls y) (hL y) _ fun _ => rfl
  refine ⟨calibrated_of_given hJ hw hw0 (fun uz => uz.1.1) _ (.of_forall fun ω A => (hgiven (X ω)).1 A), calibrated_of_given hJ hw hw0 (fun uz => uz.1) _ (.of_forall fun ω A => (hgiven (X ω)).2.1 A),
    calibrated_of_given hJ hw hw0 (fun uz => uz.2 (Fin.last n)) _ (.of_forall fun ω A => (hgiven (X ω)).2.2.1 A), fun name a ha => ⟨?_, fun δ hδ => ?_⟩⟩
  · exact (joint_condExp hJ hw hw0 fun uz => c.grid a (uz.2 (Fin.last n) a)).trans (.of_forall fun ω => ((hgiven (X ω)).2.2.2 name a ha).symm)
  · refine le_trans (le_of_eq (lintegral_congr fun ω => ?_)) (joint_best hJ hw hw0 (fun uz => c.grid a (uz.2 (Fin.last n) a)) δ hδ)
    rw [(hgiven (X ω)).2.2.2 name a ha]
    rfl

/-- likelihoods of single data points -/
theorem segLiks_one (c : OConf K D gs) (h1 : c.seg = 1) {q : Idx gs → D → K} (hpdf : ∀ y x, c.pdf [y] x = q x y) {n : ℕ} (y : Fin n → D) : segLiks c (List.ofFn y) = List.ofFn fun i x => q x (y i) := by
  rw [segLiks, h1]
  apply List.ext_getElem
  · simp [movingWindow_len]
  · intro i q1 q2
    have hi : i < n := by simpa using q2
    rw [List.getElem_map, List.getElem_ofFn]
    funext x
    have : (movingWindow (List.ofFn y) 1)[i]'(by simpa using q1) = [y ⟨i, hi⟩] := by
      simp only [movingWindow, List.getElem_map, List.getElem_range]
      rw [List.take_one_drop_eq_of_lt_length (by simpa using hi), List.get_eq_getElem, List.getElem_ofFn]
    rw [this, hpdf]

/-- **C123 (what is proved), independent data.** The same for an observation model with segment length one whose likelihood is a density `q`: transition model, hyper-parameter values, parameter path and data points are drawn from the model. -/
theorem C123_partial {Ω : Type} [MeasurableSpace Ω] [MeasurableSpace D] (c : OConf ℝ D gs) (h1 : c.seg = 1) (hE : Regular c.E) (hX : ProperExt c.E.ext) (ms : List (String × TM ℝ)) (hne : ms ≠ [])
    (hg : LiveModels c.E ms) (hnd : (ms.flatMap fun q => (entries q.2).map (·.1)).Nodup) (hwm : ∀ q ∈ ms, WalkModel c.E q.2 ∧ Timeless q.2) (store : Bool) (prior : PriorSpec ℝ gs) (hpr : FullPrior prior)
    (hn : prior.isArray = false) (π : Idx gs → ℝ) (hp : PriorMass c.E.cell prior π) (p : Option (List ℝ)) (S : OState ℝ D gs) (hs : setup store prior ms p = .ok S)
    (G : Fin ms.length → HyperGrid ℝ) (ρ : Fin ms.length → List ℝ) (hG : ∀ i : Fin ms.length, createHyperGrid ms[i].2 [] = .ok (G i)) (hρ : ∀ i, (G i).priors = some (ρ i)) (κ : ℝ) (hκ : ∀ i, (G i).hgc.prod = κ)
    (μ : Measure D) [SigmaFinite μ] (q : Idx gs → D → ℝ) (hpdf : ∀ y x, c.pdf [y] x = q x y) (hq : ∀ x, Measurable (q x)) (hq0 : ∀ x y, 0 < q x y) (hqi : ∀ x, Integrable (q x) μ) {n : ℕ} (τ : Fin (n + 1) → ℝ)
    (P : Measure Ω) [IsProbabilityMeasure P] (U : Ω → Hypothesis G) (Z : Ω → Fin (n + 1) → Idx gs) (X : Ω → Fin (n + 1) → D)
    (hD : HyperDraws P U Z X (hypothesisPrior G ρ) π (fun u i => kernel c.E π (hypothesisModel ms G u) (τ i.castSucc)) fun x => μ.withDensity fun y => ENNReal.ofReal (q x y)) :
    (Calibrated P (fun ω => (U ω).1) X fun ω => modelProbIn (runSteps c S (List.ofFn (X ω)))) ∧ (Calibrated P U X fun ω => hypothesisProbIn G (runSteps c S (List.ofFn (X ω)))) ∧
    (Calibrated P (fun ω => Z ω (Fin.last n)) X fun ω => currentProbIn (runSteps c S (List.ofFn (X ω)))) ∧
    ∀ name a, paramIndex c.E.names name = some a → P[fun ω => c.grid a (Z ω (Fin.last n) a) | MeasurableSpace.comap X inferInstance] =ᵐ[P] (fun ω => currentMeanOf c name (runSteps c S (List.ofFn (X ω)))) ∧
      ∀ δ : (Fin (n + 1) → D) → ℝ, Measurable δ → ∫⁻ ω, ENNReal.ofReal ((c.grid a (Z ω (Fin.last n) a) - currentMeanOf c name (runSteps c S (List.ofFn (X ω)))) ^ 2) ∂P ≤
        ∫⁻ ω, ENNReal.ofReal ((c.grid a (Z ω (Fin.last n) a) - δ (X ω)) ^ 2) ∂P := by
  have := hE.nonempty
  have hcell : 0 < c.E.cell := cell_pos hE.lattice_pos
  have hπ : ∀ x, 0 ≤ π x := priorMass_nonneg hcell hp
  have hprior0 : ∀ u : Hypothesis G, 0 ≤ hypothesisPrior G ρ u := hypothesisPrior_nonneg hg hG hρ
  have hJ := joint_of_hyperDraws μ q hq (fun x y => (hq0 x y).le) hqi hprior0 hπ (fun u i x y => kernel_nonneg (ρ := π) hE.gauss _ (.inr hπ) _ _ _) hD
  exact C123_full_partial c h1.ge hE hX ms hne hg hnd hwm store prior hpr hn π hp p S hs G ρ hG hρ κ hκ τ (Measure.pi fun _ => μ) List.ofFn (fun y i x => q x (y i)) (segLiks_one c h1 hpdf) (fun y i x => hq0 _ _)
    (fun i x => (hq x).comp (measurable_pi_apply i)) P U Z X hJ

end Props

namespace Props
open BL Spec

/-- the hyper-grids of a static model and a random walk -/
noncomputable def _root_.Ex.onlineGrids : Fin 2 → HyperGrid ℝ := ![⟨[], [], [], [], some [1]⟩, ⟨[.array [1, 2]], ["sigma"], [[1], [2]], [1], some [1 / 2, 1 / 2]⟩]

/-- their prior densities -/
noncomputable def _root_.Ex.onlinePriors : Fin 2 → List ℝ := ![[1], [1 / 2, 1 / 2]]

theorem _root_.Ex.onlineGrids_eq (i : Fin 2) : createHyperGrid (Ex.onlineModels[i]).2 [] = .ok (Ex.onlineGrids i) := by
  fin_cases i
  · exact Ex.static_grid
  · exact Ex.twoWalks_grid []

theorem _root_.Ex.onlineGrids_priors (i : Fin 2) : (Ex.onlineGrids i).priors = some (Ex.onlinePriors i) := by
  fin_cases i <;> rfl

theorem _root_.Ex.onlineGrids_cell (i : Fin 2) : (Ex.onlineGrids i).hgc.prod = 1 := by
  fin_cases i <;> simp [Ex.onlineGrids]

theorem _root_.Ex.onlineModels_walks : ∀ q ∈ Ex.onlineModels, WalkModel Ex.onlineConf.E q.2 ∧ Spec.Timeless q.2 := by
  have hax : Ex.realEnv.axis "x" = .ok 0 := by simp [Env.axis, Ex.realEnv, List.finRange_succ]
  intro q hq
  simp only [Ex.onlineModels, List.mem_cons, List.not_mem_nil, or_false] at hq
  rcases hq with rfl | rfl
  · exact ⟨by simp [mkStatic, WalkModel], by simp [mkStatic, Spec.Timeless]⟩
  · exact ⟨⟨⟨0, hax⟩, rfl, rfl⟩, by simp [Spec.Timeless]⟩

/-- White noise whose standard deviation is constant or follows a random walk with one of two step sizes; three data points. -/
theorem _root_.Ex.onlineDraws : ∃ (Ω : Type) (_ : MeasurableSpace Ω) (P : Measure Ω) (U : Ω → Hypothesis Ex.onlineGrids) (Z : Ω → Fin 3 → Idx Ex.gs3) (X : Ω → Fin 3 → ℝ), IsProbabilityMeasure P ∧
    HyperDraws P U Z X (hypothesisPrior Ex.onlineGrids Ex.onlinePriors) (fun _ => 1 / (Fintype.card (Idx Ex.gs3) : ℝ))
      (fun u i => kernel Ex.realEnv (fun _ => 1 / (Fintype.card (Idx Ex.gs3) : ℝ)) (hypothesisModel Ex.onlineModels Ex.onlineGrids u) ((![0, 1, 2] : Fin 3 → ℝ) i.castSucc))
      (fun x => volume.withDensity fun y => ENNReal.ofReal (normalDensity 0 ((x 0 : Fin 3).val + 1) y)) := by
  have hax : Ex.realEnv.axis "x" = .ok 0 := by simp [Env.axis, Ex.realEnv, List.finRange_succ]
  have hreg := Ex.realEnv_regular
  have := hreg.nonempty
  have hκ := Ex.onlineGrids_cell
  have hmod : ∀ u : Hypothesis Ex.onlineGrids, Linear Ex.realEnv (hypothesisModel Ex.onlineModels Ex.onlineGrids u) ∧ ResetFree (hypothesisModel Ex.onlineModels Ex.onlineGrids u) := by
    rintro ⟨i, j⟩
    fin_cases i
    · have : hypothesisModel Ex.onlineModels Ex.onlineGrids ⟨(0 : Fin 2), j⟩ = mkStatic := rfl
      exact this ▸ ⟨by simp [mkStatic, Linear], by simp [mkStatic, ResetFree]⟩
    · have hc : ∀ j : Fin (combinations (Ex.onlineGrids 1)).length, (combinations (Ex.onlineGrids 1))[j] = [1] ∨ (combinations (Ex.onlineGrids 1))[j] = [2] := by
        intro j
        have hm : (combinations (Ex.onlineGrids 1))[j] ∈ ([[1], [2]] : List (List ℝ)) := List.getElem_mem (l := combinations (Ex.onlineGrids 1)) j.2
        simpa only [List.mem_cons, List.not_mem_nil, or_false] using hm
      have : hypothesisModel Ex.onlineModels Ex.onlineGrids ⟨(1 : Fin 2), j⟩ = modelAt Ex.twoWalks.tm (combinations (Ex.onlineGrids 1))[j] := rfl
      rcases hc j with h | h
      · rw [h] at this
        exact this ▸ (show Linear Ex.realEnv (.leaf (.grw "x") ["sigma"] [.scalar 1] (some (.item .none))) ∧ ResetFree (.leaf (.grw "x") ["sigma"] [.scalar (1 : ℝ)] (some (.item .none))) by simp [Linear, hax, ResetFree])
      · rw [h] at this
        exact this ▸ (show Linear Ex.realEnv (.leaf (.grw "x") ["sigma"] [.scalar 2] (some (.item .none))) ∧ ResetFree (.leaf (.grw "x") ["sigma"] [.scalar (2 : ℝ)] (some (.item .none))) by simp [Linear, hax, ResetFree])
  have hlaw : ∀ x : Idx Ex.gs3, IsProbabilityMeasure (volume.withDensity fun y => ENNReal.ofReal (normalDensity 0 ((x 0 : Fin 3).val + 1) y)) := fun x => ⟨by
    have hd : IsDensity (normalDensity 0 ((x 0 : Fin 3).val + 1)) := normal_isDensity (by positivity) _
    rw [withDensity_apply _ MeasurableSet.univ, Measure.restrict_univ, ← ofReal_integral_eq_lintegral_ofReal hd.integrable (.of_forall hd.nonneg), hd.total, ENNReal.ofReal_one]⟩
  have hst : ∀ u : Hypothesis Ex.onlineGrids, Stoch (kernel Ex.realEnv (fun _ => 1 / (Fintype.card (Idx Ex.gs3) : ℝ)) (hypothesisModel Ex.onlineModels Ex.onlineGrids u)) := fun u =>
    kernel_stoch (pr := .none) (R := 0) hreg (hmod u).1 (.inl (hmod u).2)
  have hone : ∑ _ : Idx Ex.gs3, 1 / (Fintype.card (Idx Ex.gs3) : ℝ) = 1 := by
    rw [Finset.sum_const, Finset.card_univ, nsmul_eq_mul, mul_one_div_cancel (Nat.cast_ne_zero.2 Fintype.card_ne_zero)]
  have hq1 : ∑ u, hypothesisPrior Ex.onlineGrids Ex.onlinePriors u = 1 := by
    rw [Fintype.sum_sigma, Fin.sum_univ_two]
    change (∑ j : Fin 1, _) + (∑ j : Fin 2, _) = (1 : ℝ)
    rw [Fin.sum_univ_one, Fin.sum_univ_two]
    simp [hypothesisPrior, Ex.onlineGrids, Ex.onlinePriors]
    norm_num
  have hq0 : ∀ u, 0 ≤ hypothesisPrior Ex.onlineGrids Ex.onlinePriors u := by
    rintro ⟨i, j⟩
    refine mul_nonneg (by positivity) (mul_nonneg ?_ (by rw [hκ]; exact zero_le_one))
    rw [List.getD_eq_getElem?_getD]
    rcases h : (Ex.onlinePriors i)[(j : ℕ)]? with _ | v
    · exact le_rfl
    · have hm := List.mem_of_getElem? h
      change 0 ≤ v
      fin_cases i
      · have : v = 1 := by simpa [Ex.onlinePriors] using hm
        rw [this]; norm_num
      · have : v = 1 / 2 := by simpa [Ex.onlinePriors] using hm
        rw [this]; norm_num
  exact exists_hyperDraws (n := 2) (Y := ℝ) (hypothesisPrior Ex.onlineGrids Ex.onlinePriors) hq0 hq1 (fun _ => 1 / (Fintype.card (Idx Ex.gs3) : ℝ))
    (fun u i => kernel Ex.realEnv (fun _ => 1 / (Fintype.card (Idx Ex.gs3) : ℝ)) (hypothesisModel Ex.onlineModels Ex.onlineGrids u) (![0, 1, 2] i.castSucc)) (fun x => volume.withDensity fun y => ENNReal.ofReal (normalDensity 0 ((x 0 : Fin 3).val + 1) y))
    (fun _ => by positivity) (fun j i => (hst j).nonneg _) fun j => by
      have := evidence_ones (fun _ => 1 / (Fintype.card (Idx Ex.gs3) : ℝ)) (fun i : Fin 2 => kernel Ex.realEnv (fun _ => 1 / (Fintype.card (Idx Ex.gs3) : ℝ)) (hypothesisModel Ex.onlineModels Ex.onlineGrids j) ((![0, 1, 2] : Fin 3 → ℝ) i.castSucc)) fun i => (hst j).sum _
      simp only [evidence, pathWeight, Finset.prod_const_one, mul_one] at this
      rw [this, hone]

/-- Concrete case: `Ex.onlineDraws`. -/
example : ∃ (Ω : Type) (_ : MeasurableSpace Ω) (P : Measure Ω) (U : Ω → Hypothesis Ex.onlineGrids) (X : Ω → Fin 3 → ℝ) (S : OState ℝ ℝ Ex.gs3), IsProbabilityMeasure P ∧ setup true .none Ex.onlineModels (some [1, 2]) = .ok S ∧
    (Calibrated P (fun ω => (U ω).1) X fun ω => modelProbIn (runSteps Ex.onlineConf S (List.ofFn (X ω)))) ∧ Calibrated P U X fun ω => hypothesisProbIn Ex.onlineGrids (runSteps Ex.onlineConf S (List.ofFn (X ω))) := by
  have hX : ProperExt Ex.onlineConf.E.ext := realExt_proper _ _
  have hreg := Ex.realEnv_regular
  obtain ⟨S, hs⟩ := Ex.onlineSetup
  obtain ⟨Ω, hΩ, P, U, Z, X, hP, hD⟩ := Ex.onlineDraws
  have hd : ∀ x : Idx Ex.gs3, IsDensity (normalDensity 0 ((x 0 : Fin 3).val + 1)) := fun x => normal_isDensity (by positivity) _
  obtain ⟨c1, c2, -⟩ := C123_partial Ex.onlineConf rfl hreg hX Ex.onlineModels (by simp [Ex.onlineModels]) Ex.onlineModels_live (by simp [Ex.onlineModels, entries, mkStatic]) Ex.onlineModels_walks true .none trivial rfl _ .flat (some [1, 2]) S hs Ex.onlineGrids Ex.onlinePriors Ex.onlineGrids_eq Ex.onlineGrids_priors 1 Ex.onlineGrids_cell volume
    (fun x y => normalDensity 0 ((x 0 : Fin 3).val + 1) y) (fun y x => rfl) (fun x => by unfold normalDensity; fun_prop) (fun x y => by rw [normalDensity]; positivity) (fun x => (hd x).integrable) ![0, 1, 2] P U Z X hD
  exact ⟨Ω, hΩ, P, U, X, S, hP, hs, c1, c2⟩

end Props
