import Verif.Lemmas.Study
import Verif.Props.C56
import Verif.Model.RealExt

/-! # C62: studies with automatic parameter values and default priors -/

set_option linter.unusedSectionVars false

namespace Spec
open BL

/-- default prior density of the parameters, up to a constant factor -/
noncomputable def defaultWeight (m : OM) (θ : ℕ → ℝ) : ℝ :=
  match m with
  | .bernoulli => 1 / Real.sqrt (θ 0 * (1 - θ 0))
  | .poisson => 1 / Real.sqrt (θ 0)
  | .gaussian | .laplace => 1 / θ 1 ^ 2
  | .whiteNoise => 1 / θ 0
  | .gaussianMean | .ar1 | .scaledAR1 => 1

/-- parameter values for which likelihood and default prior are defined -/
def Interior (m : OM) (θ : ℕ → ℝ) : Prop :=
  match m with
  | .bernoulli => 0 < θ 0 ∧ θ 0 < 1
  | .poisson => 0 < θ 0
  | m => Admissible m θ

/-- at least two different observations -/
def Varied (raw : List (Option ℝ)) : Prop := ∃ x, some x ∈ raw ∧ ∃ y, some y ∈ raw ∧ x ≠ y

/-- observations that determine an interval of parameter values -/
def Usable (m : OM) (raw : List (Option ℝ)) : Prop :=
  match m with
  | .bernoulli => False
  | .poisson => ∃ x, some x ∈ raw ∧ 0 < x
  | _ => Varied raw

/-- observations that do not: the estimated scale of the parameters is zero -/
def Degenerate (m : OM) (raw : List (Option ℝ)) : Prop :=
  match m with
  | .poisson => some 0 ∈ raw ∧ ∀ x, some x ∈ raw → x = 0
  | .gaussian | .laplace | .whiteNoise => ∃ c, some c ∈ raw ∧ ∀ x, some x ∈ raw → x = c
  | _ => False

/-- Probability (density) of the last observation in a data segment, given the other ones; one if an observation is missing -/
noncomputable def observed (m : OM) (θ : ℕ → ℝ) : List (Option ℝ) → ℝ
  | [some y] => if m = .poisson then poissonMass (θ 0) ⌊y⌋₊ else textbook m θ 0 y
  | [some prev, some y] => textbook m θ prev y
  | _ => 1

/-- the same for an observation and its standard deviation -/
noncomputable def measured (μ : ℝ) (r : Fin 2 → Option ℝ) : ℝ :=
  match r 0, r 1 with
  | some y, some σ => normalDensity μ σ y
  | _, _ => 1

/-- `tm` is not a single break-point -/
def NoBreakPoint (tm : TM ℝ) : Prop := ∀ names vals prior, tm ≠ .leaf .breakPoint names vals prior

/-- The study `S` after `S.loadData(raw)`, `S.set(L, T)` with an observation model `L` that is created without parameter values and prior -/
def Configured {D : Type} (m : OM) (names : List String) (obs : D → Option ℝ) (raw : List D) (tm : TM ℝ) (S : Cfg ℝ D) : Prop :=
  (Cfg.init.loadData (.ndarray raw) none).1.set [.om (m.auto names obs), .tm tm] = (S, none)

end Spec

namespace BL
open Spec

theorem mem_present {raw : List (Option ℝ)} {x : ℝ} : x ∈ present raw ↔ some x ∈ raw := by simp [present]

theorem nanMean_some {raw : List (Option ℝ)} {x : ℝ} (hx : some x ∈ raw) : ∃ μ, nanMean raw = some μ := by
  have : present raw ≠ [] := List.ne_nil_of_mem (mem_present.2 hx)
  exact ⟨_, by rw [nanMean, if_neg this]⟩

theorem nanStd_pos {raw : List (Option ℝ)} (h : Varied raw) : ∃ s, nanStd raw = some s ∧ 0 < s := by
  obtain ⟨x, hx, y, hy, hxy⟩ := h
  obtain ⟨μ, hμ⟩ := nanMean_some hx
  rw [nanStd, hμ]
  refine ⟨_, rfl, Real.sqrt_pos.2 (div_pos ?_ ?_)⟩
  · have hex : ∃ z ∈ present raw, z ≠ μ := by
      by_contra hc
      push Not at hc
      exact hxy ((hc x (mem_present.2 hx)).trans (hc y (mem_present.2 hy)).symm)
    obtain ⟨z, hz, hzμ⟩ := hex
    have h1 : (z - μ) ^ 2 ≤ ((present raw).map fun x => (x - μ) ^ 2).sum :=
      List.single_le_sum (by intro a ha; obtain ⟨b, -, rfl⟩ := List.mem_map.1 ha; positivity) _ (List.mem_map_of_mem hz)
    have h2 : 0 < (z - μ) ^ 2 := by
      have : z - μ ≠ 0 := sub_ne_zero.2 hzμ
      positivity
    linarith
  · have : 0 < (present raw).length := List.length_pos_of_mem (mem_present.2 hx)
    exact_mod_cast this

/-- `setObservationModel` for one automatic parameter -/
theorem auto_one {D : Type} (m : OM) (nm : String) (obs : D → Option ℝ) (S0 : Cfg ℝ D) (a s : ℝ) (hs : 0 ≤ s) (k n : ℕ) (hn : 2 ≤ n) (v : List ℝ)
    (hv : v = (List.range' k n).map fun i : ℕ => a + (i : ℝ) * s) (hest : m.estimate 0 (S0.rawData.map obs) = some v) :
    S0.setOM (m.auto [nm] obs) = ({ S0 with om := some (m.auto [nm] obs), marginalGrid := [v], lattice := [s], grid := [v], tm := S0.tm.map fun m => (m.1, [s]) }, none) := by
  have : gridLoop (m.auto [nm] obs).est S0.rawData ((m.auto [nm] obs).values.zip (m.auto [nm] obs).names) [] [] = (([v], [s]), none) := by
    refine (gridLoop_affine _ _ nm _ _ _ a s hs k n hn v hv ?_).trans rfl
    simpa [OM.auto] using hest
  rw [Cfg.setOM, this]

/-- … and for two -/
theorem auto_two {D : Type} (m : OM) (n1 n2 : String) (hne : n1 ≠ n2) (obs : D → Option ℝ) (S0 : Cfg ℝ D) (a s a' s' : ℝ) (hs : 0 ≤ s) (hs' : 0 ≤ s') (k n k' n' : ℕ) (hn : 2 ≤ n) (hn' : 2 ≤ n')
    (v v' : List ℝ) (hv : v = (List.range' k n).map fun i : ℕ => a + (i : ℝ) * s) (hv' : v' = (List.range' k' n').map fun i : ℕ => a' + (i : ℝ) * s')
    (hest : m.estimate 0 (S0.rawData.map obs) = some v) (hest' : m.estimate 1 (S0.rawData.map obs) = some v') :
    S0.setOM (m.auto [n1, n2] obs) =
      ({ S0 with om := some (m.auto [n1, n2] obs), marginalGrid := [v, v'], lattice := [s, s'], grid := [v, v'], tm := S0.tm.map fun m => (m.1, [s, s']) }, none) := by
  have : gridLoop (m.auto [n1, n2] obs).est S0.rawData ((m.auto [n1, n2] obs).values.zip (m.auto [n1, n2] obs).names) [] [] = (([v, v'], [s, s']), none) := by
    refine (gridLoop_affine _ _ n1 _ _ _ a s hs k n hn v hv ?_).trans ?_
    · simpa [OM.auto] using hest
    refine (gridLoop_affine _ _ n2 _ _ _ a' s' hs' k' n' hn' v' hv' ?_).trans rfl
    have : List.idxOf n2 [n1, n2] = 1 := by
      simp [List.idxOf_cons, hne]
    simpa [OM.auto, this] using hest'
  rw [Cfg.setOM, this]

theorem gridPoint_axes {D : Type} (S : Cfg ℝ D) (x : Idx S.shape) (n : ℕ) (v : List ℝ) (h : S.grid[n]? = some v) : gridPoint S.axes x n ∈ v := by
  obtain ⟨hn, h'⟩ := List.getElem?_eq_some_iff.1 h
  rw [gridPoint, dif_pos hn]
  subst h'
  exact List.getElem_mem _

theorem listMax_mem {l : List ℝ} {M : ℝ} (h : listMax l = some M) : M ∈ l ∧ ∀ x ∈ l, x ≤ M := by
  rw [listMax, List.max?_eq_some_iff] at h
  exact h

theorem listMax_exists {l : List ℝ} {x : ℝ} (hx : x ∈ l) : ∃ M, listMax l = some M := by
  match h : listMax l with
  | some M => exact ⟨M, rfl⟩
  | none =>
      rw [listMax, List.max?_eq_none_iff] at h
      rw [h] at hx
      simp at hx

/-- after the observation model the transition model is set without error -/
theorem set_om_tm {D : Type} (S0 S1 : Cfg ℝ D) (om : OModel ℝ D) (tm : TM ℝ) (htm : NoBreakPoint tm) (h : S0.setOM om = (S1, none)) :
    S0.set [.om om, .tm tm] = ({ S1 with tm := some (tm, S1.lattice) }, none) := by
  have h2 : S1.setTM tm = ({ S1 with tm := some (tm, S1.lattice) }, none) := by
    unfold Cfg.setTM
    split
    · exact absurd rfl (htm _ _ _)
    · rfl
  simp only [Cfg.set, setArgs, h, h2, Bool.false_eq_true, ↓reduceIte]

/-- the properties of the configured study that matter for the fit -/
structure Sound {D : Type} (m : OM) (names : List String) (obs : D → Option ℝ) (raw : List D) (tm : TM ℝ) (S : Cfg ℝ D) : Prop where
  data : S.rawData = raw
  stamps : S.rawTimestamps = some ((List.range raw.length).map fun i : ℕ => (i : ℝ))
  om : S.om = some (m.auto names obs)
  tm : S.tm = some (tm, S.lattice)
  lattice : ∀ a : Fin S.grid.length, 0 < S.lattice.getD a 1
  shape : ∀ a, 2 ≤ S.shape a
  interior : ∀ x, Interior m (gridPoint S.axes x)
  dims : S.grid.length = names.length

theorem Sound.card {D : Type} {m : OM} {names : List String} {obs : D → Option ℝ} {raw : List D} {tm : TM ℝ} {S : Cfg ℝ D} (h2 : Sound m names obs raw tm S) (hn : names ≠ []) :
    (Fintype.card (Idx S.shape) : ℝ) ≠ 1 := by
  intro h
  have h' : Fintype.card (Idx S.shape) = 1 := by exact_mod_cast h
  obtain ⟨y, hy⟩ := Fintype.card_eq_one_iff.1 h'
  have hlen : 0 < S.grid.length := by rw [h2.dims]; exact List.length_pos_iff.2 hn
  have e0 := hy fun a => ⟨0, lt_of_lt_of_le two_pos (h2.shape a)⟩
  have e1 := hy fun a => ⟨1, lt_of_lt_of_le one_lt_two (h2.shape a)⟩
  have := congrArg Fin.val (congrFun (e0.trans e1.symm) ⟨0, hlen⟩)
  simp at this

theorem one_sound {D : Type} (m : OM) (nm : String) (obs : D → Option ℝ) (raw : List D) (tm : TM ℝ) (htm : NoBreakPoint tm) (a s : ℝ) (hs : 0 < s) (k n : ℕ) (hn : 2 ≤ n) (v : List ℝ)
    (hv : v = (List.range' k n).map fun i : ℕ => a + (i : ℝ) * s) (hest : m.estimate 0 (raw.map obs) = some v) (hi : ∀ θ : ℕ → ℝ, θ 0 ∈ v → Interior m θ) :
    ∃ S, Configured m [nm] obs raw tm S ∧ Sound m [nm] obs raw tm S := by
  refine ⟨_, set_om_tm _ _ _ tm htm (auto_one m nm obs _ a s hs.le k n hn v hv hest), rfl, rfl, rfl, rfl, ?_, ?_, ?_, rfl⟩
  · intro b
    obtain ⟨b, hb⟩ := b
    simp only [List.length_cons, List.length_nil] at hb
    interval_cases b
    exact hs
  · intro b
    obtain ⟨b, hb⟩ := b
    simp only [List.length_cons, List.length_nil] at hb
    interval_cases b
    simp [Cfg.shape, hv, hn]
  · intro x
    exact hi _ (gridPoint_axes _ x 0 v rfl)

theorem two_sound {D : Type} (m : OM) (n1 n2 : String) (hne : n1 ≠ n2) (obs : D → Option ℝ) (raw : List D) (tm : TM ℝ) (htm : NoBreakPoint tm) (a s a' s' : ℝ) (hs : 0 < s) (hs' : 0 < s')
    (k n k' n' : ℕ) (hn : 2 ≤ n) (hn' : 2 ≤ n') (v v' : List ℝ) (hv : v = (List.range' k n).map fun i : ℕ => a + (i : ℝ) * s) (hv' : v' = (List.range' k' n').map fun i : ℕ => a' + (i : ℝ) * s')
    (hest : m.estimate 0 (raw.map obs) = some v) (hest' : m.estimate 1 (raw.map obs) = some v') (hi : ∀ θ : ℕ → ℝ, θ 0 ∈ v → θ 1 ∈ v' → Interior m θ) :
    ∃ S, Configured m [n1, n2] obs raw tm S ∧ Sound m [n1, n2] obs raw tm S := by
  refine ⟨_, set_om_tm _ _ _ tm htm (auto_two m n1 n2 hne obs _ a s a' s' hs.le hs'.le k n k' n' hn hn' v v' hv hv' hest hest'), rfl, rfl, rfl, rfl, ?_, ?_, ?_, rfl⟩
  · intro b
    obtain ⟨b, hb⟩ := b
    simp only [List.length_cons, List.length_nil] at hb
    interval_cases b
    · exact hs
    · exact hs'
  · intro b
    obtain ⟨b, hb⟩ := b
    simp only [List.length_cons, List.length_nil] at hb
    interval_cases b
    · simp [Cfg.shape, hv, hn]
    · simp [Cfg.shape, hv', hn']
  · intro x
    exact hi _ (gridPoint_axes _ x 0 v rfl) (gridPoint_axes _ x 1 v' rfl)

theorem cint_form (a b : ℝ) (n : ℕ) : cint a b n = (List.range' 0 n).map fun i : ℕ => a + (i : ℝ) * ((b - a) / ((n - 1 : ℕ) : ℝ)) := by
  rw [cint, Props.linspace_range']

theorem auto_sound {D : Type} (m : OM) (names : List String) (hnd : names.Nodup) (hlen : names.length = m.nParameters) (obs : D → Option ℝ) (raw : List D) (hraw : Usable m (raw.map obs)) (tm : TM ℝ)
    (htm : NoBreakPoint tm) : ∃ S, Configured m names obs raw tm S ∧ Sound m names obs raw tm S := by
  have hone : m.nParameters = 1 → ∃ n1, names = [n1] := fun h => List.length_eq_one_iff.1 (hlen.trans h)
  have htwo : m.nParameters = 2 → ∃ n1 n2, n1 ≠ n2 ∧ names = [n1, n2] := fun h => by
    obtain ⟨n1, n2, rfl⟩ := List.length_eq_two.1 (hlen.trans h)
    exact ⟨n1, n2, by simpa using hnd, rfl⟩
  have hpos : ∀ {b : ℝ} {n : ℕ}, 0 < b → 0 < (b - 0) / ((n + 1 : ℕ) : ℝ) := fun h => div_pos (by linarith) (by positivity)
  match m with
  | .bernoulli => exact hraw.elim
  | .poisson =>
      obtain ⟨n1, rfl⟩ := hone rfl
      obtain ⟨x, hx, hx0⟩ := hraw
      obtain ⟨M, hM⟩ := listMax_exists (mem_present.2 hx)
      have hM0 : 0 < M := lt_of_lt_of_le hx0 ((listMax_mem hM).2 x (mem_present.2 hx))
      have hb : 0 < 5 / 4 * M := by linarith
      refine one_sound _ n1 obs raw tm htm 0 _ (hpos hb) 1 1000 (by norm_num) _ (oint_form 0 (5 / 4 * M) 1000) (by simp only [OM.estimate, nanMax, hM, Option.map_some]) fun θ h => ?_
      exact ((Props.C51_oint 0 _ 1000 hb).2.1 _ h).1
  | .gaussian =>
      obtain ⟨n1, n2, hne, rfl⟩ := htwo rfl
      obtain ⟨s, hs, hs0⟩ := nanStd_pos hraw
      obtain ⟨μ, hμ⟩ := nanMean_some hraw.choose_spec.1
      have hb : 0 < 2 * s := by linarith
      refine two_sound _ n1 n2 hne obs raw tm htm _ _ 0 _ (div_pos ?_ (by norm_num)) (hpos hb) 0 200 1 200 (by norm_num) (by norm_num) _ _ (cint_form (μ - 2 * s) (μ + 2 * s) 200) (oint_form 0 (2 * s) 200)
        (by simp only [OM.estimate, hs, hμ, Option.map_some, Option.bind_some]) (by simp only [OM.estimate, hs, Option.map_some]) fun θ _ h => ?_
      · linarith
      · exact ((Props.C51_oint 0 _ 200 hb).2.1 _ h).1
  | .laplace =>
      obtain ⟨n1, n2, hne, rfl⟩ := htwo rfl
      obtain ⟨s, hs, hs0⟩ := nanStd_pos hraw
      obtain ⟨μ, hμ⟩ := nanMean_some hraw.choose_spec.1
      have hb : 0 < Real.sqrt 2 * s := by positivity
      refine two_sound _ n1 n2 hne obs raw tm htm _ _ 0 _ (div_pos ?_ (by norm_num)) (hpos hb) 0 200 1 200 (by norm_num) (by norm_num) _ _ (cint_form (μ - 2 * s) (μ + 2 * s) 200) (oint_form 0 (Real.sqrt 2 * s) 200)
        (by simp only [OM.estimate, hs, hμ, Option.map_some, Option.bind_some]) (by simp only [OM.estimate, hs, Option.map_some]) fun θ _ h => ?_
      · linarith
      · exact ((Props.C51_oint 0 _ 200 hb).2.1 _ h).1
  | .gaussianMean =>
      obtain ⟨n1, rfl⟩ := hone rfl
      obtain ⟨x, hx, y, hy, hxy⟩ := hraw
      obtain ⟨M, hM⟩ := listMax_exists (mem_present.2 hx)
      obtain ⟨M', hM'⟩ := listMax_exists (l := (present (raw.map obs)).map (- ·)) (List.mem_map_of_mem (mem_present.2 hx))
      have hlt : -M' < M := by
        have h1 := (listMax_mem hM).2
        have h2 : ∀ z ∈ present (raw.map obs), -z ≤ M' := fun z hz => (listMax_mem hM').2 _ (List.mem_map_of_mem (f := (- ·)) hz)
        have hx1 := h1 x (mem_present.2 hx)
        have hx2 := h2 x (mem_present.2 hx)
        have hy1 := h1 y (mem_present.2 hy)
        have hy2 := h2 y (mem_present.2 hy)
        rcases lt_or_gt_of_ne hxy with h | h <;> linarith
      refine one_sound _ n1 obs raw tm htm _ _ (div_pos ?_ (by positivity)) 1 1000 (by norm_num) _ (oint_form (-M' - (M - -M')) (M + (M - -M')) 1000)
        (by simp only [OM.estimate, nanMax, nanMin, hM, hM', Option.map_some, Option.bind_some]) fun θ h => trivial
      linarith
  | .whiteNoise =>
      obtain ⟨n1, rfl⟩ := hone rfl
      obtain ⟨s, hs, hs0⟩ := nanStd_pos hraw
      have hb : 0 < 2 * s := by linarith
      refine one_sound _ n1 obs raw tm htm 0 _ (hpos hb) 1 1000 (by norm_num) _ (oint_form 0 (2 * s) 1000) (by simp only [OM.estimate, hs, Option.map_some]) fun θ h => ?_
      exact ((Props.C51_oint 0 _ 1000 hb).2.1 _ h).1
  | .ar1 =>
      obtain ⟨n1, n2, hne, rfl⟩ := htwo rfl
      obtain ⟨s, hs, hs0⟩ := nanStd_pos hraw
      have hb : 0 < 2 * s := by linarith
      refine two_sound _ n1 n2 hne obs raw tm htm _ _ 0 _ (div_pos ?_ (by positivity)) (hpos hb) 1 200 1 200 (by norm_num) (by norm_num) _ _ (oint_form (-1) 1 200) (oint_form 0 (2 * s) 200)
        (by simp only [OM.estimate]) (by simp only [OM.estimate, hs, Option.map_some]) fun θ _ h => ?_
      · norm_num
      · exact ((Props.C51_oint 0 _ 200 hb).2.1 _ h).1
  | .scaledAR1 =>
      obtain ⟨n1, n2, hne, rfl⟩ := htwo rfl
      obtain ⟨s, hs, hs0⟩ := nanStd_pos hraw
      have hb : 0 < 2 * s := by linarith
      refine two_sound _ n1 n2 hne obs raw tm htm _ _ 0 _ (div_pos ?_ (by positivity)) (hpos hb) 1 200 1 200 (by norm_num) (by norm_num) _ _ (oint_form (-1) 1 200) (oint_form 0 (2 * s) 200)
        (by simp only [OM.estimate]) (by simp only [OM.estimate, hs, Option.map_some]) fun θ h0 h => ?_
      · norm_num
      · have h1 := (Props.C51_oint (-1 : ℝ) 1 200 (by norm_num)).2.1 _ h0
        exact ⟨((Props.C51_oint 0 _ 200 hb).2.1 _ h).1, h1.1, h1.2⟩

/-- the default prior in the interior -/
theorem defaultPrior_value (m : OM) (θ : ℕ → ℝ) (h : Interior m θ) : 0 < defaultWeight m θ ∧ ∀ f, m.defaultPrior = some f → f θ = .fin (defaultWeight m θ) := by
  match m with
  | .bernoulli =>
      have h1 : 0 < θ 0 * (1 - θ 0) := mul_pos h.1 (by linarith [h.2])
      have h2 := Real.sqrt_pos.2 h1
      refine ⟨by unfold defaultWeight; positivity, fun f hf => ?_⟩
      cases hf
      simp [FV.sqrt, FV.div, not_lt.2 h1.le, h2.ne', defaultWeight]
  | .poisson =>
      have h0 : 0 < θ 0 := h
      refine ⟨by unfold defaultWeight; positivity, fun f hf => ?_⟩
      cases hf
      simp [FV.sqrt, FV.div, h0.ne', h0.le, defaultWeight, Real.sqrt_inv]
  | .gaussian | .laplace =>
      have h0 : 0 < θ 1 := h
      refine ⟨by unfold defaultWeight; positivity, fun f hf => ?_⟩
      cases hf
      simp [FV.div, h0.ne', defaultWeight]
  | .whiteNoise =>
      have h0 : 0 < θ 0 := h
      refine ⟨by unfold defaultWeight; positivity, fun f hf => ?_⟩
      cases hf
      simp [FV.div, h0.ne', defaultWeight]
  | .gaussianMean | .ar1 | .scaledAR1 =>
      refine ⟨by unfold defaultWeight; positivity, fun f hf => ?_⟩
      simp [OM.defaultPrior] at hf

theorem defaultSpec_mass {d : ℕ} {gs : Fin d → ℕ} (m : OM) (grid : (a : Fin d) → Fin (gs a) → ℝ) [Nonempty (Idx gs)] (h : ∀ x, Interior m (gridPoint grid x)) (cell : ℝ)
    (h1 : ∑ x, defaultWeight m (gridPoint grid x) ≠ 1) :
    PriorMass cell (m.defaultSpec grid) fun x => defaultWeight m (gridPoint grid x) / ∑ y, defaultWeight m (gridPoint grid y) := by
  match hf : m.defaultPrior with
  | none =>
      have hw : ∀ θ, defaultWeight m θ = 1 := by
        intro θ
        match m with
        | .gaussianMean | .ar1 | .scaledAR1 => rfl
        | .bernoulli | .poisson | .gaussian | .laplace | .whiteNoise => simp [OM.defaultPrior] at hf
      rw [OM.defaultSpec, hf]
      simp only [hw, Finset.sum_const, Finset.card_univ, nsmul_eq_mul, mul_one]
      exact .flat
  | some f =>
      have hv : ∀ x, f (gridPoint grid x) = .fin (defaultWeight m (gridPoint grid x)) := fun x => (defaultPrior_value m _ (h x)).2 f hf
      have hs : m.defaultSpec grid = .func fun x => defaultWeight m (gridPoint grid x) := by
        rw [OM.defaultSpec, hf]
        simp only [functionPrior, hv, FV.fin?, Option.isSome_some, implies_true, ↓reduceIte, Option.getD_some]
      rw [hs]
      exact .func _ (fun x => (defaultPrior_value m _ (h x)).1.le) (Finset.sum_pos (fun x _ => (defaultPrior_value m _ (h x)).1) Finset.univ_nonempty) (Or.inl h1)

theorem pdf_pos {m : OM} (hm : m ≠ .bernoulli) {θ : ℕ → ℝ} (h : Interior m θ) (s : Seg ℝ) (hp : m = .poisson → ∃ k : ℕ, s.num 0 = k) : 0 < m.pdf θ s := by
  match m with
  | .bernoulli => exact absurd rfl hm
  | .poisson =>
      obtain ⟨k, hk⟩ := hp rfl
      have h0 : 0 < θ 0 := h
      simp only [OM.pdf, hk, Nat.floor_natCast, if_true]
      positivity
  | .laplace =>
      have h0 : 0 < θ 1 := h
      simp only [OM.pdf]
      positivity
  | .gaussian | .gaussianMean | .whiteNoise | .ar1 | .scaledAR1 =>
      simp only [OM.pdf, gaussForm]
      positivity

theorem pdfOrOnes_pos {d : ℕ} {gs : Fin d → ℕ} {pdf : Seg ℝ → Idx gs → ℝ} {s : Seg ℝ} {x : Idx gs} (h : s.missing = false → 0 < pdf s x) : 0 < pdfOrOnes pdf s x := by
  unfold pdfOrOnes
  split
  · exact one_pos
  · next hm => exact h (by simpa using hm)

/-- the fit of a study with automatic parameter values and default prior -/
theorem auto_fit {D : Type} {m : OM} {names : List String} {obs : D → Option ℝ} {raw : List D} {tm : TM ℝ} {S : Cfg ℝ D} (hS : Sound m names obs raw tm S) (hnames : tm.flatNames.Nodup) (hR : ResetFree tm)
    {n : ℕ} (hn : m.segmentLength + n = raw.length) (seg : List D → Seg ℝ) (hpos : ∀ i < n + 1, ∀ x, 0 < m.likelihood S.axes (seg ((raw.drop i).take m.segmentLength)) x)
    (ext : Ext ℝ S.shape) (hX : GaussOK ext) (hL : Linear (S.env names ext) tm) (h1 : ∑ x, defaultWeight m (gridPoint S.axes x) ≠ 1) (fo eo : Bool) :
    ∃ R, S.fit ext (fun s => m.likelihood S.axes (seg s)) (m.defaultSpec S.axes) fo eo = .ok R ∧
      R.logEv.exp = evidence (fun x => defaultWeight m (gridPoint S.axes x) / ∑ y, defaultWeight m (gridPoint S.axes y))
        (fun i : Fin n => kernel (S.env names ext) (fun x => defaultWeight m (gridPoint S.axes x) / ∑ y, defaultWeight m (gridPoint S.axes y)) tm ((i.val + (m.segmentLength - 1) : ℕ) : ℝ))
        (fun i : Fin (n + 1) => m.likelihood S.axes (seg ((raw.drop i).take m.segmentLength))) ∧ 0 < R.logEv.exp := by
  have hne : Nonempty (Idx S.shape) := ⟨fun a => ⟨0, lt_of_lt_of_le two_pos (hS.shape a)⟩⟩
  have hw : 0 < ∑ x, defaultWeight m (gridPoint S.axes x) := Finset.sum_pos (fun x _ => (defaultPrior_value m _ (hS.interior x)).1) Finset.univ_nonempty
  have hseg : 1 ≤ m.segmentLength := by cases m <;> decide
  have hdup : (duplicates tm.flatNames).length = 0 := by rw [(Props.duplicates_eq_nil _).2 hnames]; rfl
  have := Cfg.fit_evidence (n := n) hS.om hS.tm hdup (by rw [hS.data]; exact hS.stamps) hseg (by rw [hS.data]; exact hn) hS.lattice (fun a => lt_of_lt_of_le two_pos (hS.shape a)) ext hX hL hR
    (m.defaultSpec S.axes) _ (defaultSpec_mass m S.axes hS.interior _ h1) (by rw [← Finset.sum_div, div_self hw.ne']) (fun s => m.likelihood S.axes (seg s)) (by rw [hS.data]; exact hpos) fo eo
  rw [hS.data] at this
  exact this

theorem observed_eq {d : ℕ} {gs : Fin d → ℕ} {m : OM} {raw : List (Option ℝ)} (hm : RealValued m ∨ m = .poisson ∧ ∀ x, some x ∈ raw → ∃ k : ℕ, x = k) (grid : (a : Fin d) → Fin (gs a) → ℝ) (x : Idx gs)
    (h : Interior m (gridPoint grid x)) (i : ℕ) (hi : i + m.segmentLength ≤ raw.length) :
    m.likelihood grid (.flat ((raw.drop i).take m.segmentLength)) x = observed m (gridPoint grid x) ((raw.drop i).take m.segmentLength) := by
  have key : ∀ l : List (Option ℝ), (Seg.flat l).missing = true → m.likelihood grid (.flat l) x = 1 := fun l hl => by
    rw [OM.likelihood, processedPdf, pdfOrOnes, if_pos hl]
  by_cases hs : m.segmentLength = 1
  · rw [hs] at hi
    have ht : (raw.drop i).take m.segmentLength = [raw[i]] := by
      rw [List.drop_eq_getElem_cons (by omega), hs]; rfl
    rw [ht]
    match hy : raw[i] with
    | none => rw [key _ rfl]; rfl
    | some y =>
        rcases hm with hm | ⟨rfl, hm⟩
        · have ha : Admissible m (gridPoint grid x) := by rcases hm with rfl | rfl | rfl | rfl | rfl <;> exact h
          have := (Props.C57 m hm grid x ha 0).1 y
          have hp : m ≠ .poisson := by rcases hm with rfl | rfl | rfl | rfl | rfl <;> simp
          simpa [dataSegment, hs, observed, hp] using this
        · obtain ⟨k, rfl⟩ := hm y (hy ▸ List.getElem_mem (by omega))
          have h0 : 0 < gridPoint grid x 0 := h
          simpa [observed] using (Props.C56_poisson grid x h0.le).1 k
  · have hs2 : m.segmentLength = 2 := by cases m <;> simp_all [OM.segmentLength]
    rw [hs2] at hi
    have ht : (raw.drop i).take m.segmentLength = [raw[i], raw[i + 1]] := by
      rw [List.drop_eq_getElem_cons (by omega), List.drop_eq_getElem_cons (by omega), hs2]; rfl
    rw [ht]
    match hy : raw[i], hy' : raw[i + 1] with
    | none, none => rw [key _ rfl]; rfl
    | none, some _ => rw [key _ rfl]; rfl
    | some _, none => rw [key _ rfl]; rfl
    | some y, some y' =>
        rcases hm with hm | ⟨rfl, -⟩
        · have ha : Admissible m (gridPoint grid x) := by rcases hm with rfl | rfl | rfl | rfl | rfl <;> exact h
          have := (Props.C57 m hm grid x ha y).1 y'
          simpa [dataSegment, hs2, observed] using this
        · simp [OM.segmentLength] at hs2

theorem measured_eq {d : ℕ} {gs : Fin d → ℕ} (grid : (a : Fin d) → Fin (gs a) → ℝ) (x : Idx gs) (r : Fin 2 → Option ℝ) (hr : ∀ σ, r 1 = some σ → 0 < σ) :
    OM.gaussianMean.likelihood grid (.rows 2 [r]) x = measured (gridPoint grid x 0) r := by
  have key : ∀ r : Fin 2 → Option ℝ, (Seg.rows 2 [r]).missing = true → OM.gaussianMean.likelihood grid (.rows 2 [r]) x = 1 := fun r hl => by
    rw [OM.likelihood, processedPdf, OM.multiplyLikelihoods, if_neg (by simp), pdfOrOnes, if_pos hl]
  have hr2 : r = ![r 0, r 1] := by
    funext j; fin_cases j <;> rfl
  match h0 : r 0, h1 : r 1 with
  | some y, some σ =>
      have := (Props.C57_gaussianMean grid x σ (hr σ h1)).1 y
      rw [hr2, h0, h1, this]
      simp [measured]
  | none, _ => rw [key r (by simp [Seg.missing, List.finRange_succ, h0])]; simp [measured, h0]
  | some _, none => rw [key r (by simp [Seg.missing, List.finRange_succ, h1])]; simp [measured, h0, h1]

theorem functionPrior_none {d : ℕ} {gs : Fin d → ℕ} {v : Idx gs → FV ℝ} (x : Idx gs) (h : v x = .pinf) : functionPrior v = .array none := by
  rw [functionPrior, if_neg]
  intro hc
  have := hc x
  rw [h] at this
  simp [FV.fin?] at this

/-- the configured study if the parameters need not be different -/
structure Base {D : Type} (m : OM) (names : List String) (obs : D → Option ℝ) (raw : List D) (tm : TM ℝ) (g : List (List ℝ)) (S : Cfg ℝ D) : Prop where
  data : S.rawData = raw
  stamps : S.rawTimestamps = some ((List.range raw.length).map fun i : ℕ => (i : ℝ))
  om : S.om = some (m.auto names obs)
  tm : S.tm = some (tm, S.lattice)
  grid : S.grid = g
  shape : ∀ a, 0 < S.shape a

theorem one_base {D : Type} (m : OM) (nm : String) (obs : D → Option ℝ) (raw : List D) (tm : TM ℝ) (htm : NoBreakPoint tm) (a s : ℝ) (hs : 0 ≤ s) (k n : ℕ) (hn : 2 ≤ n) (v : List ℝ)
    (hv : v = (List.range' k n).map fun i : ℕ => a + (i : ℝ) * s) (hest : m.estimate 0 (raw.map obs) = some v) :
    ∃ S, Configured m [nm] obs raw tm S ∧ Base m [nm] obs raw tm [v] S := by
  refine ⟨_, set_om_tm _ _ _ tm htm (auto_one m nm obs _ a s hs k n hn v hv hest), rfl, rfl, rfl, rfl, rfl, ?_⟩
  intro b
  obtain ⟨b, hb⟩ := b
  simp only [List.length_cons, List.length_nil] at hb
  interval_cases b
  simp [Cfg.shape, hv]; omega

theorem two_base {D : Type} (m : OM) (n1 n2 : String) (hne : n1 ≠ n2) (obs : D → Option ℝ) (raw : List D) (tm : TM ℝ) (htm : NoBreakPoint tm) (a s a' s' : ℝ) (hs : 0 ≤ s) (hs' : 0 ≤ s')
    (k n k' n' : ℕ) (hn : 2 ≤ n) (hn' : 2 ≤ n') (v v' : List ℝ) (hv : v = (List.range' k n).map fun i : ℕ => a + (i : ℝ) * s) (hv' : v' = (List.range' k' n').map fun i : ℕ => a' + (i : ℝ) * s')
    (hest : m.estimate 0 (raw.map obs) = some v) (hest' : m.estimate 1 (raw.map obs) = some v') :
    ∃ S, Configured m [n1, n2] obs raw tm S ∧ Base m [n1, n2] obs raw tm [v, v'] S := by
  refine ⟨_, set_om_tm _ _ _ tm htm (auto_two m n1 n2 hne obs _ a s a' s' hs hs' k n k' n' hn hn' v v' hv hv' hest hest'), rfl, rfl, rfl, rfl, rfl, ?_⟩
  intro b
  obtain ⟨b, hb⟩ := b
  simp only [List.length_cons, List.length_nil] at hb
  interval_cases b
  · simp [Cfg.shape, hv]; omega
  · simp [Cfg.shape, hv']; omega

/-- every value of a parameter belongs to a point of the grid -/
theorem axes_surj {D : Type} (S : Cfg ℝ D) (hs : ∀ a, 0 < S.shape a) (n : ℕ) (v : List ℝ) (h : S.grid[n]? = some v) (w : ℝ) (hw : w ∈ v) : ∃ x : Idx S.shape, gridPoint S.axes x n = w := by
  obtain ⟨hn, h'⟩ := List.getElem?_eq_some_iff.1 h
  subst h'
  obtain ⟨i, hi, rfl⟩ := List.mem_iff_getElem.1 hw
  refine ⟨Function.update (fun a => ⟨0, hs a⟩) ⟨n, hn⟩ ⟨i, hi⟩, ?_⟩
  rw [gridPoint, dif_pos hn, Function.update_self]
  rfl

theorem infinite_fit {D : Type} {m : OM} {names : List String} {obs : D → Option ℝ} {raw : List D} {tm : TM ℝ} {g : List (List ℝ)} {S : Cfg ℝ D} (hS : Base m names obs raw tm g S) (hnames : tm.flatNames.Nodup)
    (hn : m.segmentLength ≤ raw.length) (hraw : raw ≠ []) (n : ℕ) (v : List ℝ) (hg : g[n]? = some v) (w : ℝ) (hw : w ∈ v) (f : (ℕ → ℝ) → FV ℝ) (hf : m.defaultPrior = some f) (hinf : ∀ θ, θ n = w → f θ = .pinf)
    (pdf : List D → Idx S.shape → ℝ) (ext : Ext ℝ S.shape) (fo eo : Bool) : ∃ R, S.fit ext pdf (m.defaultSpec S.axes) fo eo = .ok R ∧ R.logEv.exp = 0 := by
  have hdup : (duplicates tm.flatNames).length = 0 := by rw [(Props.duplicates_eq_nil _).2 hnames]; rfl
  obtain ⟨x, hx⟩ := axes_surj S hS.shape n v (by rw [hS.grid]; exact hg) w hw
  have hspec : m.defaultSpec S.axes = .array none := by
    rw [OM.defaultSpec, hf]
    exact functionPrior_none x (hinf _ hx)
  rw [hspec]
  obtain ⟨R, h1, h2⟩ := Cfg.fit_nan hS.om hS.tm hdup hS.stamps (by rw [hS.data]; exact hn) (by rw [hS.data]; exact hraw) ext pdf fo eo
  exact ⟨R, h1, by rw [h2]; rfl⟩

theorem nanMean_constant {raw : List (Option ℝ)} {c : ℝ} (hc : some c ∈ raw) (h : ∀ x, some x ∈ raw → x = c) : nanMean raw = some c ∧ nanStd raw = some 0 := by
  have hrep : present raw = List.replicate (present raw).length c := List.eq_replicate_iff.2 ⟨rfl, fun x hx => h x (mem_present.1 hx)⟩
  have hlen : 0 < (present raw).length := List.length_pos_of_mem (mem_present.2 hc)
  have hne : present raw ≠ [] := List.length_pos_iff.1 hlen
  have h1 : nanMean raw = some c := by
    rw [nanMean, if_neg hne]
    generalize (present raw).length = N at hrep hlen
    rw [hrep]
    have : (N : ℝ) ≠ 0 := by positivity
    simp [this]
  refine ⟨h1, ?_⟩
  rw [nanStd, h1]
  generalize (present raw).length = N at hrep hlen
  rw [hrep]
  simp

theorem nanMax_zero {raw : List (Option ℝ)} (hc : some 0 ∈ raw) (h : ∀ x, some x ∈ raw → x = 0) : nanMax raw = some 0 := by
  obtain ⟨M, hM⟩ := listMax_exists (mem_present.2 hc)
  rw [nanMax, hM, h M (mem_present.1 (listMax_mem hM).1)]

theorem zero_mem_oint (n : ℕ) (hn : 0 < n) : (0 : ℝ) ∈ oint 0 0 n := by
  rw [oint_form]
  exact List.mem_map.2 ⟨1, by simp [List.mem_range']; omega, by simp⟩

end BL

namespace Props
open BL Spec

/-- **C62 (partial).** A study whose observation model is created without parameter values and prior: `loadData` with default timestamps, then `set` with the observation model and a transition model (not a single
break-point).  Observations may be missing.  If at least two observations differ (Poisson: all are natural numbers and one is positive), `set` raises no error and chooses only parameter values at which likelihood and
prior are defined.  A following fit, in every mode, succeeds; the evidence is the mean of the product of the documented likelihoods over all parameter paths, where the first parameter is distributed according to the
default prior, and it is positive.
Missing from the full statement: Bernoulli and constant data, for which it is false (below); transition models outside `Linear`; default priors whose values happen to sum to one exactly (C16). -/
theorem C62_partial (m : OM) (names : List String) (hnd : names.Nodup) (hlen : names.length = m.nParameters) (raw : List (Option ℝ))
    (hm : RealValued m ∨ m = .poisson ∧ ∀ x, some x ∈ raw → ∃ k : ℕ, x = k) (hraw : Usable m raw) (tm : TM ℝ) (htm : NoBreakPoint tm) (hnames : tm.flatNames.Nodup) (hR : ResetFree tm)
    {n : ℕ} (hn : m.segmentLength + n = raw.length) :
    ∃ S : Cfg ℝ (Option ℝ), Configured m names id raw tm S ∧ (∀ x, Interior m (gridPoint S.axes x)) ∧
      ∀ (ext : Ext ℝ S.shape), GaussOK ext → Linear (S.env names ext) tm → ∑ x, defaultWeight m (gridPoint S.axes x) ≠ 1 → ∀ fo eo : Bool,
        ∃ R, S.fit ext (fun s => m.likelihood S.axes (.flat s)) (m.defaultSpec S.axes) fo eo = .ok R ∧
          R.logEv.exp = evidence (fun x => defaultWeight m (gridPoint S.axes x) / ∑ y, defaultWeight m (gridPoint S.axes y))
            (fun i : Fin n => kernel (S.env names ext) (fun x => defaultWeight m (gridPoint S.axes x) / ∑ y, defaultWeight m (gridPoint S.axes y)) tm ((i.val + (m.segmentLength - 1) : ℕ) : ℝ))
            (fun (i : Fin (n + 1)) x => observed m (gridPoint S.axes x) ((raw.drop i).take m.segmentLength)) ∧
          0 < R.logEv.exp := by
  obtain ⟨S, h1, h2⟩ := auto_sound m names hnd hlen id raw (by simpa using hraw) tm htm
  refine ⟨S, h1, h2.interior, fun ext hX hL hw fo eo => ?_⟩
  have hfun : (fun (i : Fin (n + 1)) x => observed m (gridPoint S.axes x) ((raw.drop i).take m.segmentLength)) = fun (i : Fin (n + 1)) => m.likelihood S.axes (.flat ((raw.drop i).take m.segmentLength)) := by
    funext i x
    exact (observed_eq hm S.axes x (h2.interior x) i (by have := i.isLt; omega)).symm
  rw [hfun]
  refine auto_fit h2 hnames hR hn .flat (fun i hi x => ?_) ext hX hL hw fo eo
  rw [OM.likelihood, processedPdf]
  refine pdfOrOnes_pos fun hmis => pdf_pos ?_ (h2.interior x) _ fun hp => ?_
  · rcases hm with (rfl | rfl | rfl | rfl | rfl) | ⟨rfl, -⟩ <;> simp
  · subst hp
    rcases hm with hm | ⟨-, hm⟩
    · simp [RealValued] at hm
    have hl : i < raw.length := by
      simp only [OM.segmentLength] at hn
      omega
    have ht : (raw.drop i).take OM.poisson.segmentLength = [raw[i]] := by
      rw [List.drop_eq_getElem_cons hl]; rfl
    rw [ht] at hmis ⊢
    match hy : raw[i] with
    | none => rw [hy] at hmis; simp [Seg.missing] at hmis
    | some y => exact hm y (hy ▸ List.getElem_mem hl)

/-- **C62 (GaussianMean, partial).** The same for observations with given positive standard deviations: two different observations are sufficient.  Here the default prior is flat. -/
theorem C62_gaussianMean_partial (nm : String) (raw : List (Fin 2 → Option ℝ)) (hraw : Varied (raw.map fun r => r 0)) (hσ : ∀ r ∈ raw, ∀ σ, r 1 = some σ → 0 < σ) (tm : TM ℝ) (htm : NoBreakPoint tm)
    (hnames : tm.flatNames.Nodup) (hR : ResetFree tm) {n : ℕ} (hn : 1 + n = raw.length) :
    ∃ S : Cfg ℝ (Fin 2 → Option ℝ), Configured .gaussianMean [nm] (fun r => r 0) raw tm S ∧
      ∀ (ext : Ext ℝ S.shape), GaussOK ext → Linear (S.env [nm] ext) tm → ∀ fo eo : Bool,
        ∃ R, S.fit ext (fun s => OM.gaussianMean.likelihood S.axes (.rows 2 s)) (OM.gaussianMean.defaultSpec S.axes) fo eo = .ok R ∧
          R.logEv.exp = evidence (fun _ => 1 / (Fintype.card (Idx S.shape) : ℝ)) (fun i : Fin n => kernel (S.env [nm] ext) (fun _ => 1 / (Fintype.card (Idx S.shape) : ℝ)) tm (i.val : ℝ))
            (fun (i : Fin (n + 1)) x => measured (gridPoint S.axes x 0) (raw[i]'(by have := i.isLt; omega))) ∧
          0 < R.logEv.exp := by
  obtain ⟨S, h1, h2⟩ := auto_sound .gaussianMean [nm] (by simp) rfl (fun r : Fin 2 → Option ℝ => r 0) raw hraw tm htm
  refine ⟨S, h1, fun ext hX hL fo eo => ?_⟩
  have hc : ∑ x : Idx S.shape, defaultWeight .gaussianMean (gridPoint S.axes x) = (Fintype.card (Idx S.shape) : ℝ) := by
    simp [defaultWeight]
  have hcard := h2.card (by simp)
  have hfun : (fun (i : Fin (n + 1)) x => measured (gridPoint S.axes x 0) (raw[i]'(by have := i.isLt; omega))) =
      fun (i : Fin (n + 1)) => OM.gaussianMean.likelihood S.axes (.rows 2 ((raw.drop i).take 1)) := by
    funext i x
    have hi : i.val < raw.length := by have := i.isLt; omega
    rw [List.drop_eq_getElem_cons hi]
    exact (measured_eq S.axes x _ (hσ _ (List.getElem_mem hi))).symm
  have hpos : ∀ i < n + 1, ∀ x, 0 < OM.gaussianMean.likelihood S.axes (.rows 2 ((raw.drop i).take OM.gaussianMean.segmentLength)) x := by
    intro i _ x
    rw [OM.likelihood, processedPdf, OM.multiplyLikelihoods, if_neg (by simp)]
    exact pdfOrOnes_pos fun _ => pdf_pos (by simp) (h2.interior x) _ (by simp)
  have := auto_fit h2 hnames hR hn (.rows 2) hpos ext hX hL (by rw [hc]; exact hcard) fo eo
  rw [hc] at this
  rw [hfun]
  simpa [defaultWeight, OM.segmentLength] using this

/-- **C62 is false for Bernoulli**: the automatic parameter values contain 0 and 1, where the default prior is infinite.  Every fit of every non-empty data set ends with evidence zero. -/
theorem C62_refuted (nm : String) (raw : List (Option ℝ)) (hraw : raw ≠ []) (tm : TM ℝ) (htm : NoBreakPoint tm) (hnames : tm.flatNames.Nodup) :
    ∃ S : Cfg ℝ (Option ℝ), Configured .bernoulli [nm] id raw tm S ∧
      ∀ (ext : Ext ℝ S.shape) (fo eo : Bool), ∃ R, S.fit ext (fun s => OM.bernoulli.likelihood S.axes (.flat s)) (OM.bernoulli.defaultSpec S.axes) fo eo = .ok R ∧ R.logEv.exp = 0 := by
  obtain ⟨S, h1, h2⟩ := one_base .bernoulli nm id raw tm htm 0 _ (by norm_num) 0 1000 (by norm_num) _ (cint_form 0 1 1000) rfl
  refine ⟨S, h1, fun ext fo eo => infinite_fit h2 hnames (List.length_pos_iff.2 hraw) hraw 0 _ rfl 0 ?_ _ rfl (fun θ h => ?_) _ ext fo eo⟩
  · rw [cint_form]
    exact List.mem_map.2 ⟨0, by simp, by simp⟩
  · simp [h, FV.sqrt, FV.div, FV.infMul]

/-- **C62 is false for constant data** (Gaussian, Laplace, WhiteNoise), and for Poisson if no event is observed: the estimated scale is zero, all parameter values coincide, the default prior is infinite, and every fit
ends with evidence zero. -/
theorem C62_constant_refuted (m : OM) (names : List String) (hnd : names.Nodup) (hlen : names.length = m.nParameters) (raw : List (Option ℝ)) (hraw : Degenerate m raw) (tm : TM ℝ) (htm : NoBreakPoint tm)
    (hnames : tm.flatNames.Nodup) :
    ∃ S : Cfg ℝ (Option ℝ), Configured m names id raw tm S ∧
      ∀ (ext : Ext ℝ S.shape) (fo eo : Bool), ∃ R, S.fit ext (fun s => m.likelihood S.axes (.flat s)) (m.defaultSpec S.axes) fo eo = .ok R ∧ R.logEv.exp = 0 := by
  have hone : m.nParameters = 1 → ∃ n1, names = [n1] := fun h => List.length_eq_one_iff.1 (hlen.trans h)
  have htwo : m.nParameters = 2 → ∃ n1 n2, n1 ≠ n2 ∧ names = [n1, n2] := fun h => by
    obtain ⟨n1, n2, rfl⟩ := List.length_eq_two.1 (hlen.trans h)
    exact ⟨n1, n2, by simpa using hnd, rfl⟩
  have hlen1 : ∀ {c : ℝ}, some c ∈ raw → raw ≠ [] ∧ 1 ≤ raw.length := fun h => ⟨List.ne_nil_of_mem h, List.length_pos_of_mem h⟩
  have hm : raw.map id = raw := by simp
  match m with
  | .poisson =>
      obtain ⟨n1, rfl⟩ := hone rfl
      have hM := nanMax_zero hraw.1 hraw.2
      obtain ⟨S, h1, h2⟩ := one_base .poisson n1 id raw tm htm 0 _ (by norm_num) 1 1000 (by norm_num) _ (oint_form 0 0 1000) (by simp [OM.estimate, hm, hM])
      exact ⟨S, h1, fun ext fo eo => infinite_fit h2 hnames (hlen1 hraw.1).2 (hlen1 hraw.1).1 0 _ rfl 0 (zero_mem_oint _ (by norm_num)) _ rfl (fun θ h => by simp [h, FV.sqrt, FV.div, FV.infMul]) _ ext fo eo⟩
  | .gaussian =>
      obtain ⟨n1, n2, hne, rfl⟩ := htwo rfl
      obtain ⟨c, hc, hall⟩ := hraw
      obtain ⟨hμ, hs⟩ := nanMean_constant hc hall
      obtain ⟨S, h1, h2⟩ := two_base .gaussian n1 n2 hne id raw tm htm c _ 0 _ (by norm_num) (by norm_num) 0 200 1 200 (by norm_num) (by norm_num) _ _ (cint_form c c 200) (oint_form 0 0 200)
        (by simp [OM.estimate, hm, hμ, hs]) (by simp [OM.estimate, hm, hs])
      exact ⟨S, h1, fun ext fo eo => infinite_fit h2 hnames (hlen1 hc).2 (hlen1 hc).1 1 _ rfl 0 (zero_mem_oint _ (by norm_num)) _ rfl (fun θ h => by simp [h, FV.div, FV.infMul]) _ ext fo eo⟩
  | .laplace =>
      obtain ⟨n1, n2, hne, rfl⟩ := htwo rfl
      obtain ⟨c, hc, hall⟩ := hraw
      obtain ⟨hμ, hs⟩ := nanMean_constant hc hall
      obtain ⟨S, h1, h2⟩ := two_base .laplace n1 n2 hne id raw tm htm c _ 0 _ (by norm_num) (by norm_num) 0 200 1 200 (by norm_num) (by norm_num) _ _ (cint_form c c 200) (oint_form 0 0 200)
        (by simp [OM.estimate, hm, hμ, hs]) (by simp [OM.estimate, hm, hs])
      exact ⟨S, h1, fun ext fo eo => infinite_fit h2 hnames (hlen1 hc).2 (hlen1 hc).1 1 _ rfl 0 (zero_mem_oint _ (by norm_num)) _ rfl (fun θ h => by simp [h, FV.div, FV.infMul]) _ ext fo eo⟩
  | .whiteNoise =>
      obtain ⟨n1, rfl⟩ := hone rfl
      obtain ⟨c, hc, hall⟩ := hraw
      obtain ⟨hμ, hs⟩ := nanMean_constant hc hall
      obtain ⟨S, h1, h2⟩ := one_base .whiteNoise n1 id raw tm htm 0 _ (by norm_num) 1 1000 (by norm_num) _ (oint_form 0 0 1000) (by simp [OM.estimate, hm, hs])
      exact ⟨S, h1, fun ext fo eo => infinite_fit h2 hnames (hlen1 hc).2 (hlen1 hc).1 0 _ rfl 0 (zero_mem_oint _ (by norm_num)) _ rfl (fun θ h => by simp [h, FV.div, FV.infMul]) _ ext fo eo⟩

theorem axis_of_name {K : Type} {d : ℕ} {gs : Fin d → ℕ} (E : Env K gs) (target : String) (a : Fin d) (h : E.names a = target) : ∃ b, E.axis target = .ok b := by
  unfold Env.axis
  match hf : (List.finRange d).find? (fun a => E.names a = target) with
  | some b => exact ⟨b, rfl⟩
  | none =>
      rw [List.find?_eq_none] at hf
      exact absurd h (by simpa using hf a (List.mem_finRange a))

/-- The hypotheses of `C62_partial` are met: an auto-regressive process with one missing observation; its correlation follows a random walk (with the weights of scipy). -/
example : ∃ S : Cfg ℝ (Option ℝ), Configured .ar1 ["r", "s"] id [some 1, none, some 3, some 2] (.leaf (.grw "r") ["sigma"] [.scalar 1] none) S ∧
    ∃ R, S.fit (realExt 2 fun _ _ p => p) (fun s => OM.ar1.likelihood S.axes (.flat s)) (OM.ar1.defaultSpec S.axes) false false = .ok R ∧ 0 < R.logEv.exp := by
  have hu : Usable .ar1 [some 1, none, some 3, some 2] := ⟨1, by simp, 3, by simp, by norm_num⟩
  have htm : NoBreakPoint (.leaf (.grw "r") ["sigma"] [.scalar 1] none) := fun _ _ _ h => by simp at h
  obtain ⟨S, h1, -, h3⟩ := C62_partial .ar1 ["r", "s"] (by simp) rfl [some 1, none, some 3, some 2] (Or.inl (by simp [RealValued])) hu (.leaf (.grw "r") ["sigma"] [.scalar 1] none) htm
    (List.nodup_singleton "sigma") (by simp [ResetFree]) (n := 2) rfl
  obtain ⟨S', h1', h2⟩ := auto_sound .ar1 ["r", "s"] (by simp) rfl id [some 1, none, some 3, some 2] (by simpa using hu) (.leaf (.grw "r") ["sigma"] [.scalar 1] none) htm
  have hS : S = S' := congrArg Prod.fst (h1.symm.trans h1')
  subst hS
  obtain ⟨R, h4, -, h5⟩ := h3 (realExt 2 fun _ _ p => p) (realExt_gaussOK _ _) ⟨axis_of_name _ "r" ⟨0, by rw [h2.dims]; simp⟩ rfl, 1, rfl⟩
    (by simpa [defaultWeight] using h2.card (by simp)) false false
  exact ⟨S, h1, R, h4, h5⟩

/-- … for the other theorems: a measurement without standard deviation; constant data with a missing observation -/
example : Varied ([![some 1, some 2], ![some 3, none]].map fun r : Fin 2 → Option ℝ => r 0) := ⟨1, by simp, 3, by simp, by norm_num⟩
example : Degenerate .gaussian [some 3, none, some 3] := ⟨3, by simp, by simp⟩
example : NoBreakPoint (.combined [.leaf (.grw "r") ["sigma"] [.scalar 1] none, .leaf .static [] [] none]) ∧ (TM.combined (K := ℝ) [.leaf (.grw "r") ["sigma"] [.scalar 1] none, .leaf .static [] [] none]).flatNames.Nodup :=
  ⟨fun _ _ _ h => by simp at h, List.nodup_singleton "sigma"⟩

end Props
