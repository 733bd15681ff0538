import Verif.Lemmas.Grids
import Verif.Lemmas.ContinuumExists
import Verif.Lemmas.FitLin
import Verif.Lemmas.Resets
import Verif.Props.C04

/-! # Fits on finer and finer grids -/

set_option linter.unusedSectionVars false

namespace BL
open Spec Filter Topology

variable {d : ℕ} {closed : Fin d → Bool} {a b : Fin d → ℝ} {N : ℕ → Fin d → ℕ} {grid : (n : ℕ) → (k : Fin d) → Fin (N n k) → ℝ} {lattice : ℕ → Fin d → ℝ}
  {names : Fin d → String} {l : ℕ → ℕ} {shift : (n : ℕ) → Fin d → ℝ → (Idx (N n) → ℝ) → (Idx (N n) → ℝ)}

theorem onGrid_isArray {gs : Fin d → ℕ} (g : (k : Fin d) → Fin (gs k) → ℝ) (U : UserPrior d) : (U.onGrid g : PriorSpec ℝ gs).isArray = false := by cases U <;> rfl

/-- the forward pass, seen from `fit` -/
theorem grid_forward (G : FinerGrids closed a b N grid lattice) (hd : 0 < d) (U : UserPrior d) (hU : U.Regular a b) (tm : TM ℝ) {data : List (Dens d × ℝ)} (hne : data ≠ [])
    (hL : ∀ D ∈ data, ContinuousOn D.1 (Set.Icc a b)) {out : List (ℝ × Dens d)} {k : ℕ} (hF : Filtered a b (Moves names a b (U.reset a b) tm) (U.start a b, 0) data out k) :
    ∃ (p : (n : ℕ) → Arr ℝ (N n)) (steps : (n : ℕ) → List (Step ℝ (N n))),
      (∀ᶠ n in atTop, computePrior (studyOn names U (grid n) (lattice n) (l n) (shift n)) = .ok (p n, U.onGrid (grid n)) ∧
        fwdPass (studyOn names U (grid n) (lattice n) (l n) (shift n)) tm false (U.onGrid (grid n)) (p n) (likOn (grid n) data) (data.map Prod.snd) = .ok ⟨steps n, false, U.onGrid (grid n)⟩) ∧
      StepsConv (gFirst closed a b N) (gStep closed a b N) steps (List.zipWith (fun o D => (o.2, D.1, D.2)) out data) ∧
      (∀ o ∈ out, ContinuousOn o.2 (Set.Icc a b)) ∧ out.length = data.length ∧
      Tendsto (fun n => (sumLog (studyOn names U (grid n) (lattice n) (l n) (shift n)) (steps n)).exp / (∏ k, lattice n k) ^ k) atTop (𝓝 (out.map Prod.fst).prod) := by
  obtain ⟨hr, hrc⟩ := reset_tends (names := names) (l := l) (shift := shift) G U hU
  obtain ⟨p, hp1, hp2, hp3⟩ := start_tends (names := names) (l := l) (shift := shift) G hd U hU
  obtain ⟨steps, h1, h2, h3, h4, h5⟩ := forward_pass_start G.mesh (G.refines U) hr hrc tm hF hL hne hp2 hp3
  refine ⟨p, steps, ?_, h2, h3, h4, ?_⟩
  · filter_upwards [h1, hp1] with n e1 e2
    rw [← G.likOn_eq] at e1
    exact ⟨e2, e1⟩
  · refine h5.congr fun n => ?_
    rw [sumLog_exp]
    simp only [Env.cell, studyOn, G.lattice_eq]
    rfl

theorem grid_fit_forward (G : FinerGrids closed a b N grid lattice) (hd : 0 < d) (U : UserPrior d) (hU : U.Regular a b) (tm : TM ℝ) {data : List (Dens d × ℝ)} (hne : data ≠ [])
    (hL : ∀ D ∈ data, ContinuousOn D.1 (Set.Icc a b)) {out : List (ℝ × Dens d)} {k : ℕ} (hF : Filtered a b (Moves names a b (U.reset a b) tm) (U.start a b, 0) data out k)
    (S : (n : ℕ) → FitState ℝ (N n)) (hS : ∀ n, (S n).prior = U.onGrid (grid n)) (eo : Bool) :
    ∃ S' : (n : ℕ) → FitState ℝ (N n),
      (∀ᶠ n in atTop, fit (studyOn names U (grid n) (lattice n) (l n) (shift n)) (grid n) tm (likOn (grid n) data) (data.map Prod.snd) true eo (S n) = .ok (S' n)) ∧
      Tendsto (fun n => (S' n).logEv.exp / (∏ k, lattice n k) ^ k) atTop (𝓝 (out.map Prod.fst).prod) ∧
      (eo = false → PostsTo grid lattice (fun n => (S' n).posts) (out.map Prod.snd) ∧ MeansTo a b (fun n => (S' n).means) (out.map Prod.snd)) := by
  obtain ⟨p, steps, h1, h2, h3, h4, h5⟩ := grid_forward (names := names) (l := l) (shift := shift) G hd U hU tm hne hL hF
  have hcells := steps_cells h2
  rw [zipWith_fst _ _ h4] at hcells
  have hout : ∀ ρ ∈ out.map Prod.snd, ContinuousOn ρ (Set.Icc a b) := by
    intro ρ hρ
    obtain ⟨o, ho, rfl⟩ := List.mem_map.1 hρ
    exact h3 o ho
  refine ⟨fun n => if eo then { S n with prior := U.onGrid (grid n), locals := (steps n).map fun s => Cell.val (s.norm * (studyOn names U (grid n) (lattice n) (l n) (shift n)).cell), logEv := sumLog (studyOn names U (grid n) (lattice n) (l n) (shift n)) (steps n), means := fun _ => [] }
    else { prior := U.onGrid (grid n), posts := (steps n).map fun s => Cell.val s.alpha, locals := (steps n).map fun s => Cell.val (s.norm * (studyOn names U (grid n) (lattice n) (l n) (shift n)).cell), logEv := sumLog (studyOn names U (grid n) (lattice n) (l n) (shift n)) (steps n),
           means := fun k => (steps n).map fun s => mean (grid n) k s.alpha }, ?_, ?_, ?_⟩
  · filter_upwards [h1] with n e1
    have hE : ({ studyOn names U (grid n) (lattice n) (l n) (shift n) with prior := (S n).prior } : Env ℝ (N n)) = studyOn names U (grid n) (lattice n) (l n) (shift n) := by
      rw [hS]; rfl
    unfold fit
    rw [hE, e1.1]
    simp only [Bind.bind, Except.bind, onGrid_isArray, e1.2]
    cases eo <;> simp
  · refine h5.congr fun n => ?_
    cases eo <;> simp
  · rintro rfl
    simp only [Bool.false_eq_true, if_false]
    refine ⟨cells_posts G hcells, ?_⟩
    have := cells_means G hout hcells
    simpa only [means_map] using this

theorem stepsConv_tail {c h : ℕ → Fin d → ℝ} {steps : (n : ℕ) → List (Step ℝ (N n))} {i : Dens d × Dens d × ℝ} {items : List (Dens d × Dens d × ℝ)} (hst : StepsConv c h steps (i :: items)) :
    ∃ rest : (n : ℕ) → List (Step ℝ (N n)), StepsConv c h rest items := by
  obtain ⟨st, rest, h1, h2, h3, h4, h5⟩ := hst
  exact ⟨rest, h5⟩

/-- smoothing densities are continuous -/
theorem posts_continuousOn {c h : ℕ → Fin d → ℝ} {E : (n : ℕ) → Env ℝ (N n)} {reset : Dens d} (M : Mesh a b N c h) (R : Refines names h E) (hr : Tends c h 1 (fun n => (E n).resetArr) reset) (hrc : ContinuousOn reset (Set.Icc a b)) (tm : TM ℝ)
    {items : List (Dens d × Dens d × ℝ)} {posts : List (Dens d)} {β : Dens d} (hS : Smoothed a b (Moves names a b reset tm) items posts β)
    (hc : ∀ i ∈ items, ContinuousOn i.1 (Set.Icc a b) ∧ ContinuousOn i.2.1 (Set.Icc a b)) {steps : (n : ℕ) → List (Step ℝ (N n))} (hst : StepsConv c h steps items) :
    ∀ ρ ∈ posts, ContinuousOn ρ (Set.Icc a b) := by
  induction hS generalizing steps with
  | done => simp
  | data ρ L t rest posts β s' h1 hpos hm hne ih =>
    obtain ⟨steps', hst'⟩ := stepsConv_tail hst
    obtain ⟨-, -, -, -, -, hβ⟩ := backward_pass M R hr hrc tm h1 (fun i hi => hc i (List.mem_cons_of_mem _ hi)) hst'
    intro ρ' hρ'
    rcases List.mem_cons.1 hρ' with rfl | hρ'
    · exact unitMass_continuousOn ((hc _ List.mem_cons_self).1.mul hβ)
    · exact ih (fun i hi => hc i (List.mem_cons_of_mem _ hi)) hst' ρ' hρ'

theorem mem_zipWith_items {out : List (ℝ × Dens d)} {data : List (Dens d × ℝ)} {i : Dens d × Dens d × ℝ} (hi : i ∈ List.zipWith (fun o D => (o.2, D.1, D.2)) out data) :
    ∃ o ∈ out, ∃ D ∈ data, i = (o.2, D.1, D.2) := by
  induction out generalizing data with
  | nil => simp at hi
  | cons o out ih =>
    cases data with
    | nil => simp at hi
    | cons D data =>
      rcases List.mem_cons.1 (by simpa only [List.zipWith_cons_cons] using hi) with rfl | hi
      · exact ⟨o, List.mem_cons_self, D, List.mem_cons_self, rfl⟩
      · obtain ⟨o', ho', D', hD', rfl⟩ := ih hi
        exact ⟨o', List.mem_cons_of_mem _ ho', D', List.mem_cons_of_mem _ hD', rfl⟩

theorem grid_fit_full (G : FinerGrids closed a b N grid lattice) (hd : 0 < d) (U : UserPrior d) (hU : U.Regular a b) (tm : TM ℝ) {data : List (Dens d × ℝ)} (hne : data ≠ [])
    (hL : ∀ D ∈ data, ContinuousOn D.1 (Set.Icc a b)) {out : List (ℝ × Dens d)} {k : ℕ} (hF : Filtered a b (Moves names a b (U.reset a b) tm) (U.start a b, 0) data out k)
    {posts : List (Dens d)} {β : Dens d} (hB : Smoothed a b (Moves names a b (U.reset a b) tm) (List.zipWith (fun o D => (o.2, D.1, D.2)) out data) posts β)
    (S : (n : ℕ) → FitState ℝ (N n)) (hS : ∀ n, (S n).prior = U.onGrid (grid n)) :
    ∃ S' : (n : ℕ) → FitState ℝ (N n),
      (∀ᶠ n in atTop, fit (studyOn names U (grid n) (lattice n) (l n) (shift n)) (grid n) tm (likOn (grid n) data) (data.map Prod.snd) false false (S n) = .ok (S' n)) ∧
      Tendsto (fun n => (S' n).logEv.exp / (∏ k, lattice n k) ^ k) atTop (𝓝 (out.map Prod.fst).prod) ∧
      CellsConv (gFirst closed a b N) (gStep closed a b N) (fun n => (S' n).posts) posts ∧ (∀ ρ ∈ posts, ContinuousOn ρ (Set.Icc a b)) ∧ MeansTo a b (fun n => (S' n).means) posts := by
  obtain ⟨p, steps, h1, h2, h3, h4, h5⟩ := grid_forward (names := names) (l := l) (shift := shift) G hd U hU tm hne hL hF
  obtain ⟨hr, hrc⟩ := reset_tends (names := names) (l := l) (shift := shift) G U hU
  have hc : ∀ i ∈ List.zipWith (fun (o : ℝ × Dens d) (D : Dens d × ℝ) => (o.2, D.1, D.2)) out data, ContinuousOn i.1 (Set.Icc a b) ∧ ContinuousOn i.2.1 (Set.Icc a b) := by
    intro i hi
    obtain ⟨o, ho, D, hD, rfl⟩ := mem_zipWith_items hi
    exact ⟨h3 o ho, hL D hD⟩
  obtain ⟨o, b1, b2, b3, -, -⟩ := backward_pass G.mesh (G.refines U) hr hrc tm hB hc h2
  have hpc := posts_continuousOn G.mesh (G.refines U) hr hrc tm hB hc h2
  refine ⟨fun n => { prior := U.onGrid (grid n), posts := (o n).posts, locals := (o n).locals, logEv := sumLog (studyOn names U (grid n) (lattice n) (l n) (shift n)) (steps n),
                     means := fun k => (o n).posts.filterMap fun c => c.get?.map (mean (grid n) k) }, ?_, h5, b3, hpc, cells_means G hpc b3⟩
  filter_upwards [h1, b1, b2] with n e1 e2 e3
  have hE : ({ studyOn names U (grid n) (lattice n) (l n) (shift n) with prior := (S n).prior } : Env ℝ (N n)) = studyOn names U (grid n) (lattice n) (l n) (shift n) := by
    rw [hS]; rfl
  have e2' : bwdPass { studyOn names U (grid n) (lattice n) (l n) (shift n) with prior := U.onGrid (grid n) } tm (steps n) = .ok (o n) := e2
  unfold fit
  rw [hE, e1.1]
  simp only [Bind.bind, Except.bind, onGrid_isArray, e1.2, e2', e3, Bool.false_eq_true, if_false]

/-- multiplying one likelihood with a function of the parameters: expected value of this function -/
theorem evidence_update {ι K : Type} [Fintype ι] [DecidableEq ι] [Field K] {m : ℕ} (π : ι → K) (T : Fin m → ι → ι → K) (L : Fin (m + 1) → ι → K) (i : Fin (m + 1)) (φ : ι → K) :
    evidence π T (Function.update L i fun x => L i x * φ x) = ∑ x, Spec.marginal π T L i x * φ x := by
  have hw : ∀ z : Fin (m + 1) → ι, pathWeight π T (Function.update L i fun x => L i x * φ x) z = pathWeight π T L z * φ (z i) := by
    intro z
    unfold pathWeight
    rw [← Finset.mul_prod_erase _ _ (Finset.mem_univ i), ← Finset.mul_prod_erase _ (fun j => L j (z j)) (Finset.mem_univ i)]
    rw [Function.update_self]
    have : ∏ j ∈ Finset.univ.erase i, Function.update L i (fun x => L i x * φ x) j (z j) = ∏ j ∈ Finset.univ.erase i, L j (z j) := by
      refine Finset.prod_congr rfl fun j hj => ?_
      rw [Function.update_of_ne (Finset.ne_of_mem_erase hj)]
    rw [this]
    ring
  unfold evidence Spec.marginal
  rw [Finset.sum_congr rfl fun z _ => hw z, ← Finset.sum_fiberwise (s := Finset.univ) (g := fun z : Fin (m + 1) → ι => z i)]
  refine Finset.sum_congr rfl fun x _ => ?_
  rw [Finset.sum_mul]
  refine Finset.sum_congr rfl fun z hz => ?_
  rw [(Finset.mem_filter.1 hz).2]

theorem filtered_pos {moves : ℝ → Dens d × ℕ → Dens d × ℕ → Prop} {s : Dens d × ℕ} {data : List (Dens d × ℝ)} {out : List (ℝ × Dens d)} {k : ℕ} (h : Filtered a b moves s data out k) :
    0 < (out.map Prod.fst).prod := by
  induction h with
  | done => simp
  | data s s' L t rest out n hpos hm _ ih => simpa using mul_pos hpos ih

theorem study_regular (G : FinerGrids closed a b N grid lattice) (U : UserPrior d) (n : ℕ) : Regular (studyOn names U (grid n) (lattice n) (l n) (shift n)) where
  lattice_pos := fun k => by
    have := G.mesh.pos n k
    rwa [← G.lattice_eq] at this
  nonempty := ⟨fun k => ⟨0, by have := G.two n k; omega⟩⟩
  gauss := realExt_gaussOK _ _

theorem study_priorMass (G : FinerGrids closed a b N grid lattice) (hd : 0 < d) (U : UserPrior d) (hU : U.Regular a b) (hU0 : U.Nonneg a b) :
    ∀ᶠ n in atTop, ∃ π, PriorMass (studyOn names U (grid n) (lattice n) (l n) (shift n)).cell (U.onGrid (grid n)) π := by
  have M := G.mesh
  have hmem : ∀ n (x : Idx (N n)), gridValue (grid n) x ∈ Set.Icc a b := fun n x => by rw [G.gridValue_eq]; exact M.pt_mem n x
  cases U with
  | none => exact Eventually.of_forall fun n => ⟨_, .flat⟩
  | func π =>
    obtain ⟨hc, hm⟩ := hU
    have hs := M.sum_tendsto hc (UConv.self π)
    have hprod : Tendsto (fun n => ((1 : ℝ)) * ∏ k, gStep closed a b N n k) atTop (𝓝 0) := by simpa using (M.cell_tendsto hd)
    have hdiff := (hs.sub hprod).eventually_ne (show boxMass a b π - 0 ≠ 0 by simpa using hm)
    have hz := hs.eventually_ne hm
    filter_upwards [hdiff, hz] with n hn hn0
    have h1 : ∑ x : Idx (N n), π (gridValue (grid n) x) ≠ 1 := by
      intro h1
      simp only [G.gridValue_eq] at h1
      rw [h1] at hn
      simp at hn
    have h0 : ∑ x : Idx (N n), π (gridValue (grid n) x) ≠ 0 := by
      intro h1
      simp only [G.gridValue_eq] at h1
      rw [h1] at hn0
      simp at hn0
    have hnn : ∀ x : Idx (N n), 0 ≤ π (gridValue (grid n) x) := fun x => hU0 _ (hmem n x)
    exact ⟨_, .func _ hnn ((Finset.sum_nonneg fun x _ => hnn x).lt_of_ne' h0) (Or.inl h1)⟩
  | randomVars π => exact Eventually.of_forall fun n => ⟨_, .rvs _ fun x => hU0 _ (hmem n x)⟩

theorem likOn_ofFn {gs : Fin d → ℕ} (g : (k : Fin d) → Fin (gs k) → ℝ) {m : ℕ} (L : Fin m → Dens d) (τ : Fin m → ℝ) :
    likOn g (List.ofFn fun i => (L i, τ i)) = List.ofFn fun i x => L i (gridValue g x) := by
  simp only [likOn, List.map_ofFn]
  rfl

/-- expected values of the stored distributions -/
theorem grid_expectation (G : FinerGrids closed a b N grid lattice) (hd : 0 < d) (U : UserPrior d) (hU : U.Regular a b) (hU0 : U.Nonneg a b) (tm : TM ℝ)
    (hl : ∀ n, Linear (studyOn names U (grid n) (lattice n) (l n) (shift n)) tm) (hR : ResetFree tm ∨ U = .none) {m : ℕ} (L : Fin (m + 1) → Dens d) (hLc : ∀ j, ContinuousOn (L j) (Set.Icc a b))
    (hL0 : ∀ j, ∀ y ∈ Set.Icc a b, 0 ≤ L j y) (τ : Fin (m + 1) → ℝ) (hτ : ∀ j : Fin m, τ j.succ = τ j.castSucc + 1) (i : Fin (m + 1)) (φ : Dens d) (hφc : ContinuousOn φ (Set.Icc a b)) (hφ0 : ∀ y ∈ Set.Icc a b, 0 ≤ φ y)
    {out out' : List (ℝ × Dens d)} {k : ℕ} (hF : Filtered a b (Moves names a b (U.reset a b) tm) (U.start a b, 0) (List.ofFn fun j => (L j, τ j)) out k)
    (hF' : Filtered a b (Moves names a b (U.reset a b) tm) (U.start a b, 0) (List.ofFn fun j => (Function.update L i (fun y => L i y * φ y) j, τ j)) out' k)
    (S : (n : ℕ) → FitState ℝ (N n)) (hS : ∀ n, (S n).prior = U.onGrid (grid n)) (ε : ℝ) (hε : 0 < ε) :
    ∀ᶠ n in atTop, ∃ S', fit (studyOn names U (grid n) (lattice n) (l n) (shift n)) (grid n) tm (likOn (grid n) (List.ofFn fun j => (L j, τ j))) (List.ofFn τ) false false (S n) = .ok S' ∧
      ∃ f : Idx (N n) → ℝ, S'.posts[i.val]? = some (Cell.val f) ∧ |∑ x, f x * φ (gridValue (grid n) x) - (out'.map Prod.fst).prod / (out.map Prod.fst).prod| ≤ ε := by
  have hne : ∀ L' : Fin (m + 1) → Dens d, (List.ofFn fun j => (L' j, τ j)) ≠ [] := fun L' => by simp [List.ofFn_succ]
  have hLc' : ∀ j, ContinuousOn (Function.update L i (fun y => L i y * φ y) j) (Set.Icc a b) := by
    intro j
    rcases eq_or_ne j i with rfl | hj
    · rw [Function.update_self]; exact (hLc j).mul hφc
    · rw [Function.update_of_ne hj]; exact hLc j
  have hmap : ∀ L' : Fin (m + 1) → Dens d, (List.ofFn fun j => (L' j, τ j)).map Prod.snd = List.ofFn τ := fun L' => by rw [List.map_ofFn]; rfl
  obtain ⟨S₁, a1, a2, -⟩ := grid_fit_forward (names := names) (l := l) (shift := shift) G hd U hU tm (hne L) (by intro D hD; obtain ⟨j, rfl⟩ := (List.mem_ofFn' _ _).1 hD; exact hLc j) hF S hS true
  obtain ⟨S₂, b1, b2, -⟩ := grid_fit_forward (names := names) (l := l) (shift := shift) G hd U hU tm (hne _) (by intro D hD; obtain ⟨j, rfl⟩ := (List.mem_ofFn' _ _).1 hD; exact hLc' j) hF' S hS true
  have hpos := filtered_pos hF
  have hlim := b2.div a2 hpos.ne'
  have hclose := Metric.tendsto_nhds.1 hlim ε hε
  have hevpos := a2.eventually (lt_mem_nhds hpos)
  filter_upwards [a1, b1, hclose, hevpos, study_priorMass (names := names) (l := l) (shift := shift) G hd U hU hU0] with n e1 e2 e3 e4 ⟨π, hπ⟩
  have hE := study_regular (names := names) (l := l) (shift := shift) G U n
  have := hE.nonempty
  have hp : PriorMass (studyOn names U (grid n) (lattice n) (l n) (shift n)).cell (S n).prior π := by rw [hS]; exact hπ
  have hR1 : ResetFree tm ∨ (S n).prior = .none := hR.imp id fun h => by rw [hS, h]; rfl
  have hR' : ResetCond (studyOn names U (grid n) (lattice n) (l n) (shift n)) tm (S n).prior 1 π := by
    rcases hR1 with h | h
    · exact Or.inl h
    · exact Or.inr ⟨by rw [h]; rfl, resetOK_prior hp (Or.inl h)⟩
  have hmem : ∀ x : Idx (N n), gridValue (grid n) x ∈ Set.Icc a b := fun x => by rw [G.gridValue_eq]; exact G.mesh.pt_mem n x
  have hg0 : ∀ j (x : Idx (N n)), 0 ≤ L j (gridValue (grid n) x) := fun j x => hL0 j _ (hmem x)
  have hg0' : ∀ j (x : Idx (N n)), 0 ≤ Function.update L i (fun y => L i y * φ y) j (gridValue (grid n) x) := by
    intro j x
    rcases eq_or_ne j i with rfl | hj
    · rw [Function.update_self]; exact mul_nonneg (hL0 j _ (hmem x)) (hφ0 _ (hmem x))
    · rw [Function.update_of_ne hj]; exact hg0 j x
  rw [hmap, likOn_ofFn] at e1 e2
  obtain ⟨T₁, f1, f2⟩ := linear_evidence (grid := grid n) hE (hl n) hp hR' hg0 (τ := τ) (fo := true) (eo := true) (Or.inl rfl)
  obtain ⟨T₂, g1, g2⟩ := linear_evidence (grid := grid n) hE (hl n) hp hR' hg0' (τ := τ) (fo := true) (eo := true) (Or.inl rfl)
  rw [f1] at e1
  rw [g1] at e2
  simp only [Except.ok.injEq] at e1 e2
  simp only [Pi.div_apply] at e3
  rw [← e1] at e3 e4
  rw [← e2] at e3
  have hlat : (∏ k, lattice n k) ≠ 0 := (Finset.prod_pos fun k _ => hE.lattice_pos k).ne'
  have hev : evidence π (fun i : Fin m => kernel (studyOn names U (grid n) (lattice n) (l n) (shift n)) π tm (τ i.castSucc)) (fun j x => L j (gridValue (grid n) x)) ≠ 0 := by
    intro h0
    rw [f2, h0] at e4
    simp at e4
  obtain ⟨S', q1, q2⟩ := Props.smoothing_matched _ (grid n) tm hE (hl n) (S n) π hp hR1 _ hg0 τ (matched_of_unit hτ) hev
  refine ⟨S', by rw [likOn_ofFn]; exact q1, _, by rw [q2, List.getElem?_ofFn, dif_pos i.isLt], ?_⟩
  have hupd : (fun j (x : Idx (N n)) => Function.update L i (fun y => L i y * φ y) j (gridValue (grid n) x)) =
      Function.update (fun j (x : Idx (N n)) => L j (gridValue (grid n) x)) i fun x => L i (gridValue (grid n) x) * φ (gridValue (grid n) x) := by
    funext j x
    rcases eq_or_ne j i with rfl | hj
    · simp only [Function.update_self]
    · simp only [Function.update_of_ne hj]
  have hM : ∏ j : Fin m, massOut (studyOn names U (grid n) (lattice n) (l n) (shift n)) 1 tm (τ j.castSucc) 1 ≠ 0 :=
    (Finset.prod_pos fun j _ => massOut_pos hE.lattice_pos tm (Or.inr one_pos) _ _ one_pos).ne'
  rw [hupd, evidence_update] at g2
  have key : ∑ x, posterior π (fun i : Fin m => kernel (studyOn names U (grid n) (lattice n) (l n) (shift n)) π tm (τ i.castSucc)) (fun j x => L j (gridValue (grid n) x)) i x * φ (gridValue (grid n) x) =
      T₂.logEv.exp / (∏ k, lattice n k) ^ k / (T₁.logEv.exp / (∏ k, lattice n k) ^ k) := by
    rw [f2, g2]
    have hpow : (∏ k, lattice n k) ^ k ≠ 0 := pow_ne_zero _ hlat
    rw [div_div_div_cancel_right₀ hpow, mul_div_mul_right _ _ hM, Finset.sum_div]
    refine Finset.sum_congr rfl fun x _ => ?_
    unfold posterior
    ring
  rw [Fin.eta, key]
  rw [Real.dist_eq] at e3
  exact e3.le

end BL
