import Verif.Spec.Grids
import Verif.Lemmas.Continuum
import Verif.Props.C27

/-! # Grids made with `cint` and `oint` -/

set_option linter.unusedSectionVars false

namespace BL
open Spec MeasureTheory Filter Topology Set

variable {d : ℕ} {closed : Fin d → Bool} {a b : Fin d → ℝ} {N : ℕ → Fin d → ℕ} {grid : (n : ℕ) → (k : Fin d) → Fin (N n k) → ℝ} {lattice : ℕ → Fin d → ℝ}

/-- spacing of the `n`-th grid -/
noncomputable def gStep (closed : Fin d → Bool) (a b : Fin d → ℝ) (N : ℕ → Fin d → ℕ) (n : ℕ) (k : Fin d) : ℝ := if closed k then (b k - a k) / (N n k - 1) else (b k - a k) / (N n k + 1)

/-- first value of the `n`-th grid -/
noncomputable def gFirst (closed : Fin d → Bool) (a b : Fin d → ℝ) (N : ℕ → Fin d → ℕ) (n : ℕ) (k : Fin d) : ℝ := if closed k then a k else a k + gStep closed a b N n k

theorem _root_.Spec.FinerGrids.lattice_eq (G : FinerGrids closed a b N grid lattice) : lattice = gStep closed a b N := by
  funext n k
  have h1 := G.spacing n k
  have h2 := Props.C51_lattice (D := Unit) (a k) (b k) (N n k) (G.lt k) (G.two n k) (fun _ _ => none) [] ""
  rw [G.values] at h1
  unfold gStep
  cases hc : closed k with
  | true =>
    simp only [hc, if_true] at h1 ⊢
    rw [h2.1] at h1
    simpa using h1.symm
  | false =>
    simp only [hc, Bool.false_eq_true, if_false] at h1 ⊢
    rw [h2.2] at h1
    simpa using h1.symm

theorem _root_.Spec.FinerGrids.grid_eq (G : FinerGrids closed a b N grid lattice) (n : ℕ) (k : Fin d) (i : Fin (N n k)) : grid n k i = gFirst closed a b N n k + (i : ℕ) * gStep closed a b N n k := by
  have h1 := congrArg (fun l => l[(i : ℕ)]?) (G.values n k)
  simp only [List.getElem?_ofFn, i.isLt, dif_pos, Fin.eta] at h1
  unfold gFirst gStep
  cases hc : closed k with
  | true =>
    simp only [hc, if_true] at h1 ⊢
    have hn : ((N n k - 1 : ℕ) : ℝ) = (N n k : ℝ) - 1 := by rw [Nat.cast_sub (by have := G.two n k; omega)]; simp
    simp only [cint, linspace, List.getElem?_map, List.getElem?_range i.isLt, Option.map_some, Option.some.injEq, hn] at h1
    exact h1
  | false =>
    simp only [hc, Bool.false_eq_true, if_false] at h1 ⊢
    rw [(Props.C51_oint (a k) (b k) (N n k) (G.lt k)).2.2 i i.isLt, Option.some.injEq] at h1
    rw [h1]; ring

theorem _root_.Spec.FinerGrids.gridValue_eq (G : FinerGrids closed a b N grid lattice) (n : ℕ) (x : Idx (N n)) : gridValue (grid n) x = pt (gFirst closed a b N) (gStep closed a b N) n x := by
  funext k
  exact G.grid_eq n k (x k)

theorem _root_.Spec.FinerGrids.mesh (G : FinerGrids closed a b N grid lattice) : Mesh a b N (gFirst closed a b N) (gStep closed a b N) := by
  have hN : ∀ k, Tendsto (fun n => (N n k : ℝ)) atTop atTop := fun k => tendsto_natCast_atTop_atTop.comp (G.more k)
  have hw : ∀ k, 0 < b k - a k := fun k => sub_pos.2 (G.lt k)
  have h2 : ∀ n k, (2 : ℝ) ≤ N n k := fun n k => by exact_mod_cast G.two n k
  have hpos : ∀ n k, 0 < gStep closed a b N n k := by
    intro n k
    unfold gStep
    have := h2 n k
    split
    · exact div_pos (hw k) (by linarith)
    · exact div_pos (hw k) (by linarith)
  have hfine : ∀ k, Tendsto (fun n => gStep closed a b N n k) atTop (𝓝 0) := by
    intro k
    unfold gStep
    split
    · exact Tendsto.div_atTop tendsto_const_nhds (tendsto_atTop_add_const_right _ (-1) (hN k))
    · exact Tendsto.div_atTop tendsto_const_nhds (tendsto_atTop_add_const_right _ 1 (hN k))
  refine ⟨G.lt, hpos, ?_, ?_, hfine, ?_⟩
  · intro k
    unfold gFirst
    split
    · exact tendsto_const_nhds
    · simpa using (hfine k).const_add (a k)
  · intro k
    cases hc : closed k with
    | true =>
      have e : ∀ n, gFirst closed a b N n k + N n k * gStep closed a b N n k = b k + gStep closed a b N n k := by
        intro n
        have : (N n k : ℝ) - 1 ≠ 0 := by have := h2 n k; linarith
        simp only [gFirst, gStep, hc, if_true]
        field_simp
        ring
      simp only [e]
      simpa using (hfine k).const_add (b k)
    | false =>
      have e : ∀ n, gFirst closed a b N n k + N n k * gStep closed a b N n k = b k := by
        intro n
        have : (N n k : ℝ) + 1 ≠ 0 := by have := h2 n k; linarith
        simp only [gFirst, gStep, hc, Bool.false_eq_true, if_false]
        field_simp
        ring
      simp only [e]
      exact tendsto_const_nhds
  · intro n k i hi
    have hi' : (i : ℝ) + 1 ≤ N n k := by exact_mod_cast hi
    have hs := hpos n k
    have hi0 : (0 : ℝ) ≤ i * gStep closed a b N n k := by positivity
    cases hc : closed k with
    | true =>
      have e : ((N n k : ℝ) - 1) * gStep closed a b N n k = b k - a k := by
        have : (N n k : ℝ) - 1 ≠ 0 := by have := h2 n k; linarith
        simp only [gStep, hc, if_true]
        field_simp
      have hF : gFirst closed a b N n k = a k := by simp only [gFirst, hc, if_true]
      rw [hF]
      constructor <;> nlinarith
    | false =>
      have e : ((N n k : ℝ) + 1) * gStep closed a b N n k = b k - a k := by
        have : (N n k : ℝ) + 1 ≠ 0 := by have := h2 n k; linarith
        simp only [gStep, hc, Bool.false_eq_true, if_false]
        field_simp
      have hF : gFirst closed a b N n k = a k + gStep closed a b N n k := by simp only [gFirst, hc, Bool.false_eq_true, if_false]
      rw [hF]
      constructor <;> nlinarith


variable {names : Fin d → String} {l : ℕ → ℕ} {shift : (n : ℕ) → Fin d → ℝ → (Idx (N n) → ℝ) → (Idx (N n) → ℝ)}

theorem _root_.Spec.FinerGrids.refines (G : FinerGrids closed a b N grid lattice) (U : UserPrior d) : Refines names (gStep closed a b N) fun n => studyOn names U (grid n) (lattice n) (l n) (shift n) where
  names_eq := fun _ => rfl
  lattice := fun n => congrFun G.lattice_eq n
  pow10 := fun _ => rfl
  gaussR := fun _ => rfl
  gaussW := fun _ => rfl

theorem boxMass_one_ne (hab : ∀ k, a k < b k) : boxMass a b (fun _ => 1) ≠ 0 := by
  rw [boxMass_const 1 fun k => (hab k).le, mul_one]
  exact (Finset.prod_pos fun k _ => sub_pos.2 (hab k)).ne'

theorem ones_tends {c h : ℕ → Fin d → ℝ} (M : Mesh a b N c h) : Tends c h 1 (fun n => BL.normalize fun (_ : Idx (N n)) => (1 : ℝ)) (unitMass a b fun _ => 1) := by
  have hone : Tends c h 0 (fun n => some fun (_ : Idx (N n)) => (1 : ℝ)) fun _ => 1 := ⟨_, Eventually.of_forall fun n => rfl, by simpa using UConv.self (c := c) (h := h) (N := N) fun _ => 1⟩
  exact Tends.normalize M continuousOn_const hone (boxMass_one_ne M.lt)

theorem func_tends {c h : ℕ → Fin d → ℝ} (M : Mesh a b N c h) {π : Dens d} (hπ : ContinuousOn π (Icc a b)) (hm : boxMass a b π ≠ 0) :
    Tends c h 1 (fun n => BL.normalize fun (x : Idx (N n)) => π (pt c h n x)) (unitMass a b π) := by
  have hone : Tends c h 0 (fun n => some fun (x : Idx (N n)) => π (pt c h n x)) π := ⟨_, Eventually.of_forall fun n => rfl, by simpa using UConv.self (c := c) (h := h) (N := N) π⟩
  exact Tends.normalize M hπ hone hm

theorem Tends.over {c h : ℕ → Fin d → ℝ} (M : Mesh a b N c h) {p : (n : ℕ) → Arr ℝ (N n)} {ρ : Dens d} (hp : Tends c h 1 p ρ) : Tends c h 0 (fun n => (p n).bind (divScalar · (∏ k, h n k))) ρ := by
  obtain ⟨f, h1, h2⟩ := hp
  refine ⟨fun n x => f n x / ∏ k, h n k, ?_, ?_⟩
  · filter_upwards [h1] with n g1
    rw [g1, Option.bind_some, divScalar, if_neg (M.cell_pos n).ne']
  · simpa using h2

theorem reset_tends (G : FinerGrids closed a b N grid lattice) (U : UserPrior d) (hU : U.Regular a b) :
    Tends (gFirst closed a b N) (gStep closed a b N) 1 (fun n => (studyOn names U (grid n) (lattice n) (l n) (shift n)).resetArr) (U.reset a b) ∧ ContinuousOn (U.reset a b) (Icc a b) := by
  cases U with
  | none => exact ⟨ones_tends G.mesh, unitMass_continuousOn continuousOn_const⟩
  | func π =>
    refine ⟨(func_tends G.mesh hU.1 hU.2).congr (Eventually.of_forall fun n => ?_), unitMass_continuousOn hU.1⟩
    simp only [Env.resetArr, studyOn, UserPrior.onGrid, G.gridValue_eq]
  | randomVars π => exact ⟨ones_tends G.mesh, unitMass_continuousOn continuousOn_const⟩

theorem start_tends (G : FinerGrids closed a b N grid lattice) (hd : 0 < d) (U : UserPrior d) (hU : U.Regular a b) :
    ∃ p : (n : ℕ) → Arr ℝ (N n), (∀ᶠ n in atTop, computePrior (studyOn names U (grid n) (lattice n) (l n) (shift n)) = .ok (p n, U.onGrid (grid n))) ∧
      Tends (gFirst closed a b N) (gStep closed a b N) 0 p (U.start a b) ∧ ContinuousOn (U.start a b) (Icc a b) := by
  have M := G.mesh
  have hcell : ∀ n, (studyOn names U (grid n) (lattice n) (l n) (shift n)).cell = ∏ k, gStep closed a b N n k := fun n => by
    simp only [Env.cell, studyOn, G.lattice_eq]
  cases U with
  | none =>
    refine ⟨_, Eventually.of_forall fun n => ?_, Tends.over M (ones_tends M), unitMass_continuousOn continuousOn_const⟩
    have := hcell n
    simp only [studyOn, UserPrior.onGrid] at this ⊢
    simp only [computePrior, this]
  | func π =>
    obtain ⟨hc, hm⟩ := hU
    refine ⟨_, ?_, Tends.over M (func_tends M hc hm), unitMass_continuousOn hc⟩
    have hs := M.sum_tendsto hc (UConv.self π)
    have hprod : Tendsto (fun n => ((1 : ℝ)) * ∏ k, gStep closed a b N n k) atTop (𝓝 0) := by simpa using (M.cell_tendsto hd)
    have hdiff := (hs.sub hprod).eventually_ne (show boxMass a b π - 0 ≠ 0 by simpa using hm)
    filter_upwards [hdiff] with n hn
    have h1 : ∑ x : Idx (N n), π (gridValue (grid n) x) ≠ 1 := by
      intro h1
      simp only [G.gridValue_eq] at h1
      rw [h1] at hn
      simp at hn
    have := hcell n
    simp only [studyOn, UserPrior.onGrid] at this ⊢
    simp only [computePrior, this]
    rw [if_pos h1]
    simp only [G.gridValue_eq]
  | randomVars π =>
    refine ⟨fun n => some fun x => π (gridValue (grid n) x), Eventually.of_forall fun n => ?_, ⟨_, Eventually.of_forall fun n => rfl, ?_⟩, hU⟩
    · simp only [studyOn, UserPrior.onGrid, computePrior]
      simp
    · simp only [G.gridValue_eq, UserPrior.start]
      simpa using UConv.self (c := gFirst closed a b N) (h := gStep closed a b N) (N := N) π

theorem _root_.Spec.FinerGrids.likOn_eq (G : FinerGrids closed a b N grid lattice) (n : ℕ) (data : List (Dens d × ℝ)) : likOn (grid n) data = liksAt (gFirst closed a b N) (gStep closed a b N) n data := by
  simp only [likOn, liksAt, G.gridValue_eq]

/-- expected values on the grid converge -/
theorem mean_tends (G : FinerGrids closed a b N grid lattice) {f : (n : ℕ) → Idx (N n) → ℝ} {ρ : Dens d} (hρ : ContinuousOn ρ (Icc a b))
    (hf : UConv (gFirst closed a b N) (gStep closed a b N) (fun n x => f n x / ∏ k, gStep closed a b N n k) ρ) {φ : Dens d} (hφ : ContinuousOn φ (Icc a b)) :
    Tendsto (fun n => ∑ x, f n x * φ (gridValue (grid n) x)) atTop (𝓝 (boxMass a b fun y => ρ y * φ y)) := by
  have M := G.mesh
  have := M.sum_tendsto (hρ.mul hφ) (UConv.mul M hf (UConv.self φ) hρ hφ)
  refine this.congr fun n => ?_
  rw [Finset.sum_mul]
  refine Finset.sum_congr rfl fun x _ => ?_
  have := (M.cell_pos n).ne'
  rw [G.gridValue_eq]
  field_simp

theorem cells_posts (G : FinerGrids closed a b N grid lattice) : ∀ {cells : (n : ℕ) → List (Cell (Idx (N n) → ℝ))} {ρs : List (Dens d)},
    CellsConv (gFirst closed a b N) (gStep closed a b N) cells ρs → PostsTo grid lattice cells ρs
  | cells, [], hc => ⟨by filter_upwards [hc] with n hn; rw [hn]; rfl, fun i ρ hi => by simp at hi⟩
  | cells, ρ₀ :: ρs, hc => by
      obtain ⟨f, rest, h1, h2, h3⟩ := hc
      obtain ⟨g1, g2⟩ := cells_posts G h3
      refine ⟨by filter_upwards [h1, g1] with n e1 e2; rw [e1, List.length_cons, e2, List.length_cons], fun i ρ hi ε hε => ?_⟩
      cases i with
      | zero =>
        simp only [List.getElem?_cons_zero, Option.some.injEq] at hi
        subst hi
        filter_upwards [h1, h2 ε hε] with n e1 e2
        refine ⟨f n, by rw [e1]; rfl, fun x => ?_⟩
        rw [G.gridValue_eq, G.lattice_eq]
        exact e2 x
      | succ i =>
        simp only [List.getElem?_cons_succ] at hi
        filter_upwards [h1, g2 i ρ hi ε hε] with n e1 ⟨f', e2, e3⟩
        exact ⟨f', by rw [e1, List.getElem?_cons_succ, e2], e3⟩

theorem cells_means (G : FinerGrids closed a b N grid lattice) : ∀ {cells : (n : ℕ) → List (Cell (Idx (N n) → ℝ))} {ρs : List (Dens d)},
    (∀ ρ ∈ ρs, ContinuousOn ρ (Icc a b)) → CellsConv (gFirst closed a b N) (gStep closed a b N) cells ρs →
      MeansTo a b (fun n k => (cells n).filterMap fun c => c.get?.map (mean (grid n) k)) ρs
  | cells, [], _, hc => fun k => ⟨by filter_upwards [hc] with n hn; rw [hn]; rfl, fun i ρ hi => by simp at hi⟩
  | cells, ρ₀ :: ρs, hcont, hc => by
      obtain ⟨f, rest, h1, h2, h3⟩ := hc
      intro k
      obtain ⟨g1, g2⟩ := cells_means G (fun ρ hρ => hcont ρ (List.mem_cons_of_mem _ hρ)) h3 k
      have hm := mean_tends G (hcont ρ₀ List.mem_cons_self) h2 (φ := fun y => y k) (by fun_prop)
      have hcons : ∀ n (f : Idx (N n) → ℝ) rest, ((Cell.val f :: rest).filterMap fun c => c.get?.map (mean (grid n) k)) = mean (grid n) k f :: rest.filterMap fun c => c.get?.map (mean (grid n) k) := by
        intro n f rest
        rw [List.filterMap_cons_some]
        rfl
      refine ⟨by filter_upwards [h1, g1] with n e1 e2; rw [e1, hcons, List.length_cons, e2, List.length_cons], fun i ρ hi ε hε => ?_⟩
      cases i with
      | zero =>
        simp only [List.getElem?_cons_zero, Option.some.injEq] at hi
        subst hi
        filter_upwards [h1, Metric.tendsto_nhds.1 hm ε hε] with n e1 e2
        refine ⟨_, by rw [e1, hcons]; rfl, ?_⟩
        rw [Real.dist_eq] at e2
        exact e2.le
      | succ i =>
        simp only [List.getElem?_cons_succ] at hi
        filter_upwards [h1, g2 i ρ hi ε hε] with n e1 ⟨m, e2, e3⟩
        exact ⟨m, by rw [e1, hcons, List.getElem?_cons_succ, e2], e3⟩

theorem steps_cells {c h : ℕ → Fin d → ℝ} : ∀ {steps : (n : ℕ) → List (Step ℝ (N n))} {items : List (Dens d × Dens d × ℝ)}, StepsConv c h steps items →
    CellsConv c h (fun n => (steps n).map fun s => Cell.val s.alpha) (items.map Prod.fst)
  | steps, [], hc => by filter_upwards [hc] with n hn; rw [hn]; rfl
  | steps, (ρ, L, t) :: items, hc => by
      obtain ⟨st, rest, h1, h2, h3, h4, h5⟩ := hc
      exact ⟨fun n => (st n).alpha, fun n => (rest n).map fun s => Cell.val s.alpha, by filter_upwards [h1] with n e1; rw [e1]; rfl, h2, steps_cells h5⟩

theorem zipWith_fst : ∀ (out : List (ℝ × Dens d)) (data : List (Dens d × ℝ)), out.length = data.length → (List.zipWith (fun o D => (o.2, D.1, D.2)) out data).map Prod.fst = out.map Prod.snd
  | [], [], _ => rfl
  | o :: out, D :: data, h => by
      simp only [List.zipWith_cons_cons, List.map_cons, zipWith_fst out data (by simpa using h)]

theorem means_map {gs : Fin d → ℕ} (grid : (a : Fin d) → Fin (gs a) → ℝ) (k : Fin d) (steps : List (Step ℝ gs)) :
    (steps.map fun s => mean grid k s.alpha) = (steps.map fun s => Cell.val s.alpha).filterMap fun c => c.get?.map (mean grid k) := by
  induction steps with
  | nil => rfl
  | cons s steps ih => simp only [List.map_cons, ih]; rfl

end BL
