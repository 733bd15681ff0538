import Verif.Props.C69
import Verif.Props.C08

/-! # C80: bounds of the evidence -/

set_option linter.unusedSectionVars false

namespace Spec
variable {K ι : Type} [Field K] [LinearOrder K]

/-- `bs` contains for every data point a lower and an upper bound of its likelihood, valid for all parameter values. -/
def Bounds (bs : List (K × K)) (Ls : List (ι → K)) : Prop := List.Forall₂ (fun b L => 0 ≤ b.1 ∧ ∀ x, b.1 ≤ L x ∧ L x ≤ b.2) bs Ls

end Spec

namespace BL
open Spec
variable {K : Type} [Field K] [LinearOrder K] [IsStrictOrderedRing K] {d : ℕ} {gs : Fin d → ℕ} {E : Env K gs}

theorem prod_nonneg_of {f : K × K → K} {bs : List (K × K)} (h : ∀ b ∈ bs, 0 ≤ f b) : 0 ≤ (bs.map f).prod :=
  List.prod_nonneg fun a ha => by
    obtain ⟨b, hb, rfl⟩ := List.mem_map.1 ha
    exact h b hb

theorem bounds_mem [Nonempty (Idx gs)] {bs : List (K × K)} {Ls : List (Idx gs → K)} (h : Bounds bs Ls) : ∀ b ∈ bs, 0 ≤ b.1 ∧ 0 ≤ b.2 := by
  induction h with
  | nil => simp
  | cons hb _ ih =>
      intro b' hb'
      rcases List.mem_cons.1 hb' with rfl | hb'
      · obtain ⟨x⟩ := ‹Nonempty (Idx gs)›
        exact ⟨hb.1, hb.1.trans ((hb.2 x).1.trans (hb.2 x).2)⟩
      · exact ih b' hb'

theorem fwdPass_bounds [Nonempty (Idx gs)] (hl : ∀ a, 0 < E.lattice a) (hX : ProperExt E.ext) {tm : TM K} (hc : Conserving E tm) :
    ∀ (Ls : List (Idx gs → K)) (bs : List (K × K)) (al : Bool) (pr : PriorSpec K gs) (a : Idx gs → K) (ts : List K), Ls ≠ [] → Bounds bs Ls → ProperPrior pr →
      (∀ x, 0 ≤ a x) → ts.length = Ls.length →
      ∃ r, fwdPass E tm al pr (some a) Ls ts = .ok r ∧
        (∑ x, a x) * (bs.map Prod.fst).prod ≤ evOf (.ok r) ∧ evOf (.ok r) ≤ (∑ x, a x) * (bs.map Prod.snd).prod
  | [], _, _, _, _, _, h, _, _, _, _ => absurd rfl h
  | L :: Ls, bs, al, pr, a, [], _, _, _, _, h => by simp at h
  | L :: Ls, bs, al, pr, a, t :: ts, _, hb, hpr, ha, hlen => by
      obtain _ | @⟨b, _, bs, _, hb1, hb2⟩ := hb
      have hL : ∀ θ, 0 ≤ L θ := fun θ => hb1.1.trans (hb1.2 θ).1
      have hlo : (∑ x, a x) * b.1 ≤ ∑ x, a x * L x := by
        rw [Finset.sum_mul]
        exact Finset.sum_le_sum fun x _ => mul_le_mul_of_nonneg_left (hb1.2 x).1 (ha x)
      have hhi : ∑ x, a x * L x ≤ (∑ x, a x) * b.2 := by
        rw [Finset.sum_mul]
        exact Finset.sum_le_sum fun x _ => mul_le_mul_of_nonneg_left (hb1.2 x).2 (ha x)
      have hs : 0 ≤ ∑ x, a x := Finset.sum_nonneg fun x _ => ha x
      have hm := bounds_mem hb2
      have hp1 := prod_nonneg_of fun c hc => (hm c hc).1
      have hp2 := prod_nonneg_of fun c hc => (hm c hc).2
      have hn : 0 ≤ ∑ x, a x * L x := Finset.sum_nonneg fun x _ => mul_nonneg (ha x) (hL x)
      simp only [List.map_cons, List.prod_cons, ← mul_assoc]
      rcases fwdPass_step hl hX hc al pr hpr ha hL t with ⟨hz, pr', h'⟩ | ⟨q, al', pr', hq, hpr', h'⟩
      · refine ⟨_, h' Ls ts, ?_, ?_⟩
        · simp only [evOf, if_true]
          exact mul_nonpos_of_nonpos_of_nonneg (hlo.trans hz.le) hp1
        · simp only [evOf, if_true]
          exact mul_nonneg (hn.trans hhi) hp2
      · have key : ∃ r, fwdPass E tm al' pr' (some q) Ls ts = .ok r ∧ (bs.map Prod.fst).prod ≤ evOf (.ok r) ∧ evOf (.ok r) ≤ (bs.map Prod.snd).prod := by
          cases Ls with
          | nil =>
              obtain _ | _ := hb2
              exact ⟨_, by rw [fwdPass], by simp [evOf, normProd], by simp [evOf, normProd]⟩
          | cons L' Ls' =>
              obtain ⟨r, h1, h2, h3⟩ := fwdPass_bounds hl hX hc (L' :: Ls') bs al' pr' q ts (by simp) hb2 hpr' hq.nonneg (by simpa using hlen)
              rw [hq.sum_one, one_mul] at h2 h3
              exact ⟨r, h1, h2, h3⟩
        obtain ⟨r, h1, h2, h3⟩ := key
        obtain ⟨r', h4, h5⟩ := h' Ls ts r h1
        refine ⟨r', h4, ?_, ?_⟩
        · rw [h5]; exact mul_le_mul hlo h2 hp1 hn
        · rw [h5]; exact mul_le_mul hhi h3 (hp1.trans h2) (hn.trans hhi)

end BL

namespace Props
open BL Spec
variable {K : Type} [Field K] [LinearOrder K] [IsStrictOrderedRing K] {d : ℕ} {gs : Fin d → ℕ}

/-- **C80 (partial).** Transition models of all kinds and nestings (without NotEqual; change-points only for cells of volume one), all priors that stand for probabilities with sum one, all
time stamps: if the likelihood of every data point lies between two bounds for all parameter values, the evidence of forward-only and evidence-only fits lies between the products of the bounds.
In particular the evidence is never larger than the product of the largest likelihoods. -/
theorem C80_partial (E : Env K gs) (grid : (a : Fin d) → Fin (gs a) → K) (tm : TM K) (S : FitState K gs) (π : Idx gs → K)
    (hne : Nonempty (Idx gs)) (hl : ∀ a, 0 < E.lattice a) (hX : ProperExt E.ext) (hc : Conserving E tm) (hp : PriorMass E.cell S.prior π) (hpr : ProperPrior S.prior) (hπ : ∑ x, π x = 1)
    (Ls : List (Idx gs → K)) (hLs : Ls ≠ []) (ts : List K) (hts : ts.length = Ls.length) (bs : List (K × K)) (hb : Bounds bs Ls) (fo eo : Bool) (hmode : eo = true ∨ fo = true) :
    ∃ S', fit E grid tm Ls ts fo eo S = .ok S' ∧ (bs.map Prod.fst).prod ≤ S'.logEv.exp ∧ S'.logEv.exp ≤ (bs.map Prod.snd).prod := by
  have hcell : 0 < E.cell := cell_pos hl
  obtain ⟨pr0, h1, hpr0⟩ := computePrior_proper (E := { E with prior := S.prior }) hcell hp hpr hπ
  obtain ⟨r, h2, h3, h4⟩ := fwdPass_bounds hl hX hc Ls bs pr0.isArray pr0 (fun x => 1 / E.cell * π x) ts hLs hb hpr0
    (fun x => mul_nonneg (div_nonneg zero_le_one hcell.le) (priorMass_nonneg hcell hp x)) hts
  obtain ⟨S', h5, h6⟩ := fit_evOf (grid := grid) h1 h2 hmode
  have hs : ∑ x, 1 / E.cell * π x = 1 / E.cell := by rw [← Finset.mul_sum, hπ, mul_one]
  rw [hs] at h3 h4
  refine ⟨S', h5, ?_, ?_⟩
  · rw [h6]
    calc (bs.map Prod.fst).prod = 1 / E.cell * (bs.map Prod.fst).prod * E.cell := by field_simp
      _ ≤ _ := mul_le_mul_of_nonneg_right h3 hcell.le
  · rw [h6]
    calc _ ≤ 1 / E.cell * (bs.map Prod.snd).prod * E.cell := mul_le_mul_of_nonneg_right h4 hcell.le
      _ = _ := by field_simp

/-- **C80 (full fits).** The upper bound holds for the full fit, whenever it succeeds. -/
theorem C80_full_partial (E : Env K gs) (grid : (a : Fin d) → Fin (gs a) → K) (tm : TM K) (S S' : FitState K gs) (π : Idx gs → K)
    (hne : Nonempty (Idx gs)) (hl : ∀ a, 0 < E.lattice a) (hX : ProperExt E.ext) (hc : Conserving E tm) (hp : PriorMass E.cell S.prior π) (hpr : ProperPrior S.prior) (hπ : ∑ x, π x = 1)
    (Ls : List (Idx gs → K)) (hLs : Ls ≠ []) (ts : List K) (hts : ts.length = Ls.length) (bs : List (K × K)) (hb : Bounds bs Ls)
    (hS : fit E grid tm Ls ts false false S = .ok S') : S'.logEv.exp ≤ (bs.map Prod.snd).prod := by
  obtain ⟨S2, h1, h2, h3⟩ := C80_partial E grid tm S π hne hl hX hc hp hpr hπ Ls hLs ts hts bs hb true false (Or.inr rfl)
  rcases C08_full_or_zero E grid tm S Ls ts S' S2 hS h1 with h | h
  · rw [h]; exact h3
  · rw [h]
    exact prod_nonneg_of fun b hb' => (bounds_mem hb b hb').2

/-- With a change-point and cells of volume different from one the claim is false: the code multiplies by the cell volume (property C02).  All likelihoods are one, but the evidence is two. -/
theorem C80_refuted : ∃ (tm : TM ℚ) (Ls : List (Idx Ex.gs2 → ℚ)) (ts : List ℚ) (bs : List (ℚ × ℚ)), Bounds bs Ls ∧ (bs.map Prod.snd).prod = 1 ∧
    ∃ S', fit (Ex.env Ex.gs2 2) (Ex.grid Ex.gs2) tm Ls ts true false (Ex.S0 .none) = .ok S' ∧ S'.logEv.exp = 2 := by
  refine ⟨Ex.cp 0, [Ex.v2 1 1, Ex.v2 1 1], [0, 1], [(1, 1), (1, 1)], ?_, by norm_num, ?_⟩
  · refine .cons ⟨by norm_num, by decide +kernel⟩ (.cons ⟨by norm_num, by decide +kernel⟩ .nil)
  · have h : Ex.ev (fit (Ex.env Ex.gs2 2) (Ex.grid Ex.gs2) (Ex.cp 0) [Ex.v2 1 1, Ex.v2 1 1] [0, 1] true false (Ex.S0 .none)) = some 2 := by decide +kernel
    revert h
    cases fit (Ex.env Ex.gs2 2) (Ex.grid Ex.gs2) (Ex.cp 0) [Ex.v2 1 1, Ex.v2 1 1] [0, 1] true false (Ex.S0 .none) with
    | error e => simp [Ex.ev]
    | ok S => intro h; exact ⟨S, rfl, by simpa [Ex.ev] using h⟩

/-- Non-trivial case: a random walk followed by a regime-switch, lattice constant 1/2, flat prior; the evidence lies strictly between the bounds. -/
example : ∃ S', fit (Ex.env Ex.gs2 (1 / 2)) (Ex.grid Ex.gs2) switching [Ex.v2 1 2, Ex.v2 3 1] [0, 1] true false (Ex.S0 .none) = .ok S' ∧
    1 ≤ S'.logEv.exp ∧ S'.logEv.exp ≤ 6 := by
  have := C80_partial (Ex.env Ex.gs2 (1 / 2)) (Ex.grid Ex.gs2) switching (Ex.S0 .none) (fun _ => 1 / (Fintype.card (Idx Ex.gs2) : ℚ)) (Ex.regular2 (by norm_num : (0:ℚ) < 1/2)).nonempty
    (fun _ => by norm_num [Ex.env]) ext_proper (switching_conserving _) .flat trivial (by decide +kernel) [Ex.v2 1 2, Ex.v2 3 1] (by simp) [0, 1] rfl [(1, 2), (1, 3)]
    (.cons ⟨by norm_num, by decide +kernel⟩ (.cons ⟨by norm_num, by decide +kernel⟩ .nil)) true false (Or.inr rfl)
  norm_num at this
  exact this

end Props
