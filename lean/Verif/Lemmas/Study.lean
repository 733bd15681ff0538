import Verif.Model.Defaults
import Verif.Props.C01
import Verif.Props.C27
import Verif.Props.C57
import Verif.Lemmas.Predictive

/-! # A study from configuration to fit -/

set_option linter.unusedSectionVars false

namespace BL
open Spec

section
variable {K : Type} [Field K] [LinearOrder K] [IsStrictOrderedRing K]

theorem evidence_pos {ι : Type} [Fintype ι] [DecidableEq ι] {n : ℕ} {π : ι → K} {T : Fin n → ι → ι → K} {L : Fin (n + 1) → ι → K}
    (hπ : ∀ x, 0 ≤ π x) (hπ1 : 0 < ∑ x, π x) (hT : ∀ i x y, 0 ≤ T i x y) (hT1 : ∀ i x, ∑ y, T i x y = 1) (hL : ∀ i x, 0 < L i x) :
    0 < evidence π T L := by
  have h1 := evidence_ones π T hT1
  rw [← h1] at hπ1
  simp only [evidence, pathWeight, Finset.prod_const_one, mul_one] at hπ1 ⊢
  have hw : ∀ z : Fin (n + 1) → ι, 0 ≤ π (z 0) * ∏ i, T i (z i.castSucc) (z i.succ) := fun z =>
    mul_nonneg (hπ _) (Finset.prod_nonneg fun i _ => hT _ _ _)
  have hl : ∀ z : Fin (n + 1) → ι, 0 < ∏ i, L i (z i) := fun z => Finset.prod_pos fun i _ => hL _ _
  obtain ⟨z, -, hz⟩ := Finset.exists_lt_of_sum_lt (s := Finset.univ) (f := fun _ => (0 : K)) (by simpa using hπ1)
  exact Finset.sum_pos' (fun z _ => mul_nonneg (hw z) (hl z).le) ⟨z, Finset.mem_univ _, mul_pos hz (hl z)⟩

variable {D : Type}

theorem movingWindow_ofFn (raw : List D) (seg n : ℕ) (h : seg + n = raw.length) :
    movingWindow raw seg = List.ofFn fun i : Fin (n + 1) => (raw.drop i).take seg := by
  have : ((raw.length : ℤ) - ((seg : ℤ) - 1)).toNat = n + 1 := by omega
  rw [movingWindow, this]
  exact List.ext_getElem (by simp) fun i h1 h2 => by simp [-List.ofFn_succ]

theorem timestampsOf_ofFn (N seg n : ℕ) (h1 : 1 ≤ seg) (h : seg + n = N) :
    timestampsOf ((List.range N).map fun i : ℕ => (i : K)) seg = List.ofFn fun i : Fin (n + 1) => ((i.val + (seg - 1) : ℕ) : K) := by
  rw [timestampsOf]
  refine List.ext_getElem (by simp; omega) fun i h1 h2 => ?_
  simp [add_comm, -List.ofFn_succ]

/-- The evidence of a configured study with default timestamps. -/
theorem Cfg.fit_evidence {S : Cfg K D} {om : OModel K D} {tm : TM K} {lat : List K} (hom : S.om = some om) (htm : S.tm = some (tm, lat))
    (hdup : (duplicates tm.flatNames).length = 0) (hts : S.rawTimestamps = some ((List.range S.rawData.length).map fun i : ℕ => (i : K)))
    (hseg : 1 ≤ om.seg) {n : ℕ} (hn : om.seg + n = S.rawData.length) (hl : ∀ a : Fin S.grid.length, 0 < S.lattice.getD a 1) (hs : ∀ a, 0 < S.shape a)
    (ext : Ext K S.shape) (hX : GaussOK ext) (hL : Linear (S.env om.names ext) tm) (hR : ResetFree tm) (prior : PriorSpec K S.shape) (π : Idx S.shape → K)
    (hp : PriorMass (S.env om.names ext).cell prior π) (hπ : ∑ x, π x = 1) (pdf : List D → Idx S.shape → K) (hpdf : ∀ i < n + 1, ∀ x, 0 < pdf ((S.rawData.drop i).take om.seg) x) (fo eo : Bool) :
    ∃ R, S.fit ext pdf prior fo eo = .ok R ∧
      R.logEv.exp = evidence π (fun i : Fin n => kernel (S.env om.names ext) π tm ((i.val + (om.seg - 1) : ℕ) : K))
        (fun i : Fin (n + 1) => pdf ((S.rawData.drop i).take om.seg)) ∧ 0 < R.logEv.exp := by
  have hE : Regular (S.env om.names ext) := ⟨hl, ⟨fun a => ⟨0, hs a⟩⟩, hX⟩
  have hne := hE.nonempty
  have hchk : S.check = .ok () := by
    rw [Cfg.check, hom, htm]
    simp only
    rw [if_neg (by omega), if_neg (by omega)]
  have hstart : S.fitStart = .ok (movingWindow S.rawData om.seg, timestampsOf ((List.range S.rawData.length).map fun i : ℕ => (i : K)) om.seg) := by
    rw [Cfg.fitStart, hchk, hom, hts]; rfl
  have hfit : S.fit ext pdf prior fo eo = BL.fit (S.env om.names ext) S.axes tm (List.ofFn fun i : Fin (n + 1) => pdf ((S.rawData.drop i).take om.seg))
      (List.ofFn fun i : Fin (n + 1) => ((i.val + (om.seg - 1) : ℕ) : K)) fo eo (FitState.init prior) := by
    rw [Cfg.fit, hstart, hom, htm]
    simp only
    rw [movingWindow_ofFn _ _ _ hn, timestampsOf_ofFn _ _ _ hseg hn, List.map_ofFn]
    rfl
  obtain ⟨R, h1, h2⟩ := Props.C01_evidence_is_path_sum (S.env om.names ext) S.axes tm hE hL hR (FitState.init prior) π hp
    (fun i : Fin (n + 1) => pdf ((S.rawData.drop i).take om.seg)) (fun i x => (hpdf i i.isLt x).le) (fun i : Fin (n + 1) => ((i.val + (om.seg - 1) : ℕ) : K)) fo eo
    (Or.inr (Or.inr fun i => by simp only [Fin.val_succ, Fin.val_castSucc]; push_cast; ring))
  refine ⟨R, by rw [hfit, h1], ?_, ?_⟩
  · rw [h2]; rfl
  · rw [h2]
    have hst := kernel_stoch hE hL (tm := tm) (pr := prior) (R := (1 : K)) (ρ := π) (Or.inl hR)
    exact evidence_pos (priorMass_nonneg (cell_pos hE.lattice_pos) hp) (by rw [hπ]; exact one_pos) (fun i => hst.nonneg _) (fun i => hst.sum _) (fun i x => hpdf i i.isLt x)

/-- a prior that is not finite ends every fit of non-empty data -/
theorem Cfg.fit_nan {S : Cfg K D} {om : OModel K D} {tm : TM K} {lat : List K} (hom : S.om = some om) (htm : S.tm = some (tm, lat))
    (hdup : (duplicates tm.flatNames).length = 0) {ts : List K} (hts : S.rawTimestamps = some ts)
    (hn : om.seg ≤ S.rawData.length) (hdat : S.rawData ≠ []) (ext : Ext K S.shape) (pdf : List D → Idx S.shape → K) (fo eo : Bool) :
    ∃ R, S.fit ext pdf (.array none) fo eo = .ok R ∧ R.logEv = LogV.ninf := by
  have hpos : 0 < S.rawData.length := List.length_pos_iff.2 hdat
  have hchk : S.check = .ok () := by
    rw [Cfg.check, hom, htm]
    simp only
    rw [if_neg (by omega), if_neg (by omega)]
  have hstart : S.fitStart = .ok (movingWindow S.rawData om.seg, timestampsOf ts om.seg) := by
    rw [Cfg.fitStart, hchk, hom, hts]; rfl
  rw [Cfg.fit, hstart, hom, htm]
  simp only
  obtain ⟨l, ls, hls⟩ : ∃ l ls, (movingWindow S.rawData om.seg).map pdf = l :: ls := by
    match hm : (movingWindow S.rawData om.seg).map pdf with
    | l :: ls => exact ⟨l, ls, rfl⟩
    | [] =>
        exfalso
        have := congrArg List.length hm
        simp [movingWindow] at this
        omega
  rw [hls]
  exact ⟨_, rfl, rfl⟩

theorem gridLoop_affine (est : String → List D → Option (List K)) (data : List D) (nm : String) (rest : List (Option (List K) × String)) (mg : List (List K)) (lat : List K)
    (a s : K) (hs : 0 ≤ s) (k n : ℕ) (hn : 2 ≤ n) (v : List K) (hv : v = (List.range' k n).map fun i : ℕ => a + (i : K) * s) (hest : est nm data = some v) :
    gridLoop est data ((none, nm) :: rest) mg lat = gridLoop est data rest (mg ++ [v]) (lat ++ [s]) := by
  obtain ⟨m, rfl⟩ : ∃ m, n = m + 2 := ⟨n - 2, by omega⟩
  have hir := Props.irregular_affine a s (m + 2) k
  have h1 : (List.range' k (m + 2)).map (fun i : ℕ => a + (i : K) * s) =
      (a + (k : K) * s) :: (a + ((k + 1 : ℕ) : K) * s) :: (List.range' (k + 2) m).map fun i : ℕ => a + (i : K) * s := by
    rw [List.range'_succ, List.range'_succ]; rfl
  rw [h1] at hir hv
  subst hv
  have : |a + (k : K) * s - (a + ((k + 1 : ℕ) : K) * s)| = s := by
    rw [show a + (k : K) * s - (a + ((k + 1 : ℕ) : K) * s) = -s by push_cast; ring, abs_neg, abs_of_nonneg hs]
  rw [gridLoop]
  simp only [hest, hir, Bool.false_eq_true, ↓reduceIte, this]

theorem oint_form (a b : K) (n : ℕ) : oint a b n = (List.range' 1 n).map fun i : ℕ => a + (i : K) * ((b - a) / ((n + 1 : ℕ) : K)) := by
  rw [oint, Props.linspace_range', ← List.map_drop, ← List.map_dropLast]
  congr 1
  rw [List.range'_succ, List.drop_one, List.tail_cons, List.range'_1_concat, List.dropLast_concat]

end

end BL
