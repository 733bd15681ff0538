import Verif.Props.C04
import Verif.Lemmas.Resets
import Verif.Lemmas.Static
import Mathlib.Data.Fin.Rev

/-! # C73: data analysed backwards -/

set_option linter.unusedSectionVars false

namespace BL
open Spec

variable {ι K : Type} [Fintype ι] [DecidableEq ι] [Field K]

theorem pathWeight_rev {n : ℕ} (c : K) (T T' : Fin n → ι → ι → K) (hT : ∀ i x y, T' i x y = T i.rev y x) (L : Fin (n + 1) → ι → K) (z : Fin (n + 1) → ι) :
    pathWeight (fun _ => c) T' (fun i => L i.rev) (fun i => z i.rev) = pathWeight (fun _ => c) T L z := by
  unfold pathWeight
  have h1 : ∏ i : Fin n, T' i (z i.castSucc.rev) (z i.succ.rev) = ∏ i : Fin n, T i (z i.castSucc) (z i.succ) := by
    rw [← Equiv.prod_comp Fin.revPerm fun i : Fin n => T i (z i.castSucc) (z i.succ)]
    refine Finset.prod_congr rfl fun i _ => ?_
    rw [hT, Fin.rev_castSucc, Fin.rev_succ, Fin.revPerm_apply]
  have h2 : ∏ i : Fin (n + 1), L i.rev (z i.rev) = ∏ i, L i (z i) := Equiv.prod_comp Fin.revPerm fun i => L i (z i)
  rw [h1, h2]

/-- reversal of paths -/
def revPath (ι : Type) (n : ℕ) : (Fin (n + 1) → ι) ≃ (Fin (n + 1) → ι) := Equiv.arrowCongr Fin.revPerm (Equiv.refl ι)

theorem evidence_rev {n : ℕ} (c : K) (T T' : Fin n → ι → ι → K) (hT : ∀ i x y, T' i x y = T i.rev y x) (L : Fin (n + 1) → ι → K) :
    evidence (fun _ => c) T' (fun i => L i.rev) = evidence (fun _ => c) T L := by
  unfold evidence
  rw [← Equiv.sum_comp (revPath ι n)]
  exact Finset.sum_congr rfl fun z _ => pathWeight_rev c T T' hT L z

theorem marginal_rev {n : ℕ} (c : K) (T T' : Fin n → ι → ι → K) (hT : ∀ i x y, T' i x y = T i.rev y x) (L : Fin (n + 1) → ι → K) (i : Fin (n + 1)) (x : ι) :
    Spec.marginal (fun _ => c) T' (fun i => L i.rev) i x = Spec.marginal (fun _ => c) T L i.rev x := by
  unfold Spec.marginal
  rw [Finset.sum_filter, Finset.sum_filter, ← Equiv.sum_comp (revPath ι n)]
  refine Finset.sum_congr rfl fun z _ => ?_
  have : revPath ι n z i = z i.rev := rfl
  rw [this]
  split
  · exact pathWeight_rev c T T' hT L z
  · rfl

theorem ofFn_reverse {α : Type} {n : ℕ} (f : Fin n → α) : (List.ofFn f).reverse = List.ofFn fun i => f i.rev := by
  apply List.ext_getElem
  · simp
  · intro i h1 h2
    simp only [List.getElem_reverse, List.getElem_ofFn, List.length_ofFn]
    congr 1
    apply Fin.ext
    simp only [Fin.val_rev]
    omega

variable [LinearOrder K] [IsStrictOrderedRing K] {d : ℕ} {gs : Fin d → ℕ}

mutual
theorem noChange_of_time : ∀ (tm : TM K), TimeIndependent tm → NoChangePoint tm
  | .leaf l _ _ _, h => by cases l <;> first | trivial | simp [TimeIndependent] at h
  | .combined ms, h => by
      simp only [TimeIndependent] at h
      simp only [NoChangePoint]
      exact noChange_of_timeAll ms h
  | .serial _ _ _ _ _, h => by simp [TimeIndependent] at h
theorem noChange_of_timeAll : ∀ (ms : List (TM K)), TimeIndependentAll ms → NoChangePointAll ms
  | [], _ => trivial
  | m :: ms, h => by
      simp only [TimeIndependentAll] at h
      exact ⟨noChange_of_time m h.1, noChange_of_timeAll ms h.2⟩
end

end BL

namespace Props
open BL Spec

variable {K : Type} [Field K] [LinearOrder K] [IsStrictOrderedRing K] {d : ℕ} {gs : Fin d → ℕ}

/-- **C73 (general form).** Two transition models without change-points (on a flat prior), such that the second one acts in reversed order of time as the first one.  Then the analysis of the reversed data
with the second model has the same evidence, in every mode, and the posterior distributions of the full fit in reversed order. -/
theorem C73_mirror (E : Env K gs) (grid : (a : Fin d) → Fin (gs a) → K) (tm tm' : TM K) (hE : Regular E) (hL : Linear E tm) (hL' : Linear E tm') (hc : NoChangePoint tm) (hc' : NoChangePoint tm')
    (S : FitState K gs) (hS : S.prior = .none) {n : ℕ} (L : Fin (n + 1) → Idx gs → K) (hL0 : ∀ i x, 0 ≤ L i x) (τ τ' : Fin (n + 1) → K)
    (hk : ∀ i : Fin n, kernel E (fun _ => 1 / (Fintype.card (Idx gs) : K)) tm' (τ' i.castSucc) = kernel E (fun _ => 1 / (Fintype.card (Idx gs) : K)) tm (τ i.rev.castSucc)) (fo eo : Bool)
    (hm : eo = true ∨ fo = true ∨ (∀ i : Fin n, kernel E (fun _ => 1 / (Fintype.card (Idx gs) : K)) tm (τ i.succ - 1) = kernel E (fun _ => 1 / (Fintype.card (Idx gs) : K)) tm (τ i.castSucc)) ∧
      ∀ i : Fin n, kernel E (fun _ => 1 / (Fintype.card (Idx gs) : K)) tm' (τ' i.succ - 1) = kernel E (fun _ => 1 / (Fintype.card (Idx gs) : K)) tm' (τ' i.castSucc)) :
    ∃ S1 S2, fit E grid tm (List.ofFn L) (List.ofFn τ) fo eo S = .ok S1 ∧ fit E grid tm' (List.ofFn fun i => L i.rev) (List.ofFn τ') fo eo S = .ok S2 ∧ S1.logEv = S2.logEv ∧
      (S1.logEv ≠ LogV.ninf → fo = false → eo = false → S2.posts = S1.posts.reverse) := by
  haveI := hE.nonempty
  have hp : PriorMass E.cell S.prior fun _ => 1 / (Fintype.card (Idx gs) : K) := by rw [hS]; exact .flat
  have hR : ∀ tm : TM K, ResetCond E tm S.prior 1 fun _ => 1 / (Fintype.card (Idx gs) : K) := fun tm => Or.inr ⟨by rw [hS]; rfl, resetOK_prior hp (Or.inl hS)⟩
  have hT : ∀ (i : Fin n) (x y : Idx gs), kernel E (fun _ => 1 / (Fintype.card (Idx gs) : K)) tm' (τ' i.castSucc) x y = kernel E (fun _ => 1 / (Fintype.card (Idx gs) : K)) tm (τ i.rev.castSucc) y x := by
    intro i x y
    rw [hk]
    exact kernel_symm hE.gauss (1 / (Fintype.card (Idx gs) : K)) tm hL (Or.inr fun _ => rfl) _ x y
  have he := evidence_rev (1 / (Fintype.card (Idx gs) : K)) (fun i : Fin n => kernel E (fun _ => 1 / (Fintype.card (Idx gs) : K)) tm (τ i.castSucc)) (fun i : Fin n => kernel E (fun _ => 1 / (Fintype.card (Idx gs) : K)) tm' (τ' i.castSucc)) hT L
  obtain ⟨S1, a1, a2⟩ := linear_evidence (grid := grid) (fo := fo) (eo := eo) hE hL hp (hR tm) hL0 (τ := τ) (hm.imp id (Or.imp id fun h => ⟨h.1, _, Or.inr fun _ => rfl⟩))
  obtain ⟨S2, b1, b2⟩ := linear_evidence (grid := grid) (fo := fo) (eo := eo) hE hL' hp (hR tm') (L := fun i => L i.rev) (fun i => hL0 i.rev) (τ := τ') (hm.imp id (Or.imp id fun h => ⟨h.2, _, Or.inr fun _ => rfl⟩))
  simp only [massOut_one tm (Or.inr hc), massOut_one tm' (Or.inr hc'), Finset.prod_const_one, mul_one] at a2 b2
  refine ⟨S1, S2, a1, b1, LogV.ext_exp (by rw [a2, b2, he]), ?_⟩
  rintro hfin rfl rfl
  have hm := (hm.resolve_left (by simp)).resolve_left (by simp)
  have hpos : evidence (fun _ => 1 / (Fintype.card (Idx gs) : K)) (fun i : Fin n => kernel E (fun _ => 1 / (Fintype.card (Idx gs) : K)) tm (τ i.castSucc)) L ≠ 0 := by
    rw [← a2]; intro h; exact hfin (LogV.ext_exp h)
  obtain ⟨S1', c1, c2⟩ := smoothing_matched E grid tm hE hL S _ hp (Or.inr hS) L hL0 τ hm.1 hpos
  obtain ⟨S2', d1, d2⟩ := smoothing_matched E grid tm' hE hL' S _ hp (Or.inr hS) (fun i => L i.rev) (fun i => hL0 i.rev) τ' hm.2 (by rw [he]; exact hpos)
  obtain rfl : S1' = S1 := Except.ok.inj (c1.symm.trans a1)
  obtain rfl : S2' = S2 := Except.ok.inj (d1.symm.trans b1)
  rw [c2, d2, ofFn_reverse]
  congr 1
  funext i
  congr 1
  funext x
  unfold Spec.posterior
  rw [he, marginal_rev (1 / (Fintype.card (Idx gs) : K)) (fun i : Fin n => kernel E (fun _ => 1 / (Fintype.card (Idx gs) : K)) tm (τ i.castSucc)) _ hT L i x]

/-- **C73.** Static, GaussianRandomWalk, Independent and combinations of these, flat prior, any data and any two lists of time stamps: the analysis of the data in reversed order has the same evidence, in
every mode, and the posterior distributions of the full fit are those of the original analysis in reversed order. -/
theorem C73 (E : Env K gs) (grid : (a : Fin d) → Fin (gs a) → K) (tm : TM K) (hE : Regular E) (hL : Linear E tm) (ht : TimeIndependent tm)
    (S : FitState K gs) (hS : S.prior = .none) (Ls : List (Idx gs → K)) (ts ts' : List K) (hne : Ls ≠ []) (hlen : ts.length = Ls.length) (hlen' : ts'.length = Ls.length) (hL0 : ∀ L ∈ Ls, ∀ x, 0 ≤ L x) (fo eo : Bool) :
    ∃ S1 S2, fit E grid tm Ls ts fo eo S = .ok S1 ∧ fit E grid tm Ls.reverse ts' fo eo S = .ok S2 ∧ S1.logEv = S2.logEv ∧
      (S1.logEv ≠ LogV.ninf → fo = false → eo = false → S2.posts = S1.posts.reverse) := by
  obtain ⟨n, L, rfl⟩ := list_ofFn Ls hne
  obtain ⟨τ, rfl⟩ := ofFn_of_length ts (by simpa using hlen : ts.length = n + 1)
  obtain ⟨τ', rfl⟩ := ofFn_of_length ts' (by simpa using hlen' : ts'.length = n + 1)
  rw [ofFn_reverse]
  exact C73_mirror E grid tm tm hE hL hL (noChange_of_time tm ht) (noChange_of_time tm ht) S hS L (fun i x => hL0 _ ((List.mem_ofFn' _ _).2 ⟨i, rfl⟩) x) τ τ' (fun i => kernel_time tm ht _ _) fo eo
    (Or.inr (Or.inr ⟨fun i => kernel_time tm ht _ _, fun i => kernel_time tm ht _ _⟩))

/-- **C73 (break-point).** For two such models, joined at a break-point: time stamps 0, 1, ..., n, first `m` before the break-point at `b`, then `m'`.  The analysis of the reversed data with first `m'`, a
break-point at `n - b`, and then `m`, has the same evidence and reversed posteriors. -/
theorem C73_break (E : Env K gs) (grid : (a : Fin d) → Fin (gs a) → K) (m m' : TM K) (hE : Regular E) (hL : Linear E m) (ht : TimeIndependent m) (hL' : Linear E m') (ht' : TimeIndependent m')
    (nm nm' : List String) (hpr hpr' : List (Nest (HPrior K))) (n b : ℕ) (hb : b ≤ n)
    (S : FitState K gs) (hS : S.prior = .none) (Ls : List (Idx gs → K)) (hlen : Ls.length = n + 1) (hL0 : ∀ L ∈ Ls, ∀ x, 0 ≤ L x) (fo eo : Bool) :
    ∃ S1 S2, fit E grid (.serial nm [.scalar (b : K)] hpr [false] [m, m']) Ls ((List.range (n + 1)).map fun (i : ℕ) => (i : K)) fo eo S = .ok S1 ∧
      fit E grid (.serial nm' [.scalar (n - b : K)] hpr' [false] [m', m]) Ls.reverse ((List.range (n + 1)).map fun (i : ℕ) => (i : K)) fo eo S = .ok S2 ∧ S1.logEv = S2.logEv ∧
      (S1.logEv ≠ LogV.ninf → fo = false → eo = false → S2.posts = S1.posts.reverse) := by
  obtain ⟨L, rfl⟩ := ofFn_of_length Ls hlen
  have e1 : (List.range (n + 1)).map (fun (i : ℕ) => (i : K)) = List.ofFn fun i : Fin (n + 1) => ((i : ℕ) : K) := by
    apply List.ext_getElem
    · simp
    · intro i h1 h2
      simp only [List.getElem_map, List.getElem_range, List.getElem_ofFn]
  rw [ofFn_reverse, e1]
  have hu : ∀ i : Fin n, (((i.succ : Fin (n + 1)) : ℕ) : K) = ((i.castSucc : Fin (n + 1)) : ℕ) + 1 := by intro i; simp
  refine C73_mirror E grid _ _ hE (by simp [Linear, LinearAll, hL, hL']) (by simp [Linear, LinearAll, hL, hL'])
    (by simp [NoChangePoint, NoChangePointAll, noChange_of_time _ ht, noChange_of_time _ ht'])
    (by simp [NoChangePoint, NoChangePointAll, noChange_of_time _ ht, noChange_of_time _ ht']) S hS L (fun i x => hL0 _ ((List.mem_ofFn' _ _).2 ⟨i, rfl⟩) x) _ _ ?_ fo eo
    (Or.inr (Or.inr ⟨fun i => by simp only [hu, add_sub_cancel_right], fun i => by simp only [hu, add_sub_cancel_right]⟩))
  intro i
  have hi := i.isLt
  have key : ((n : K) - b ≤ ((i.castSucc : Fin (n + 1)) : ℕ)) ↔ ¬ ((b : K) ≤ ((i.rev.castSucc : Fin (n + 1)) : ℕ)) := by
    rw [sub_le_iff_le_add]
    norm_cast
    simp only [Fin.val_castSucc, Fin.val_rev]
    omega
  simp only [kernel, vals, IsChange, List.zip_cons_cons, List.zip_nil_right, List.mem_cons, List.not_mem_nil, Prod.mk.injEq, Bool.true_eq_false, and_false, or_false, if_false, breaksUpTo]
  by_cases h : (b : K) ≤ ((i.rev.castSucc : Fin (n + 1)) : ℕ)
  · have h' : ¬ ((n : K) - b ≤ ((i.castSucc : Fin (n + 1)) : ℕ)) := fun h2 => key.1 h2 h
    simp only [List.filter_cons, List.filter_nil, decide_eq_true_eq, h, h', if_true, if_false, List.length_cons, List.length_nil, kernelNth]
    rw [kernel_time m' ht' _ _]
  · have h' : ((n : K) - b ≤ ((i.castSucc : Fin (n + 1)) : ℕ)) := key.2 h
    simp only [List.filter_cons, List.filter_nil, decide_eq_true_eq, h, h', if_true, if_false, List.length_cons, List.length_nil, kernelNth]
    rw [kernel_time m ht _ _]

/-- The hypotheses can be met. -/
example := C73 (Ex.env Ex.gs3 (1 / 2)) (Ex.grid Ex.gs3) (.combined [Ex.grw 1, Ex.grw 2]) (Ex.regular3 (by norm_num)) (by simp [Ex.grw, Linear, LinearAll, Ex.axis_x])
  (by simp [Ex.grw, TimeIndependent, TimeIndependentAll]) (Ex.S0 .none) rfl [Ex.v3 1 2 3, Ex.v3 0 1 0, Ex.v3 1 0 2] [0, 1, 2] [0, 5, 7] (by simp) rfl rfl (by decide +kernel) false false

example := C73_break (Ex.env Ex.gs3 (1 / 2)) (Ex.grid Ex.gs3) (Ex.grw 1) Ex.static (Ex.regular3 (by norm_num)) (by simp [Ex.grw, Linear, Ex.axis_x]) (by simp [Ex.grw, TimeIndependent])
  (by simp [Ex.static, Linear]) (by simp [Ex.static, TimeIndependent]) ["t"] ["t"] [] [] 2 1 (by omega) (Ex.S0 .none) rfl [Ex.v3 1 2 3, Ex.v3 0 1 0, Ex.v3 1 0 2] rfl (by decide +kernel) false false

/-- With another prior the order of the data matters. -/
example : Ex.ev (fit (Ex.env Ex.gs2 1) (Ex.grid Ex.gs2) (Ex.grw 1) [Ex.v2 1 0, Ex.v2 1 1] [0, 1] true false (Ex.S0 (.array (some (Ex.v2 1 3))))) ≠
    Ex.ev (fit (Ex.env Ex.gs2 1) (Ex.grid Ex.gs2) (Ex.grw 1) [Ex.v2 1 1, Ex.v2 1 0] [0, 1] true false (Ex.S0 (.array (some (Ex.v2 1 3))))) := by
  decide +kernel

end Props
