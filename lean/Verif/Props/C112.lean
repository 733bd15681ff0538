import Verif.Props.C111
import Verif.Props.C04
import Verif.Props.C30

/-! # C112: parameter estimates of change-point studies -/

set_option linter.unusedSectionVars false

namespace Props
open BL Spec

variable {K : Type} [Field K] [LinearOrder K] [IsStrictOrderedRing K] {d : ℕ} {gs : Fin d → ℕ}

/-- weight of the paths through `x` = evidence with a likelihood that excludes the other values -/
theorem marginal_eq_evidence {n : ℕ} (π : Idx gs → K) (T : Fin n → Idx gs → Idx gs → K) (L : Fin (n + 1) → Idx gs → K) (i : Fin (n + 1)) (x : Idx gs) :
    Spec.marginal π T L i x = evidence π T fun j y => if j = i ∧ y ≠ x then 0 else L j y := by
  unfold Spec.marginal evidence
  rw [Finset.sum_filter]
  refine Finset.sum_congr rfl fun z _ => ?_
  unfold pathWeight
  split
  · rename_i h
    congr 1
    refine Finset.prod_congr rfl fun j _ => ?_
    refine (if_neg ?_).symm
    rintro ⟨rfl, h'⟩
    exact h' h
  · rename_i h
    have e : (∏ j, if j = i ∧ z j ≠ x then 0 else L j (z j)) = 0 := Finset.prod_eq_zero (Finset.mem_univ i) (if_pos ⟨rfl, h⟩)
    rw [e, mul_zero]

/-- posterior distribution for given change-points -/
theorem posterior_changes (π : Idx gs → K) {r : List K} (hr : r.Nodup) {n : ℕ} (τ : Fin (n + 1) → K) (hτ : StrictMono τ)
    (h : ∀ c ∈ r, ∃ i : Fin n, c = τ i.castSucc) (L : Fin (n + 1) → Idx gs → K) (h0 : changeEvidence π r τ L ≠ 0) (i : Fin (n + 1)) (x : Idx gs) :
    posterior π (fun i : Fin n => if τ i.castSucc ∈ r then fresh π else stay) L i x = piecePosterior π r τ L i x := by
  unfold posterior
  rw [marginal_eq_evidence, evidence_changes π hr τ hτ h, evidence_changes π hr τ hτ h]
  have hi : pieceOf r (τ i) ∈ Finset.range (r.length + 1) := by
    rw [Finset.mem_range]
    have := List.length_filter_le (fun c => decide (c < τ i)) r
    unfold pieceOf
    omega
  unfold changeEvidence at h0 ⊢
  rw [← Finset.mul_prod_erase _ _ hi] at h0
  rw [← Finset.mul_prod_erase _ _ hi, ← Finset.mul_prod_erase _ _ hi]
  have e1 : (∏ s ∈ (Finset.range (r.length + 1)).erase (pieceOf r (τ i)), ∑ y, π y * ∏ j with pieceOf r (τ j) = s, if j = i ∧ y ≠ x then 0 else L j y) =
      ∏ s ∈ (Finset.range (r.length + 1)).erase (pieceOf r (τ i)), ∑ y, π y * ∏ j with pieceOf r (τ j) = s, L j y := by
    refine Finset.prod_congr rfl fun s hs => Finset.sum_congr rfl fun y _ => ?_
    congr 1
    refine Finset.prod_congr rfl fun j hj => ?_
    rw [if_neg]
    rintro ⟨rfl, -⟩
    exact (Finset.mem_erase.1 hs).1 (Finset.mem_filter.1 hj).2.symm
  have e2 : (∑ y, π y * ∏ j with pieceOf r (τ j) = pieceOf r (τ i), if j = i ∧ y ≠ x then 0 else L j y) =
      π x * ∏ j with pieceOf r (τ j) = pieceOf r (τ i), L j x := by
    rw [Finset.sum_eq_single x]
    · simp
    · intro y _ hy
      have e : (∏ j with pieceOf r (τ j) = pieceOf r (τ i), if j = i ∧ y ≠ x then 0 else L j y) = 0 :=
        Finset.prod_eq_zero (Finset.mem_filter.2 ⟨Finset.mem_univ i, rfl⟩) (if_pos ⟨rfl, hy⟩)
      rw [e, mul_zero]
    · simp
  rw [e1, e2, mul_div_mul_right _ _ (right_ne_zero_of_mul h0)]
  rfl

theorem piece_nonneg {π : Idx gs → K} (hπ : ∀ x, 0 ≤ π x) {n : ℕ} {L : Fin n → Idx gs → K} (hL : ∀ i x, 0 ≤ L i x) (r : List K) (τ : Fin n → K) (i : Fin n) (x : Idx gs) :
    0 ≤ piecePosterior π r τ L i x := by
  unfold piecePosterior
  apply div_nonneg
  · exact mul_nonneg (hπ x) (Finset.prod_nonneg fun j _ => hL j x)
  · exact Finset.sum_nonneg fun y _ => mul_nonneg (hπ y) (Finset.prod_nonneg fun j _ => hL j y)

theorem piece_sum {π : Idx gs → K} {n : ℕ} {L : Fin (n + 1) → Idx gs → K} (r : List K) (τ : Fin (n + 1) → K) (h0 : changeEvidence π r τ L ≠ 0) (i : Fin (n + 1)) :
    ∑ x, piecePosterior π r τ L i x = 1 := by
  unfold piecePosterior
  rw [← Finset.sum_div, div_self]
  intro h
  apply h0
  unfold changeEvidence
  refine Finset.prod_eq_zero (i := pieceOf r (τ i)) ?_ h
  rw [Finset.mem_range]
  have := List.length_filter_le (fun c => decide (c < τ i)) r
  unfold pieceOf
  omega

/-- posterior distributions stored by the fit for one combination -/
theorem single_piece (I : FitIn K gs) (tm : TM K) (S A : FitState K gs) (hE : Regular I.E) (htm : StepModel tm) (hnd : ((entries tm).map (·.1)).Nodup)
    (π : Idx gs → K) (hp : PriorMass I.E.cell S.prior π) (hprior : S.prior = .none) {n : ℕ} (τ : Fin (n + 1) → K)
    (hU : ∀ i : Fin n, τ i.succ = τ i.castSucc + 1) (hts : I.ts = List.ofFn τ) (L : Fin (n + 1) → Idx gs → K) (hls : I.liks = List.ofFn L) (hL0 : ∀ i x, 0 ≤ L i x)
    (hfo : I.forwardOnly = false) (heo : I.evidenceOnly = false) (hτ : StrictMono τ)
    {row : List K} (hl : row.length = (entries tm).length) (hr : row.Nodup) (hv : ∀ c ∈ row, ∃ i : Fin n, c = τ i.castSucc)
    (h : singleFit I tm S row = .ok A) (h0 : changeEvidence π row τ L ≠ 0) (i : Fin (n + 1)) (x : Idx gs) : postOf A i x = piecePosterior π row τ L i x := by
  obtain ⟨s1, s2, s3, s4⟩ := modelAt_step (E := I.E) htm hnd hl
  unfold singleFit at h
  rw [hls, hts, hfo, heo] at h
  have := hE.nonempty
  have h1 : ∑ x, π x = 1 := (resetOK_prior hp (.inl hprior) (E := I.E)).sum_one
  have hk : (fun i : Fin n => kernel I.E π (modelAt tm row) (τ i.castSucc)) = fun i : Fin n => if τ i.castSucc ∈ row then fresh π else stay := by
    funext i
    rw [kernel_step h1 _ _ s1, s2]
  obtain ⟨S', f1, f2⟩ := C04_smoothing I.E I.grid (modelAt tm row) hE s3 S π hp (.inr hprior) L hL0 τ hU (by
    rw [hk, evidence_changes π hr τ hτ hv]; exact h0)
  rw [f1] at h
  cases h
  unfold postOf
  rw [f2, List.getElem?_ofFn, dif_pos i.2]
  change posterior _ _ _ _ _ = _
  rw [hk, posterior_changes π hr τ hτ hv L h0]

/-- the averaged posteriors of a study in terms of the single fits -/
theorem average_spec [Nonempty (Idx gs)] {As : List (FitState K gs)} {qs hgc W : List K} {ε T : K} (hε : 0 < ε)
    (hW : W = (As.zip qs).map fun q => q.1.logEv.exp * (q.2 * hgc.prod) / T) (hlen : W.length = As.length) (hsum : W.sum = 1) (hW0 : ∀ w ∈ W, 0 ≤ w)
    (hT : 0 < T / hgc.prod) (t : ℕ) (x : Idx gs) :
    (List.zipWith (contrib ε) As qs).sum t x = T / hgc.prod * Spec.mixture As W (fun A => max ε (postOf A t x)) ∧ 0 < Spec.mixture As W (fun A => max ε (postOf A t x)) := by
  have hc0 : hgc.prod ≠ 0 := by rintro h; rw [h, div_zero] at hT; exact lt_irrefl _ hT
  have hT0 : T ≠ 0 := by rintro rfl; rw [zero_div] at hT; exact lt_irrefl _ hT
  constructor
  · rw [zipWith_sum_apply, Spec.mixture, hW, zip_map_zip, List.map_map, ← sum_mul_list]
    congr 1
    apply List.map_congr_left
    intro q _
    have hm : (if postAt q.1 t x < ε then ε else postAt q.1 t x) = max ε (postOf q.1 t x) := by
      change (if postOf q.1 t x < ε then ε else postOf q.1 t x) = _
      split
      · rename_i h; exact (max_eq_left h.le).symm
      · rename_i h; exact (max_eq_right (not_lt.1 h)).symm
    simp only [contrib, Function.comp]
    rw [hm]
    split
    · rename_i h0
      rw [h0]; simp
    · field_simp
  · calc 0 < W.sum * ε := by rw [hsum, one_mul]; exact hε
      _ = Spec.mixture As W (fun _ => ε) := (mixture_const As W hlen ε).symm
      _ ≤ _ := mixture_mono hW0 fun A _ => le_max_left _ _

/-- **C112 (what is proved).** A full fit of a change-point study as in C111 with the default prior and time stamps one unit apart: at every time step the stored posterior distribution sums to
one and differs by at most `ε` (the code's `10^-300`) times the number of grid points from the exact posterior distribution, which averages the posterior distributions for given change-points (Bayes' theorem, applied to the data of one piece)
with the posterior probabilities of the change-points; the reported mean values are the means of the stored distributions.  Not covered: other priors (the backward pass counts them twice, C05), other
time stamps (C06), forward-only fits (the average then contains later data, C101). -/
theorem C112_partial (I : FitIn K gs) (nJobs : ℕ) (H : HState K gs) (C : CState K gs) (g : HyperGrid K) (ps : List K) (hb : Built H.tm)
    (hsp : " " ∉ (entries H.tm).map (·.1)) (htm : StepModel H.tm) (hE : Regular I.E) (hprior : H.S.prior = .none)
    {n : ℕ} (τ : Fin (n + 1) → K) (hU : ∀ i : Fin n, τ i.succ = τ i.castSucc + 1) (hts : I.ts = List.ofFn τ)
    (L : Fin (n + 1) → Idx gs → K) (hls : I.liks = List.ofFn L) (hL0 : ∀ i x, 0 ≤ L i x)
    (hfo : I.forwardOnly = false) (heo : I.evidenceOnly = false) (hε : 0 < I.ε)
    (hg : createHyperGrid H.tm I.ts = .ok g) (hps : g.priors = some ps) (hnn : ∀ p ∈ ps, 0 ≤ p)
    (hv : ∀ e ∈ entries H.tm, ∀ c ∈ valuesOf I.ts e.2, ∃ i : Fin n, c = τ i.castSucc)
    (hr : 1 < (g.rows.filter fun r => decide (r.Pairwise (· < ·))).length)
    (h : cpFit I nJobs H = .ok (some C)) (hpos : C.R.S.logEv ≠ LogV.ninf) :
    ∃ P : Fin (n + 1) → Idx gs → K, C.R.S.posts = List.ofFn (fun i => .val (P i)) ∧
      (∀ a, C.R.S.means a = List.ofFn fun i => ∑ x, P i x * I.grid a (x a)) ∧ ∀ i, ∑ x, P i x = 1 ∧ ∀ x,
        |P i x - overOrdered g.rows ps (fun r => changeEvidence (fun _ => 1 / (Fintype.card (Idx gs) : K)) r τ L *
            piecePosterior (fun _ => 1 / (Fintype.card (Idx gs) : K)) r τ L i x) /
          overOrdered g.rows ps (changeEvidence (fun _ => 1 / (Fintype.card (Idx gs) : K)) · τ L)| ≤ (Fintype.card (Idx gs) : K) * I.ε := by
  have := hE.nonempty
  set π : Idx gs → K := fun _ => 1 / (Fintype.card (Idx gs) : K) with hπ
  have hp : PriorMass I.E.cell H.S.prior π := by rw [hprior]; exact .flat
  have hπ0 : ∀ x, 0 ≤ π x := fun x => by rw [hπ]; positivity
  have hτ : StrictMono τ := Fin.strictMono_iff_lt_succ.2 fun i => by rw [hU i]; linarith
  have hmode : ModeOK I H.S τ L := .inr (.inr (.inr ⟨hprior, hU⟩))
  have hpr := (Built.matched hb).proper
  have hnd := cpFit_nodup hpr hg h
  have hlen := rows_length hpr hg
  have hv := rows_candidates hpr hg hv
  have hord : ∀ r ∈ g.rows, decide (InOrder H.tm r) = decide (r.Pairwise (· < ·)) := fun r hr => by
    simp only [inOrder_step htm (hlen r hr)]
  have hfil : g.rows.filter (fun r => decide (InOrder H.tm r)) = g.rows.filter fun r => decide (r.Pairwise (· < ·)) := List.filter_congr hord
  have hmap : g.rows.map (fun r => decide (InOrder H.tm r)) = g.rows.map fun r => decide (r.Pairwise (· < ·)) := List.map_congr_left hord
  obtain ⟨As, qs, hpd, c1, c2, c3, c4, c5, c6, c7, c8, c9, c10, c11, c12, c13, -, c15⟩ :=
    cpFit_full I nJobs H C g ps hb hsp (by rw [hprior]; rfl) hg hps (by rw [hfil]; exact hr) h
  rw [hfil] at c8
  rw [hmap] at c4 c5 c12
  set f : List K → Bool := fun r => decide (r.Pairwise (· < ·)) with hf
  set ev : List K → K := fun r => changeEvidence π r τ L with hev
  set sel := (g.rows.zip ps).filter fun q => f q.1 with hsel
  have hsz : sel = (g.rows.filter f).zip (select (g.rows.map f) ps) := select_zip f g.rows ps c6
  have hsl := select_length f g.rows ps c6
  have hcell : 0 < I.E.cell := Finset.prod_pos fun a _ => hE.lattice_pos a
  set c := ps.sum / (select (g.rows.map f) ps).sum with hc
  set κ := I.E.cell ^ (pointNames H.tm).length with hκ
  have hκ0 : κ ≠ 0 := (pow_pos hcell _).ne'
  have hrow : ∀ r ∈ g.rows.filter f, r.Nodup ∧ r.length = (entries H.tm).length ∧ ∀ c ∈ r, ∃ i : Fin n, c = τ i.castSucc := by
    intro r hr
    obtain ⟨hr1, hr2⟩ := List.mem_filter.1 hr
    have hlt : r.Pairwise (· < ·) := by simpa [hf] using hr2
    exact ⟨hlt.imp fun h => h.ne, hlen r hr1, hv r hr1⟩
  have hA1 : ∀ r ∈ g.rows.filter f, ∀ A, singleFit I H.tm H.S r = .ok A → A.logEv.exp = ev r * κ ∧
      (A.logEv.exp ≠ 0 → ∀ (i : Fin (n + 1)) x, postOf A i x = piecePosterior π r τ L i x) := by
    intro r hr A hA
    obtain ⟨a1, a2, a3⟩ := hrow r hr
    have e := single_changes I H.tm H.S A hE htm hnd π hp (.inl hprior) τ hτ hts L hls hL0 hmode a2 a1 a3 hA
    have e' : A.logEv.exp = ev r * κ := by rw [hκ, pointNames_step _ htm, List.length_map, ← a2]; exact e
    refine ⟨e', fun h0 i x => ?_⟩
    refine single_piece I H.tm H.S A hE htm hnd π hp hprior τ hU hts L hls hL0 hfo heo hτ a2 a1 a3 hA ?_ i x
    rw [e'] at h0
    exact left_ne_zero_of_mul h0
  have hev0 : ∀ A ∈ As, 0 ≤ A.logEv.exp := by
    intro A hA
    obtain ⟨row, -, hs⟩ := Singles.mem c8 hA
    exact fit_ev_nonneg hcell.le hs
  have hss : (sel.map (·.2)) = select (g.rows.map f) ps := by rw [hsz, List.map_snd_zip (by rw [hsl])]
  have hsn : ∀ p ∈ select (g.rows.map f) ps, 0 ≤ p := by
    intro p hp
    rw [← hss] at hp
    obtain ⟨q, hq, rfl⟩ := List.mem_map.1 hp
    exact hnn _ (List.of_mem_zip (List.mem_filter.1 hq).1).2
  have hqn : ∀ p ∈ qs, 0 ≤ p := by
    intro p hp
    rw [c4] at hp
    obtain ⟨q, hq, rfl⟩ := List.mem_map.1 hp
    exact mul_nonneg (hsn q hq) (div_nonneg (List.sum_nonneg hnn) (List.sum_nonneg hsn))
  have hT0 : C.R.S.logEv.exp ≠ 0 := fun h0 => hpos (LogV.ext_exp h0)
  have hcc := hgc_nonneg hpr hg
  obtain ⟨D, d1, d2, d3, d4⟩ := dist_spec c9 hev0 hqn hcc (T := C.R.S.logEv.exp) (by rw [c13, hyperEvidence_eq]) hT0
  have hlist : ∀ (g1 : FitState K gs → K) (g2 : List K → K), (∀ r ∈ g.rows.filter f, ∀ A, singleFit I H.tm H.S r = .ok A → g1 A = g2 r) →
      As.map g1 = (g.rows.filter f).map g2 := by
    intro g1 g2
    generalize g.rows.filter f = R at c8
    clear * - c8
    induction c8 with
    | nil => intro _; rfl
    | cons h1 _ ih =>
        intro hall
        rw [List.map_cons, List.map_cons, hall _ (by simp) _ h1, ih fun r hr => hall r (by simp [hr])]
  have hAs := hlist (fun A => A.logEv.exp) (fun r => ev r * κ) fun r hr A hA => (hA1 r hr A hA).1
  set Tot := overOrdered g.rows ps ev with hTot
  have hT : C.R.S.logEv.exp = κ * (c * g.hgc.prod) * Tot := by
    rw [c13, hyperEvidence_eq, joint_eq, c4]
    rw [zip_values (fun a b => a * b * g.hgc.prod) (fun A : FitState K gs => A.logEv.exp) (fun r => ev r * κ) (· * c) As (g.rows.filter f) _ hAs, ← hsz]
    rw [hTot]
    unfold overOrdered
    rw [← List.sum_map_mul_left]
    congr 1
    refine List.map_congr_left fun q _ => ?_
    ring
  set T := C.R.S.logEv.exp with hTdef
  set W := D.map (· * g.hgc.prod) with hW
  have hTpos : 0 < T := by
    refine lt_of_le_of_ne ?_ hT0.symm
    rw [hTdef, c13, hyperEvidence_eq, joint_eq]
    apply List.sum_nonneg
    intro w hw
    obtain ⟨q, hq, rfl⟩ := List.mem_map.1 hw
    exact mul_nonneg (mul_nonneg (hev0 _ (List.of_mem_zip hq).1) (hqn _ (List.of_mem_zip hq).2)) hcc
  have hX : κ * (c * g.hgc.prod) ≠ 0 := by
    rw [hT] at hT0
    exact left_ne_zero_of_mul hT0
  have hc0 : 0 < g.hgc.prod := lt_of_le_of_ne hcc (right_ne_zero_of_mul (right_ne_zero_of_mul hX)).symm
  have hWlen : W.length = As.length := by rw [hW, List.length_map, d2]
  have hW0 : ∀ w ∈ W, 0 ≤ w := by
    intro w hw
    rw [d3] at hw
    obtain ⟨q, hq, rfl⟩ := List.mem_map.1 hw
    exact div_nonneg (mul_nonneg (hev0 _ (List.of_mem_zip hq).1) (mul_nonneg (hqn _ (List.of_mem_zip hq).2) hcc)) hTpos.le
  have havg := fun t x => average_spec (gs := gs) hε d3 hWlen d4 hW0 (div_pos hTpos hc0) t x
  obtain ⟨p1, p2⟩ := c15 heo
  rw [finishAvg_rep _ _ fun t x _ => by rw [(havg t x).1]; exact mul_pos (div_pos hTpos hc0) (havg t x).2] at p1
  have hP : ∀ t x, (List.zipWith (contrib I.ε) As qs).sum t x / ∑ y, (List.zipWith (contrib I.ε) As qs).sum t y =
      Spec.mixture As W (fun A => max I.ε (postOf A t x)) / ∑ y, Spec.mixture As W (fun A => max I.ε (postOf A t y)) := by
    intro t x
    have e : ∑ y, (List.zipWith (contrib I.ε) As qs).sum t y = T / g.hgc.prod * ∑ y, Spec.mixture As W (fun A => max I.ε (postOf A t y)) := by
      rw [Finset.mul_sum]
      exact Finset.sum_congr rfl fun y _ => (havg t y).1
    rw [(havg t x).1, e, mul_div_mul_left _ _ (div_pos hTpos hc0).ne']
  have hofFn : ∀ {β : Type} (F : ℕ → β), (List.range I.liks.length).map F = List.ofFn fun i : Fin (n + 1) => F i := by
    intro β F
    rw [hls, List.length_ofFn]
    refine List.ext_getElem (by simp) fun k h1 h2 => ?_
    rw [List.getElem_map, List.getElem_range, List.getElem_ofFn]
  refine ⟨fun i x => Spec.mixture As W (fun A => max I.ε (postOf A i x)) / ∑ y, Spec.mixture As W (fun A => max I.ε (postOf A i y)), ?_, ?_, ?_⟩
  · rw [p1, hofFn]
    congr 1
    funext i
    congr 1
    funext x
    exact hP i x
  · intro a
    rw [p2, p1]
    beta_reduce
    rw [List.filterMap_map]
    have e : ((fun c : Cell (Idx gs → K) => c.get?.map (mean I.grid a)) ∘ fun t => Cell.val fun x =>
        (List.zipWith (contrib I.ε) As qs).sum t x / ∑ y, (List.zipWith (contrib I.ε) As qs).sum t y) =
        some ∘ fun t => ∑ x, Spec.mixture As W (fun A => max I.ε (postOf A t x)) / (∑ y, Spec.mixture As W (fun A => max I.ε (postOf A t y))) * I.grid a (x a) := by
      funext t
      simp only [Function.comp, Cell.get?, Option.map_some, mean, hP]
    rw [e, List.filterMap_eq_map, hofFn]
  · intro i
    constructor
    · rw [← Finset.sum_div, div_self]
      exact (Finset.sum_pos (fun y _ => (havg i y).2) Finset.univ_nonempty).ne'
    · intro x
      have hmix : overOrdered g.rows ps (fun r => ev r * piecePosterior π r τ L i x) / Tot = Spec.mixture As W fun A => postOf A i x := by
        have hl2 := hlist (fun A => A.logEv.exp * postOf A i x) (fun r => ev r * κ * piecePosterior π r τ L i x) fun r hr A hA => by
          obtain ⟨e1, e2⟩ := hA1 r hr A hA
          by_cases h0 : A.logEv.exp = 0
          · rw [← e1, h0, zero_mul, zero_mul]
          · rw [e2 h0, e1]
        unfold Spec.mixture
        rw [d3, zip_map_zip, List.map_map, c4]
        have e := zip_values (fun a b => a * (b * g.hgc.prod) / T) (fun A : FitState K gs => A.logEv.exp * postOf A i x)
          (fun r => ev r * κ * piecePosterior π r τ L i x) (· * c) As (g.rows.filter f) (select (g.rows.map f) ps) hl2
        rw [← hsz] at e
        have e' : ((As.zip ((select (g.rows.map f) ps).map (· * c))).map
            ((fun q : FitState K gs × K => q.2 * postOf q.1 i x) ∘ fun q => (q.1, q.1.logEv.exp * (q.2 * g.hgc.prod) / T))) =
            sel.map fun q => (κ * (c * g.hgc.prod) / T) * (q.2 * (ev q.1 * piecePosterior π q.1 τ L i x)) := by
          rw [show (fun q : List K × K => (κ * (c * g.hgc.prod) / T) * (q.2 * (ev q.1 * piecePosterior π q.1 τ L i x))) =
            fun q : List K × K => ev q.1 * κ * piecePosterior π q.1 τ L i x * (q.2 * c * g.hgc.prod) / T by funext q; ring]
          rw [← e]
          refine List.map_congr_left fun q _ => ?_
          simp only [Function.comp]
          ring
        rw [e', List.sum_map_mul_left, hT]
        change _ = κ * (c * g.hgc.prod) / (κ * (c * g.hgc.prod) * Tot) * overOrdered g.rows ps (fun r => ev r * piecePosterior π r τ L i x)
        rw [div_mul_eq_mul_div, mul_div_mul_left _ _ hX]
      rw [hmix]
      refine floor_error hWlen d4 hW0 hε i ?_ x
      intro k A w hA hw h0
      have hA0 : A.logEv.exp ≠ 0 := by
        intro hz
        apply h0
        rw [d3, List.getElem?_map] at hw
        obtain ⟨q, hq, rfl⟩ := Option.map_eq_some_iff.1 hw
        obtain ⟨h1, -⟩ := List.getElem?_zip_eq_some.1 hq
        rw [hA] at h1
        cases h1
        rw [hz, zero_mul, zero_div]
      obtain ⟨row, hrm, hs⟩ := Singles.mem c8 (List.mem_of_getElem? hA)
      obtain ⟨e1, e2⟩ := hA1 row hrm A hs
      have e2 := e2 hA0
      rw [e1] at hA0
      exact ⟨fun y => by rw [e2]; exact piece_nonneg hπ0 hL0 _ _ _ _,
        by rw [Finset.sum_congr rfl fun y _ => e2 i y]; exact piece_sum _ _ (left_ne_zero_of_mul hA0) i⟩

end Props

namespace Ex
open BL Spec

/-- time stamps one unit apart -/
def cpSteps : Fin 4 → ℚ := ![1, 2, 3, 4]
/-- four data points, full fit -/
def cpUnit (lat : ℚ) : FitIn ℚ gs2 := ⟨env gs2 lat, grid gs2, List.ofFn cpLik, List.ofFn cpSteps, false, false, 1 / 1000⟩

theorem cpTwo_built : Built cpTwo.tm := by
  refine Built.combined (ms := [cpAll "a", cpAll "b"]) ?_ rfl
  intro a ha
  simp only [List.mem_cons, List.not_mem_nil, or_false] at ha
  rcases ha with rfl | rfl
  · exact Built.changePoint (name := "a") (value := .val .all) (prior := .item .none) trivial rfl
  · exact Built.changePoint (name := "b") (value := .val .all) (prior := .item .none) trivial rfl

end Ex

namespace Props
open BL Spec

/-- Concrete case: four data points, cell volume 2, two change-points with the value `'all'`. -/
example : ∃ g ps C, createHyperGrid Ex.cpTwo.tm (Ex.cpUnit 2).ts = .ok g ∧ g.priors = some ps ∧ cpFit (Ex.cpUnit 2) 1 Ex.cpTwo = .ok (some C) ∧
    ∃ P : Fin 4 → Idx Ex.gs2 → ℚ, C.R.S.posts = List.ofFn (fun i => .val (P i)) ∧ ∀ i x,
      |P i x - overOrdered g.rows ps (fun r => changeEvidence Ex.cpUniform r Ex.cpSteps Ex.cpLik * piecePosterior Ex.cpUniform r Ex.cpSteps Ex.cpLik i x) /
        overOrdered g.rows ps (changeEvidence Ex.cpUniform · Ex.cpSteps Ex.cpLik)| ≤ (Fintype.card (Idx Ex.gs2) : ℚ) * (1 / 1000) := by
  obtain ⟨C, h1, h2⟩ := Ex.CpOk_iff.1 (show Ex.CpOk (cpFit (Ex.cpUnit 2) 1 Ex.cpTwo) (fun C => decide (C.R.S.logEv.exp ≠ 0)) = true by decide +kernel)
  have hf : ∀ g, createHyperGrid Ex.cpTwo.tm (Ex.cpUnit 2).ts = .ok g → (g.rows.filter fun r => decide (r.Pairwise (· < ·))) = [[1, 2], [1, 3], [2, 3]] := by
    intro g hg
    cases hg
    decide +kernel
  have hps : ∀ g, createHyperGrid Ex.cpTwo.tm (Ex.cpUnit 2).ts = .ok g → g.priors = some (List.replicate 9 (1 / 9)) := by
    intro g hg
    cases hg
    decide +kernel
  obtain ⟨g, hg⟩ : ∃ g, createHyperGrid Ex.cpTwo.tm (Ex.cpUnit 2).ts = .ok g := ⟨_, rfl⟩
  refine ⟨g, _, C, hg, hps g hg, h1, ?_⟩
  obtain ⟨P, p1, -, p3⟩ := C112_partial (Ex.cpUnit 2) 1 Ex.cpTwo C g _ Ex.cpTwo_built (by decide) ⟨⟨rfl, rfl⟩, ⟨rfl, rfl⟩, trivial⟩ (Ex.regular2 (by norm_num)) rfl
    Ex.cpSteps (by decide +kernel) rfl Ex.cpLik rfl (fun i x => (Ex.cpLik_pos i x).le) rfl rfl (by norm_num [Ex.cpUnit]) hg (hps g hg)
    (by intro p hp; rw [List.eq_of_mem_replicate hp]; norm_num)
    (by
      intro e he
      have : e = ("a", .all) ∨ e = ("b", .all) := by simpa [Ex.cpTwo, Ex.cpAll, entries, entriesAll] using he
      rcases this with rfl | rfl <;> exact all_candidates Ex.cpSteps)
    (by rw [hf g hg]; decide) h1 (fun h0 => (of_decide_eq_true h2) (by rw [h0]; rfl))
  exact ⟨P, p1, fun i x => (p3 i).2 x⟩

end Props
