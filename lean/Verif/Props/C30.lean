import Verif.Props.C29

/-! # C30: averaged posterior of a hyper-study -/

set_option linter.unusedSectionVars false

namespace Spec
open BL
variable {K : Type} [Field K] [LinearOrder K] {d : ℕ} {gs : Fin d → ℕ}

/-- Posterior of a finished plain fit at time index `t` (zero if nothing has been stored). -/
def postOf (A : FitState K gs) (t : ℕ) : Idx gs → K :=
  match A.posts[t]? with
  | some (.val p) => p
  | _ => fun _ => 0

/-- Mixture of the values `f A` with weights `W` -/
def mixture (As : List (FitState K gs)) (W : List K) (f : FitState K gs → K) : K := ((As.zip W).map fun q => q.2 * f q.1).sum

end Spec

namespace Props
open BL Spec

variable {K : Type} [Field K] [LinearOrder K] [IsStrictOrderedRing K] {d : ℕ} {gs : Fin d → ℕ}

theorem zip_map_zip {α : Type} (f : α × K → K) : ∀ (As : List α) (ps : List K),
    As.zip ((As.zip ps).map f) = (As.zip ps).map fun q => (q.1, f q)
  | [], _ => rfl
  | _ :: _, [] => rfl
  | a :: As, p :: ps => by simp [zip_map_zip f As ps]

theorem zipWith_sum_apply {α : Type} (f : α → K → ℕ → Idx gs → K) : ∀ (As : List α) (ps : List K) (t : ℕ) (x : Idx gs),
    (List.zipWith f As ps).sum t x = ((As.zip ps).map fun q => f q.1 q.2 t x).sum
  | [], _, _, _ => by simp
  | _ :: _, [], _, _ => by simp
  | a :: As, p :: ps, t, x => by simp [zipWith_sum_apply f As ps t x]

theorem sum_mul_list {α : Type} (l : List α) (f : α → K) (c : K) : (l.map fun q => c * f q).sum = c * (l.map f).sum := by
  induction l with
  | nil => simp
  | cons a l ih => simp [ih, mul_add]

theorem sum_le_list {α : Type} {l : List α} {f g : α → K} (h : ∀ q ∈ l, f q ≤ g q) : (l.map f).sum ≤ (l.map g).sum :=
  List.sum_le_sum h

theorem mixture_const (As : List (FitState K gs)) (W : List K) (hl : W.length = As.length) (c : K) :
    mixture As W (fun _ => c) = W.sum * c := by
  unfold mixture
  rw [List.sum_map_mul_right]
  congr 2
  exact List.map_snd_zip (by omega)

theorem mixture_sum {ι : Type} (s : Finset ι) (As : List (FitState K gs)) (W : List K) (f : FitState K gs → ι → K) :
    ∑ y ∈ s, mixture As W (fun A => f A y) = mixture As W fun A => ∑ y ∈ s, f A y := by
  unfold mixture
  induction As.zip W with
  | nil => simp
  | cons q l ih => simp only [List.map_cons, List.sum_cons, Finset.sum_add_distrib, ih, Finset.mul_sum]

theorem mixture_mono {As : List (FitState K gs)} {W : List K} (hW : ∀ w ∈ W, 0 ≤ w) {f g : FitState K gs → K}
    (h : ∀ A ∈ As, f A ≤ g A) : mixture As W f ≤ mixture As W g :=
  sum_le_list fun q hq => mul_le_mul_of_nonneg_left (h _ (List.of_mem_zip hq).1) (hW _ (List.of_mem_zip hq).2)

/-- members with weight zero do not matter -/
theorem mixture_congr {As : List (FitState K gs)} {W : List K} {f g : FitState K gs → K}
    (h : ∀ (k : ℕ) A w, As[k]? = some A → W[k]? = some w → w ≠ 0 → f A = g A) : mixture As W f = mixture As W g := by
  unfold mixture
  congr 1
  apply List.map_congr_left
  intro q hq
  obtain ⟨k, hk⟩ := List.mem_iff_getElem?.1 hq
  obtain ⟨h1, h2⟩ := List.getElem?_zip_eq_some.1 hk
  by_cases h0 : q.2 = 0
  · rw [h0, zero_mul, zero_mul]
  · rw [h k q.1 q.2 h1 h2 h0]

theorem mixture_add (As : List (FitState K gs)) (W : List K) (f g : FitState K gs → K) :
    mixture As W (fun A => f A + g A) = mixture As W f + mixture As W g := by
  unfold mixture
  rw [← List.sum_map_add]
  congr 1
  apply List.map_congr_left
  intro q _
  ring

/-- **C30 (part that holds: the prior of the parameters is not a numpy array).** If the evidence of the study is not zero, the stored posterior at
every time step is the mixture of the posteriors of the plain fits, each raised to at least `ε` (the code's `10^-300`) and weighted with the
posterior probability of the combination (the stored density times the hyper-grid cell), divided by its sum; it sums to one, and it is the mixture
itself where no posterior value is below `ε`. -/
theorem C30_partial (I : FitIn K gs) (nJobs : ℕ) (H R : HState K gs) (g : HyperGrid K) (ps : List K) (hb : Built H.tm)
    (hsp : " " ∉ (entries H.tm).map (·.1)) (hn : H.S.prior.isArray = false) (hcell : 0 ≤ I.E.cell)
    (hg : createHyperGrid H.tm I.ts = .ok g) (hps : g.priors = some ps) (hr : 1 < g.rows.length) (hnn : ∀ p ∈ ps, 0 ≤ p)
    (h : hyperFit I nJobs H = .ok (some R)) (hpos : R.S.logEv ≠ LogV.ninf)
    (heo : I.evidenceOnly = false) (hε : 0 < I.ε) (hne : Nonempty (Idx gs)) :
    ∃ (As : List (FitState K gs)) (W D : List K), Singles I H g.rows As ∧ R.hpd = some D ∧ D.map (· * g.hgc.prod) = W ∧
      W.length = As.length ∧ W.sum = 1 ∧ (∀ w ∈ W, 0 ≤ w) ∧
      (∀ (k : ℕ) A w, As[k]? = some A → W[k]? = some w → w ≠ 0 → A.logEv ≠ LogV.ninf) ∧
      ∃ P : ℕ → Idx gs → K, R.S.posts = (List.range I.liks.length).map (fun t => .val (P t)) ∧
        ∀ t < I.liks.length, ∑ x, P t x = 1 ∧
          (∀ x, P t x = mixture As W (fun A => max I.ε (postOf A t x)) / ∑ y, mixture As W (fun A => max I.ε (postOf A t y))) ∧
          ((∀ A ∈ As, A.logEv ≠ LogV.ninf → ∀ x, I.ε ≤ postOf A t x) → ∀ x, P t x = mixture As W fun A => postOf A t x) := by
  obtain ⟨As, W, D, c1, c2, c3, c4, c5, c6, c7, c8⟩ :=
    C31_partial I nJobs H R g ps hb hsp hn hcell hg hps hr hnn h hpos
  rcases hyperFit_spec I nJobs H g ps hb hsp hn hg hps hr with ⟨e, he⟩ | ⟨As', a1, a2, a3, R', r0, r1, r2, r3, r4, r5, r6, r7, r8⟩
  · rw [he] at h; cases h
  rw [r0] at h
  cases h
  have hAA : As' = As := by
    have e1 := mapE_ok.2 a1
    rw [mapE_ok.2 c1] at e1
    exact (Except.ok.inj e1).symm
  subst hAA
  have hlen : W.length = As'.length := by rw [c5, c1.length_eq]
  have hT0 : R.S.logEv.exp ≠ 0 := fun h0 => hpos (LogV.ext_exp h0)
  have hc0 : g.hgc.prod ≠ 0 := by
    intro h0
    have : W.sum = 0 := by
      rw [c4]
      apply List.sum_eq_zero
      intro w hw
      obtain ⟨q, -, rfl⟩ := List.mem_map.1 hw
      rw [h0]; simp
    rw [c6] at this
    exact one_ne_zero this
  -- the average as a mixture
  have hF : ∀ t x, (List.zipWith (contrib I.ε) As' ps).sum t x =
      R.S.logEv.exp / g.hgc.prod * mixture As' W (fun A => max I.ε (postOf A t x)) := by
    intro t x
    rw [zipWith_sum_apply, mixture, c4, zip_map_zip, List.map_map, ← sum_mul_list]
    congr 1
    apply List.map_congr_left
    intro q _
    have hm : (if postAt q.1 t x < I.ε then I.ε else postAt q.1 t x) = max I.ε (postOf q.1 t x) := by
      change (if postOf q.1 t x < I.ε then I.ε else postOf q.1 t x) = _
      split
      · rename_i h; exact (max_eq_left h.le).symm
      · rename_i h; exact (max_eq_right (not_lt.1 h)).symm
    simp only [contrib, Function.comp]
    rw [hm]
    split
    · rename_i h0
      rw [h0]; simp
    · field_simp
  have hTpos : 0 < R.S.logEv.exp / g.hgc.prod := by
    have hc := hgc_nonneg (Built.matched hb).proper hg
    have h0 : 0 ≤ R.S.logEv.exp := by
      rw [r3, hyperEvidence_eq, joint_eq]
      apply List.sum_nonneg
      intro w hw
      obtain ⟨q, hq, rfl⟩ := List.mem_map.1 hw
      obtain ⟨row, -, hs⟩ := Singles.mem c1 (List.of_mem_zip hq).1
      exact mul_nonneg (mul_nonneg (fit_ev_nonneg hcell hs) (hnn _ (List.of_mem_zip hq).2)) hc
    exact div_pos (lt_of_le_of_ne h0 hT0.symm) (lt_of_le_of_ne hc hc0.symm)
  have hmpos : ∀ t x, 0 < mixture As' W (fun A => max I.ε (postOf A t x)) := by
    intro t x
    calc 0 < W.sum * I.ε := by rw [c6, one_mul]; exact hε
      _ = mixture As' W (fun _ => I.ε) := (mixture_const As' W hlen I.ε).symm
      _ ≤ _ := mixture_mono c7 fun A _ => le_max_left _ _
  have hposts := (r8 heo).1
  rw [finishAvg_rep _ _ fun t x _ => by rw [hF]; exact mul_pos hTpos (hmpos t x)] at hposts
  have hfin : ∀ (k : ℕ) A w, As'[k]? = some A → W[k]? = some w → w ≠ 0 → A.logEv ≠ LogV.ninf := by
    intro k A w hA hw h0 hz
    have := c8 k A hA hz
    rw [hw] at this
    exact h0 (Option.some.inj this)
  refine ⟨As', W, D, c1, c2, c3, hlen, c6, c7, hfin, _, hposts, fun t ht => ?_⟩
  have hP : ∀ x, (List.zipWith (contrib I.ε) As' ps).sum t x / ∑ y, (List.zipWith (contrib I.ε) As' ps).sum t y =
      mixture As' W (fun A => max I.ε (postOf A t x)) / ∑ y, mixture As' W (fun A => max I.ε (postOf A t y)) := by
    intro x
    have e : ∑ y, (List.zipWith (contrib I.ε) As' ps).sum t y =
        R.S.logEv.exp / g.hgc.prod * ∑ y, mixture As' W (fun A => max I.ε (postOf A t y)) := by
      rw [Finset.mul_sum]
      exact Finset.sum_congr rfl fun y _ => hF t y
    rw [hF, e, mul_div_mul_left _ _ hTpos.ne']
  have hs : 0 < ∑ y, mixture As' W (fun A => max I.ε (postOf A t y)) :=
    Finset.sum_pos (fun y _ => hmpos t y) Finset.univ_nonempty
  refine ⟨?_, hP, fun hex x => ?_⟩
  · rw [Finset.sum_congr rfl fun x _ => hP x, ← Finset.sum_div, div_self hs.ne']
  · have hmm : ∀ y, mixture As' W (fun A => max I.ε (postOf A t y)) = mixture As' W fun A => postOf A t y := by
      intro y
      apply mixture_congr
      intro k A w hA hw h0
      exact max_eq_right (hex A (List.mem_of_getElem? hA) (hfin k A w hA hw h0) y)
    have hone : ∑ y, mixture As' W (fun A => postOf A t y) = 1 := by
      rw [mixture_sum]
      have : mixture As' W (fun A => ∑ y, postOf A t y) = mixture As' W fun _ => (1 : K) := by
        apply mixture_congr
        intro k A w hA hw h0
        obtain ⟨row, -, hsf⟩ := Singles.mem c1 (List.mem_of_getElem? hA)
        have hA0 := hfin k A w hA hw h0
        unfold singleFit at hsf
        rw [heo] at hsf
        obtain ⟨l1, l2⟩ := C07_normalised _ _ _ _ _ _ _ _ hsf hA0
        have ht' : t < A.posts.length := by omega
        obtain ⟨p, hp, hp1⟩ := l2 _ (List.getElem_mem ht')
        have : postOf A t = p := by
          unfold postOf
          rw [List.getElem?_eq_getElem ht', hp]
        rw [this, hp1]
      rw [this, mixture_const As' W hlen, c6, one_mul]
    rw [hP, Finset.sum_congr rfl fun y _ => hmm y, hone, hmm, div_one]

/-- flooring the components of a mixture of distributions and normalising changes it by at most `ε` times the number of grid points -/
theorem floor_error [Nonempty (Idx gs)] {As : List (FitState K gs)} {W : List K} (c4 : W.length = As.length) (c5 : W.sum = 1) (c6 : ∀ w ∈ W, 0 ≤ w) {ε : K} (hε : 0 < ε) (t : ℕ)
    (hdist : ∀ (k : ℕ) A w, As[k]? = some A → W[k]? = some w → w ≠ 0 → (∀ y, 0 ≤ postOf A t y) ∧ ∑ y, postOf A t y = 1) (x : Idx gs) :
    |mixture As W (fun A => max ε (postOf A t x)) / (∑ y, mixture As W (fun A => max ε (postOf A t y))) - mixture As W fun A => postOf A t x| ≤ (Fintype.card (Idx gs) : K) * ε := by
  -- mixture and floored mixture
  have hmix0 : ∀ y, 0 ≤ mixture As W fun A => postOf A t y := by
    intro y
    have : mixture As W (fun A => postOf A t y) = mixture As W fun A => max 0 (postOf A t y) :=
      mixture_congr fun k A w hA hw h0 => (max_eq_right ((hdist k A w hA hw h0).1 y)).symm
    rw [this]
    calc (0 : K) = mixture As W fun _ => 0 := by rw [mixture_const As W c4, mul_zero]
      _ ≤ _ := mixture_mono c6 fun A _ => le_max_left _ _
  have hone : ∑ y, mixture As W (fun A => postOf A t y) = 1 := by
    rw [mixture_sum]
    have : mixture As W (fun A => ∑ y, postOf A t y) = mixture As W fun _ => (1 : K) :=
      mixture_congr fun k A w hA hw h0 => (hdist k A w hA hw h0).2
    rw [this, mixture_const As W c4, c5, one_mul]
  have hlo : ∀ y, (mixture As W fun A => postOf A t y) ≤ mixture As W fun A => max ε (postOf A t y) :=
    fun y => mixture_mono c6 fun A _ => le_max_right _ _
  have hhi : ∀ y, (mixture As W fun A => max ε (postOf A t y)) ≤ (mixture As W fun A => postOf A t y) + ε := by
    intro y
    have e1 : mixture As W (fun A => max ε (postOf A t y)) = mixture As W fun A => max ε (max 0 (postOf A t y)) :=
      mixture_congr fun k A w hA hw h0 => by rw [max_eq_right ((hdist k A w hA hw h0).1 y)]
    have e2 : mixture As W (fun A => postOf A t y) = mixture As W fun A => max 0 (postOf A t y) :=
      mixture_congr fun k A w hA hw h0 => (max_eq_right ((hdist k A w hA hw h0).1 y)).symm
    have e3 : ε = mixture As W fun _ => ε := by rw [mixture_const As W c4, c5, one_mul]
    rw [e1, e2]
    conv_rhs => rw [e3, ← mixture_add]
    apply mixture_mono c6
    intro A _
    apply max_le
    · have := le_max_left 0 (postOf A t y); linarith
    · linarith
  set m : Idx gs → K := fun y => mixture As W fun A => max ε (postOf A t y) with hm
  set q : Idx gs → K := fun y => mixture As W fun A => postOf A t y with hq
  change |m x / ∑ y, m y - q x| ≤ _
  have hs1 : 1 ≤ ∑ y, m y := by rw [← hone]; exact Finset.sum_le_sum fun y _ => hlo y
  have hs2 : ∑ y, m y ≤ 1 + (Fintype.card (Idx gs) : K) * ε := by
    calc ∑ y, m y ≤ ∑ y, (q y + ε) := Finset.sum_le_sum fun y _ => hhi y
      _ = 1 + (Fintype.card (Idx gs) : K) * ε := by
          rw [Finset.sum_add_distrib, hone, Finset.sum_const, Finset.card_univ, nsmul_eq_mul]
  have hN : (1 : K) ≤ (Fintype.card (Idx gs) : K) := by
    have : 1 ≤ Fintype.card (Idx gs) := Fintype.card_pos
    exact_mod_cast this
  have hεN : ε ≤ (Fintype.card (Idx gs) : K) * ε := le_mul_of_one_le_left hε.le hN
  have hqx1 : q x ≤ 1 := by
    rw [← hone]
    exact Finset.single_le_sum (f := q) (fun y _ => hmix0 y) (Finset.mem_univ x)
  have hs0 : 0 < ∑ y, m y := lt_of_lt_of_le zero_lt_one hs1
  rw [abs_le]
  constructor
  · have : q x - (Fintype.card (Idx gs) : K) * ε ≤ m x / ∑ y, m y := by
      rw [le_div_iff₀ hs0]
      have h1 : 0 ≤ (Fintype.card (Idx gs) : K) * ε := hε.le.trans hεN
      by_cases hn0 : q x - (Fintype.card (Idx gs) : K) * ε ≤ 0
      · calc _ ≤ (0 : K) := mul_nonpos_of_nonpos_of_nonneg hn0 hs0.le
          _ ≤ q x := hmix0 x
          _ ≤ m x := hlo x
      · push Not at hn0
        calc (q x - (Fintype.card (Idx gs) : K) * ε) * ∑ y, m y
            ≤ (q x - (Fintype.card (Idx gs) : K) * ε) * (1 + (Fintype.card (Idx gs) : K) * ε) := mul_le_mul_of_nonneg_left hs2 hn0.le
          _ = q x - (1 - q x) * ((Fintype.card (Idx gs) : K) * ε) - ((Fintype.card (Idx gs) : K) * ε) * ((Fintype.card (Idx gs) : K) * ε) := by ring
          _ ≤ q x := by
              have := mul_nonneg (sub_nonneg.2 hqx1) h1
              have := mul_nonneg h1 h1
              linarith
          _ ≤ m x := hlo x
    linarith
  · have h1 : m x / ∑ y, m y ≤ m x := div_le_self ((hmix0 x).trans (hlo x)) hs1
    have := hhi x
    change m x ≤ q x + ε at this
    linarith

/-- **C30 (error of the floor).** If moreover likelihoods, prior and external filters are not negative, the stored posterior differs from the mixture of the single posteriors by at most
`ε` times the number of grid points. -/
theorem C30_error_partial (I : FitIn K gs) (nJobs : ℕ) (H R : HState K gs) (g : HyperGrid K) (ps : List K) (hb : Built H.tm)
    (hsp : " " ∉ (entries H.tm).map (·.1)) (hn : H.S.prior.isArray = false)
    (hg : createHyperGrid H.tm I.ts = .ok g) (hps : g.priors = some ps) (hr : 1 < g.rows.length) (hnn : ∀ p ∈ ps, 0 ≤ p)
    (h : hyperFit I nJobs H = .ok (some R)) (hpos : R.S.logEv ≠ LogV.ninf)
    (heo : I.evidenceOnly = false) (hε : 0 < I.ε) (hne : Nonempty (Idx gs))
    (hX : ExtNN I.E.ext) (hl : ∀ a, 0 ≤ I.E.lattice a) (hpr : PriorNN H.S.prior) (hL : ∀ L ∈ I.liks, ∀ x, 0 ≤ L x) :
    ∃ (As : List (FitState K gs)) (W D : List K), Singles I H g.rows As ∧ R.hpd = some D ∧ D.map (· * g.hgc.prod) = W ∧
      ∃ P : ℕ → Idx gs → K, R.S.posts = (List.range I.liks.length).map (fun t => .val (P t)) ∧
        ∀ t < I.liks.length, ∀ x, |P t x - mixture As W fun A => postOf A t x| ≤ (Fintype.card (Idx gs) : K) * I.ε := by
  have hcell : 0 ≤ I.E.cell := Finset.prod_nonneg fun a _ => hl a
  obtain ⟨As, W, D, c1, c2, c3, c4, c5, c6, c7, P, p1, p2⟩ :=
    C30_partial I nJobs H R g ps hb hsp hn hcell hg hps hr hnn h hpos heo hε hne
  refine ⟨As, W, D, c1, c2, c3, P, p1, fun t ht x => ?_⟩
  obtain ⟨q1, q2, -⟩ := p2 t ht
  rw [q2 x]
  have hdist : ∀ (k : ℕ) A w, As[k]? = some A → W[k]? = some w → w ≠ 0 → (∀ y, 0 ≤ postOf A t y) ∧ ∑ y, postOf A t y = 1 := by
    intro k A w hA hw h0
    obtain ⟨row, -, hsf⟩ := Singles.mem c1 (List.mem_of_getElem? hA)
    have hA0 := c7 k A w hA hw h0
    unfold singleFit at hsf
    rw [heo] at hsf
    obtain ⟨l1, -⟩ := C07_normalised _ _ _ _ _ _ _ _ hsf hA0
    obtain ⟨l2, -⟩ := C07_distribution _ _ _ _ _ _ _ _ hX hl hpr hL hsf hA0
    have ht' : t < A.posts.length := by omega
    obtain ⟨p, hp, hp1, hp2⟩ := l2 _ (List.getElem_mem ht')
    have : postOf A t = p := by
      unfold postOf
      rw [List.getElem?_eq_getElem ht', hp]
    rw [this]
    exact ⟨hp1, hp2⟩
  exact floor_error c4 c5 c6 hε t hdist x

end Props
