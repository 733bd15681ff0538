import Verif.Spec.Breaks
import Verif.Props.C112
import Verif.Props.C115
import Verif.Props.C01

/-! # C117: studies with structural breaks -/

set_option linter.unusedSectionVars false

namespace Props
open BL Spec

variable {K : Type} [Field K] [LinearOrder K] [IsStrictOrderedRing K] {d : ℕ} {gs : Fin d → ℕ}

section walk
variable {E : Env K gs}

mutual
theorem walk_withValues (g : String → HVal K → HVal K) : ∀ tm : TM K, WalkModel E tm → WalkModel E (withValues g tm)
  | .leaf k names vs pr, h => by
      cases k <;> simp [WalkModel] at h <;> simp [WalkModel, withValues, h]
  | .combined ms, h => walkAll_withValues g ms h
  | .serial names vs pr mask ms, h => by
      rw [WalkModel] at h
      obtain ⟨a, b, c, e⟩ := h
      rw [withValues, WalkModel]
      exact ⟨by simp [a], b, by rw [walkAll_length, c], walkAll_withValues g ms e⟩
theorem walkAll_withValues (g : String → HVal K → HVal K) : ∀ ms : List (TM K), WalkModelAll E ms → WalkModelAll E (withValuesAll g ms)
  | [], _ => trivial
  | m :: ms, h => ⟨walk_withValues g m h.1, walkAll_withValues g ms h.2⟩
theorem walkAll_length (g : String → HVal K → HVal K) : ∀ ms : List (TM K), (withValuesAll g ms).length = ms.length
  | [] => rfl
  | m :: ms => by rw [withValuesAll, List.length_cons, List.length_cons, walkAll_length g ms]
end

mutual
theorem linear_walk : ∀ tm : TM K, WalkModel E tm → (∀ e ∈ entries tm, ∃ c, e.2 = .scalar c) → Linear E tm ∧ ResetFree tm
  | .leaf k names vs pr, h, he => by
      cases k with
      | static => exact ⟨trivial, trivial⟩
      | grw target =>
          obtain ⟨h0, h1, h2⟩ := h
          obtain ⟨n, rfl⟩ := List.length_eq_one_iff.1 h1
          obtain ⟨v, rfl⟩ := List.length_eq_one_iff.1 h2
          obtain ⟨c, hc⟩ := he (n, v) (by simp [entries])
          simp only at hc
          subst hc
          exact ⟨⟨h0, c, rfl⟩, trivial⟩
      | _ => exact absurd h (by simp [WalkModel])
  | .combined ms, h, he => linearAll_walk ms h he
  | .serial names vs pr mask ms, h, he => by
      rw [WalkModel] at h
      obtain ⟨a, b, c, e⟩ := h
      rw [entries] at he
      have hs : ∀ v ∈ vs, ∃ c, v = .scalar c := by
        intro v hv
        rw [← List.map_snd_zip (l₁ := names) (l₂ := vs) (by omega)] at hv
        obtain ⟨q, hq, rfl⟩ := List.mem_map.1 hv
        exact he q (List.mem_append_right _ hq)
      obtain ⟨l1, l2⟩ := linearAll_walk ms e fun e h => he e (List.mem_append_left _ h)
      exact ⟨⟨hs, by omega, l1⟩, b, l2⟩
theorem linearAll_walk : ∀ ms : List (TM K), WalkModelAll E ms → (∀ e ∈ entriesAll ms, ∃ c, e.2 = .scalar c) → LinearAll E ms ∧ ResetFreeAll ms
  | [], _, _ => ⟨trivial, trivial⟩
  | m :: ms, h, he => by
      rw [entriesAll] at he
      obtain ⟨a, b⟩ := linear_walk m h.1 fun e h => he e (List.mem_append_left _ h)
      obtain ⟨c, d⟩ := linearAll_walk ms h.2 fun e h => he e (List.mem_append_right _ h)
      exact ⟨⟨a, c⟩, b, d⟩
end

theorem modelAt_walk {tm : TM K} (h : WalkModel E tm) (hnd : ((entries tm).map (·.1)).Nodup) {row : List K} (hl : row.length = (entries tm).length) :
    Linear E (modelAt tm row) ∧ ResetFree (modelAt tm row) := by
  have h1 := walk_withValues (assigned ((entries tm).map (·.1)) (row.map .scalar)) tm h
  have he := entries_modelAt hnd hl
  refine linear_walk _ h1 ?_
  intro e hm
  have hm : e ∈ entries (modelAt tm row) := hm
  rw [he] at hm
  obtain ⟨c, -, hc⟩ := List.mem_map.1 (List.of_mem_zip (show (e.1, e.2) ∈ _ from hm)).2
  exact ⟨c, hc.symm⟩

end walk

section study

theorem singles_map {I : FitIn K gs} {H : HState K gs} {R : List (List K)} {As : List (FitState K gs)} (c8 : Singles I H R As) (g1 : FitState K gs → K) (g2 : List K → K) :
    (∀ r ∈ R, ∀ A, singleFit I H.tm H.S r = .ok A → g1 A = g2 r) → As.map g1 = R.map g2 := by
  induction c8 with
  | nil => intro _; rfl
  | cons h1 _ ih =>
      intro hall
      rw [List.map_cons, List.map_cons, hall _ (by simp) _ h1, ih fun r hr => hall r (by simp [hr])]

/-- a change-point study whose single fits report the probabilities `ev` and (if asked for) the distributions `post` -/
theorem cp_exact (I : FitIn K gs) (nJobs : ℕ) (H : HState K gs) (C : CState K gs) (g : HyperGrid K) (ps : List K) (hb : Built H.tm)
    (hsp : " " ∉ (entries H.tm).map (·.1)) (hE : Regular I.E) (hn : H.S.prior.isArray = false)
    (hg : createHyperGrid H.tm I.ts = .ok g) (hps : g.priors = some ps) (hnn : ∀ p ∈ ps, 0 ≤ p)
    (hr : 1 < (g.rows.filter fun r => decide (InOrder H.tm r)).length)
    (h : cpFit I nJobs H = .ok (some C)) (hpos : C.R.S.logEv ≠ LogV.ninf) (ev : List K → K)
    (hev : ∀ r ∈ g.rows, InOrder H.tm r → ∀ A, singleFit I H.tm H.S r = .ok A → A.logEv.exp = ev r) :
    (∃ D, C.R.hpd = some D ∧ D.length = g.rows.length ∧ D.map (· * g.hgc.prod) = (g.rows.zip ps).map fun q =>
      if InOrder H.tm q.1 then q.2 * ev q.1 / overInOrder H.tm g.rows ps ev else 0) ∧
    C.R.S.logEv.exp = (ps.sum * g.hgc.prod) * overInOrder H.tm g.rows ps ev /
      (((g.rows.zip ps).filter fun q => decide (InOrder H.tm q.1)).map (·.2)).sum ∧
    (I.evidenceOnly = false → 0 < I.ε → ∀ (N : ℕ) (hN : I.liks.length = N) (post : List K → Fin N → Idx gs → K),
      (∀ r ∈ g.rows, InOrder H.tm r → ∀ A, singleFit I H.tm H.S r = .ok A → ev r ≠ 0 → ∀ i : Fin N, (∀ x, 0 ≤ post r i x) ∧ ∑ x, post r i x = 1 ∧ ∀ x, postOf A i x = post r i x) →
      ∃ P : Fin N → Idx gs → K, C.R.S.posts = List.ofFn (fun i => .val (P i)) ∧
      (∀ a, C.R.S.means a = List.ofFn fun i => ∑ x, P i x * I.grid a (x a)) ∧ ∀ i, ∑ x, P i x = 1 ∧ ∀ x,
        |P i x - overInOrder H.tm g.rows ps (fun r => ev r * post r i x) / overInOrder H.tm g.rows ps ev| ≤ (Fintype.card (Idx gs) : K) * I.ε) := by
  have := hE.nonempty
  have hpr := (Built.matched hb).proper
  obtain ⟨As, qs, hpd, c1, c2, c3, c4, c5, c6, c7, c8, c9, c10, c11, c12, c13, -, c15⟩ := cpFit_full I nJobs H C g ps hb hsp hn hg hps hr h
  set f : List K → Bool := fun r => decide (InOrder H.tm r) with hf
  set sel := (g.rows.zip ps).filter fun q => f q.1 with hsel
  have hsz : sel = (g.rows.filter f).zip (select (g.rows.map f) ps) := select_zip f g.rows ps c6
  have hsl := select_length f g.rows ps c6
  have hcell : 0 < I.E.cell := Finset.prod_pos fun a _ => hE.lattice_pos a
  have hAs := singles_map c8 (fun A => A.logEv.exp) ev fun r hr A hA => hev r (List.mem_filter.1 hr).1 (by simpa [hf] using (List.mem_filter.1 hr).2) A hA
  set c := ps.sum / (select (g.rows.map f) ps).sum with hc
  have hss : (sel.map (·.2)) = select (g.rows.map f) ps := by rw [hsz, List.map_snd_zip (by rw [hsl])]
  set Tot := overInOrder H.tm g.rows ps ev with hTot
  have hT : C.R.S.logEv.exp = (c * g.hgc.prod) * Tot := by
    rw [c13, hyperEvidence_eq, joint_eq, c4]
    rw [zip_values (fun a b => a * b * g.hgc.prod) (fun A : FitState K gs => A.logEv.exp) ev (· * c) As (g.rows.filter f) _ hAs, ← hsz]
    rw [hTot]
    unfold overInOrder
    rw [← List.sum_map_mul_left]
    congr 1
    refine List.map_congr_left fun q _ => ?_
    ring
  have hT0 : C.R.S.logEv.exp ≠ 0 := fun h0 => hpos (LogV.ext_exp h0)
  have hev0 : ∀ A ∈ As, 0 ≤ A.logEv.exp := by
    intro A hA
    obtain ⟨row, -, hs⟩ := Singles.mem c8 hA
    exact fit_ev_nonneg hcell.le hs
  have hsn : ∀ p ∈ select (g.rows.map f) ps, 0 ≤ p := by
    intro p hp
    rw [← hss] at hp
    obtain ⟨q, hq, rfl⟩ := List.mem_map.1 hp
    exact hnn _ (List.of_mem_zip (List.mem_filter.1 hq).1).2
  have hqn : ∀ p ∈ qs, 0 ≤ p := by
    intro p hp
    rw [c4] at hp
    obtain ⟨q, hq, rfl⟩ := List.mem_map.1 hp
    exact mul_nonneg (hsn q hq) (div_nonneg (List.sum_nonneg hnn) (List.sum_nonneg hsn))
  have hcc := hgc_nonneg hpr hg
  obtain ⟨D, d1, d2, d3, d4⟩ := dist_spec c9 hev0 hqn hcc (T := C.R.S.logEv.exp) (by rw [c13, hyperEvidence_eq]) hT0
  have hX : c * g.hgc.prod ≠ 0 := by
    rw [hT] at hT0
    exact left_ne_zero_of_mul hT0
  refine ⟨?_, ?_, ?_⟩
  · refine ⟨scatter (g.rows.map f) D, by rw [c12, c11, d1]; rfl, by rw [scatter_length, List.length_map], ?_⟩
    rw [scatter_map, d3, c4, zip_values (fun a b => a * (b * g.hgc.prod) / C.R.S.logEv.exp) (fun A : FitState K gs => A.logEv.exp) ev (· * c)
      As (g.rows.filter f) _ hAs, ← hsz]
    rw [hsel, scatter_filter f _ g.rows ps c6]
    refine List.map_congr_left fun q _ => ?_
    simp only [hf, decide_eq_true_eq]
    split
    · rw [hT]
      rw [show ev q.1 * (q.2 * c * g.hgc.prod) = (c * g.hgc.prod) * (q.2 * ev q.1) by ring, mul_div_mul_left _ _ hX]
    · rfl
  · rw [hT, hss, hc]
    ring
  · intro heo hε N hN post hpost
    subst hN
    set T := C.R.S.logEv.exp with hTdef
    set W := D.map (· * g.hgc.prod) with hW
    have hTpos : 0 < T := by
      refine lt_of_le_of_ne ?_ hT0.symm
      rw [hTdef, c13, hyperEvidence_eq, joint_eq]
      apply List.sum_nonneg
      intro w hw
      obtain ⟨q, hq, rfl⟩ := List.mem_map.1 hw
      exact mul_nonneg (mul_nonneg (hev0 _ (List.of_mem_zip hq).1) (hqn _ (List.of_mem_zip hq).2)) hcc
    have hc0 : 0 < g.hgc.prod := lt_of_le_of_ne hcc (right_ne_zero_of_mul hX).symm
    have hWlen : W.length = As.length := by rw [hW, List.length_map, d2]
    have hW0 : ∀ w ∈ W, 0 ≤ w := by
      intro w hw
      rw [d3] at hw
      obtain ⟨q, hq, rfl⟩ := List.mem_map.1 hw
      exact div_nonneg (mul_nonneg (hev0 _ (List.of_mem_zip hq).1) (mul_nonneg (hqn _ (List.of_mem_zip hq).2) hcc)) hTpos.le
    have havg := fun t x => average_spec (gs := gs) hε d3 hWlen d4 hW0 (div_pos hTpos hc0) t x
    obtain ⟨p1, p2⟩ := c15 heo
    rw [finishAvg_rep _ _ fun t x _ => by rw [(havg t x).1]; exact mul_pos (div_pos hTpos hc0) (havg t x).2] at p1
    have hP : ∀ t x, (List.zipWith (contrib I.ε) As qs).sum t x / ∑ y, (List.zipWith (contrib I.ε) As qs).sum t y =
        Spec.mixture As W (fun A => max I.ε (postOf A t x)) / ∑ y, Spec.mixture As W (fun A => max I.ε (postOf A t y)) := by
      intro t x
      have e : ∑ y, (List.zipWith (contrib I.ε) As qs).sum t y = T / g.hgc.prod * ∑ y, Spec.mixture As W (fun A => max I.ε (postOf A t y)) := by
        rw [Finset.mul_sum]
        exact Finset.sum_congr rfl fun y _ => (havg t y).1
      rw [(havg t x).1, e, mul_div_mul_left _ _ (div_pos hTpos hc0).ne']
    have hofFn : ∀ {β : Type} (F : ℕ → β), (List.range I.liks.length).map F = List.ofFn fun i : Fin I.liks.length => F i := by
      intro β F
      refine List.ext_getElem (by simp) fun k h1 h2 => ?_
      rw [List.getElem_map, List.getElem_range, List.getElem_ofFn]
    refine ⟨fun i x => Spec.mixture As W (fun A => max I.ε (postOf A i x)) / ∑ y, Spec.mixture As W (fun A => max I.ε (postOf A i y)), ?_, ?_, ?_⟩
    · rw [p1, hofFn]
      congr 1
      funext i
      congr 1
      funext x
      exact hP i x
    · intro a
      rw [p2, p1]
      beta_reduce
      rw [List.filterMap_map]
      have e : ((fun c : Cell (Idx gs → K) => c.get?.map (mean I.grid a)) ∘ fun t => Cell.val fun x =>
          (List.zipWith (contrib I.ε) As qs).sum t x / ∑ y, (List.zipWith (contrib I.ε) As qs).sum t y) =
          some ∘ fun t => ∑ x, Spec.mixture As W (fun A => max I.ε (postOf A t x)) / (∑ y, Spec.mixture As W (fun A => max I.ε (postOf A t y))) * I.grid a (x a) := by
        funext t
        simp only [Function.comp, Cell.get?, Option.map_some, mean, hP]
      rw [e, List.filterMap_eq_map, hofFn]
    · intro i
      constructor
      · rw [← Finset.sum_div, div_self]
        exact (Finset.sum_pos (fun y _ => (havg i y).2) Finset.univ_nonempty).ne'
      · intro x
        have hmix : overInOrder H.tm g.rows ps (fun r => ev r * post r i x) / Tot = Spec.mixture As W fun A => postOf A i x := by
          have hl2 := singles_map c8 (fun A => A.logEv.exp * postOf A i x) (fun r => ev r * post r i x) fun r hr A hA => by
            have ho : InOrder H.tm r := by simpa [hf] using (List.mem_filter.1 hr).2
            have e1 := hev r (List.mem_filter.1 hr).1 ho A hA
            by_cases h0 : ev r = 0
            · rw [e1, h0, zero_mul, zero_mul]
            · rw [((hpost r (List.mem_filter.1 hr).1 ho A hA h0 i).2.2 x), e1]
          unfold Spec.mixture
          rw [d3, zip_map_zip, List.map_map, c4]
          have e := zip_values (fun a b => a * (b * g.hgc.prod) / T) (fun A : FitState K gs => A.logEv.exp * postOf A i x)
            (fun r => ev r * post r i x) (· * c) As (g.rows.filter f) (select (g.rows.map f) ps) hl2
          rw [← hsz] at e
          have e' : ((As.zip ((select (g.rows.map f) ps).map (· * c))).map
              ((fun q : FitState K gs × K => q.2 * postOf q.1 i x) ∘ fun q => (q.1, q.1.logEv.exp * (q.2 * g.hgc.prod) / T))) =
              sel.map fun q => ((c * g.hgc.prod) / T) * (q.2 * (ev q.1 * post q.1 i x)) := by
            rw [show (fun q : List K × K => ((c * g.hgc.prod) / T) * (q.2 * (ev q.1 * post q.1 i x))) =
              fun q : List K × K => ev q.1 * post q.1 i x * (q.2 * c * g.hgc.prod) / T by funext q; ring]
            rw [← e]
            refine List.map_congr_left fun q _ => ?_
            simp only [Function.comp]
            ring
          rw [e', List.sum_map_mul_left, hT]
          change _ = (c * g.hgc.prod) / ((c * g.hgc.prod) * Tot) * overInOrder H.tm g.rows ps (fun r => ev r * post r i x)
          rw [div_mul_eq_mul_div, mul_div_mul_left _ _ hX]
        rw [hmix]
        refine floor_error hWlen d4 hW0 hε i ?_ x
        intro k A w hA hw h0
        have hA0 : A.logEv.exp ≠ 0 := by
          intro hz
          apply h0
          rw [d3, List.getElem?_map] at hw
          obtain ⟨q, hq, rfl⟩ := Option.map_eq_some_iff.1 hw
          obtain ⟨h1, -⟩ := List.getElem?_zip_eq_some.1 hq
          rw [hA] at h1
          cases h1
          rw [hz, zero_mul, zero_div]
        obtain ⟨row, hrm, hs⟩ := Singles.mem c8 (List.mem_of_getElem? hA)
        have ho : InOrder H.tm row := by simpa [hf] using (List.mem_filter.1 hrm).2
        have hrm := (List.mem_filter.1 hrm).1
        rw [hev row hrm ho A hs] at hA0
        obtain ⟨q1, q2, q3⟩ := hpost row hrm ho A hs hA0 i
        exact ⟨fun y => by rw [q3]; exact q1 y, by simp only [q3]; exact q2⟩

/-- Modes in which the evidence of a fit without resets is exact (C01). -/
def WalkMode (I : FitIn K gs) {n : ℕ} (τ : Fin (n + 1) → K) : Prop :=
  I.evidenceOnly = true ∨ I.forwardOnly = true ∨ ∀ i : Fin n, τ i.succ = τ i.castSucc + 1

theorem walk_evidence (I : FitIn K gs) (H : HState K gs) (hE : Regular I.E) (htm : WalkModel I.E H.tm) (hnd : ((entries H.tm).map (·.1)).Nodup)
    (π : Idx gs → K) (hp : PriorMass I.E.cell H.S.prior π) {n : ℕ} (τ : Fin (n + 1) → K) (hts : I.ts = List.ofFn τ)
    (L : Fin (n + 1) → Idx gs → K) (hls : I.liks = List.ofFn L) (hL0 : ∀ i x, 0 ≤ L i x) (hmode : WalkMode I τ) {r : List K} (hl : r.length = (entries H.tm).length)
    {A : FitState K gs} (h : singleFit I H.tm H.S r = .ok A) : A.logEv.exp = rowEvidence I.E π H.tm τ L r := by
  obtain ⟨w1, w2⟩ := modelAt_walk htm hnd hl
  obtain ⟨S', f1, f2⟩ := C01_evidence_is_path_sum I.E I.grid _ hE w1 w2 H.S π hp L hL0 τ I.forwardOnly I.evidenceOnly hmode
  unfold singleFit at h
  rw [hls, hts, f1] at h
  cases h
  exact f2

theorem posterior_dist (E : Env K gs) (hG : GaussOK E.ext) {tm : TM K} (π : Idx gs → K) (hπ : ∀ x, 0 ≤ π x) {n : ℕ} (τ : Fin (n + 1) → K) (L : Fin (n + 1) → Idx gs → K) (hL0 : ∀ i x, 0 ≤ L i x)
    (h0 : evidence π (fun i : Fin n => kernel E π tm (τ i.castSucc)) L ≠ 0) (i : Fin (n + 1)) :
    (∀ x, 0 ≤ posterior π (fun i : Fin n => kernel E π tm (τ i.castSucc)) L i x) ∧ ∑ x, posterior π (fun i : Fin n => kernel E π tm (τ i.castSucc)) L i x = 1 := by
  have hk := kernel_nonneg (ρ := π) hG tm (.inr hπ)
  constructor
  · intro x
    exact div_nonneg (Finset.sum_nonneg fun z _ => pathWeight_nonneg hπ (fun i => hk _) hL0 z) (evidence_nonneg hπ (fun i => hk _) hL0)
  · unfold posterior
    rw [← Finset.sum_div, ← evidence_eq_sum_marginal, div_self h0]

/-- **C117 (what is proved).** Consider a change-point study whose transition model never draws the parameters afresh (`WalkModel`): Static models and Gaussian random walks, combined and in series, separated by structural
breaks; further hyper-parameters such as the standard deviations of the random walks may be uncertain as well.  Let more than one combination of hyper-parameter values be in order, let the prior of the parameters be anything but an array, with
probabilities `π`, and let the evidence reported be non-zero.  Then the distribution stored by `fit` gives every combination in order the posterior probability of Bayes' theorem: prior probability times the probability of the data (a sum over all parameter paths)
divided by the sum of these products; combinations not in order get zero.  The evidence reported is the average of the probability of the data over the combinations in order, times `ps.sum * g.hgc.prod` (which is one if
the prior of the hyper-parameters is normalised, C27).  Not covered: priors given as array (shared between the fits, C32), full fits with time stamps not one unit apart (C08). -/
theorem C117_partial (I : FitIn K gs) (nJobs : ℕ) (H : HState K gs) (C : CState K gs) (g : HyperGrid K) (ps : List K) (hb : Built H.tm)
    (hsp : " " ∉ (entries H.tm).map (·.1)) (htm : WalkModel I.E H.tm) (hE : Regular I.E)
    (π : Idx gs → K) (hp : PriorMass I.E.cell H.S.prior π) (hn : H.S.prior.isArray = false)
    {n : ℕ} (τ : Fin (n + 1) → K) (hts : I.ts = List.ofFn τ)
    (L : Fin (n + 1) → Idx gs → K) (hls : I.liks = List.ofFn L) (hL0 : ∀ i x, 0 ≤ L i x) (hmode : WalkMode I τ)
    (hg : createHyperGrid H.tm I.ts = .ok g) (hps : g.priors = some ps) (hnn : ∀ p ∈ ps, 0 ≤ p)
    (hr : 1 < (g.rows.filter fun r => decide (InOrder H.tm r)).length)
    (h : cpFit I nJobs H = .ok (some C)) (hpos : C.R.S.logEv ≠ LogV.ninf) :
    (∃ D, C.R.hpd = some D ∧ D.length = g.rows.length ∧ D.map (· * g.hgc.prod) = (g.rows.zip ps).map fun q =>
      if InOrder H.tm q.1 then q.2 * rowEvidence I.E π H.tm τ L q.1 / overInOrder H.tm g.rows ps (rowEvidence I.E π H.tm τ L) else 0) ∧
    C.R.S.logEv.exp = (ps.sum * g.hgc.prod) * overInOrder H.tm g.rows ps (rowEvidence I.E π H.tm τ L) /
      (((g.rows.zip ps).filter fun q => decide (InOrder H.tm q.1)).map (·.2)).sum := by
  have hpr := (Built.matched hb).proper
  have hnd := cpFit_nodup hpr hg h
  have hlen := rows_length hpr hg
  obtain ⟨h1, h2, -⟩ := cp_exact I nJobs H C g ps hb hsp hE hn hg hps hnn hr h hpos (rowEvidence I.E π H.tm τ L)
    fun r hr _ A hA => walk_evidence I H hE htm hnd π hp τ hts L hls hL0 hmode (hlen r hr) hA
  exact ⟨h1, h2⟩

/-- **C117, parameter estimates.** In the same setting, after a full fit with time stamps one unit apart, the posterior distribution stored for every time step sums to one and differs by at most `ε` (the code's `10^-300`) times the number of
grid points from the exact one, which averages the posterior distributions for given hyper-parameter values with the posterior probabilities of the combinations in order; the reported mean values are the means of the stored distributions. -/
theorem C117_average_partial (I : FitIn K gs) (nJobs : ℕ) (H : HState K gs) (C : CState K gs) (g : HyperGrid K) (ps : List K) (hb : Built H.tm)
    (hsp : " " ∉ (entries H.tm).map (·.1)) (htm : WalkModel I.E H.tm) (hE : Regular I.E)
    (π : Idx gs → K) (hp : PriorMass I.E.cell H.S.prior π) (hn : H.S.prior.isArray = false)
    {n : ℕ} (τ : Fin (n + 1) → K) (hU : ∀ i : Fin n, τ i.succ = τ i.castSucc + 1) (hts : I.ts = List.ofFn τ)
    (L : Fin (n + 1) → Idx gs → K) (hls : I.liks = List.ofFn L) (hL0 : ∀ i x, 0 ≤ L i x)
    (hfo : I.forwardOnly = false) (heo : I.evidenceOnly = false) (hε : 0 < I.ε)
    (hg : createHyperGrid H.tm I.ts = .ok g) (hps : g.priors = some ps) (hnn : ∀ p ∈ ps, 0 ≤ p)
    (hr : 1 < (g.rows.filter fun r => decide (InOrder H.tm r)).length)
    (h : cpFit I nJobs H = .ok (some C)) (hpos : C.R.S.logEv ≠ LogV.ninf) :
    ∃ P : Fin (n + 1) → Idx gs → K, C.R.S.posts = List.ofFn (fun i => .val (P i)) ∧
      (∀ a, C.R.S.means a = List.ofFn fun i => ∑ x, P i x * I.grid a (x a)) ∧ ∀ i, ∑ x, P i x = 1 ∧ ∀ x,
        |P i x - overInOrder H.tm g.rows ps (fun r => rowEvidence I.E π H.tm τ L r * rowPosterior I.E π H.tm τ L r i x) /
          overInOrder H.tm g.rows ps (rowEvidence I.E π H.tm τ L)| ≤ (Fintype.card (Idx gs) : K) * I.ε := by
  have := hE.nonempty
  have hpr := (Built.matched hb).proper
  have hnd := cpFit_nodup hpr hg h
  have hlen := rows_length hpr hg
  have hπ0 : ∀ x, 0 ≤ π x := priorMass_nonneg (Finset.prod_pos fun a _ => hE.lattice_pos a) hp
  obtain ⟨-, -, h3⟩ := cp_exact I nJobs H C g ps hb hsp hE hn hg hps hnn hr h hpos (rowEvidence I.E π H.tm τ L)
    fun r hr _ A hA => walk_evidence I H hE htm hnd π hp τ hts L hls hL0 (.inr (.inr hU)) (hlen r hr) hA
  refine h3 heo hε (n + 1) (by rw [hls, List.length_ofFn]) (rowPosterior I.E π H.tm τ L) ?_
  intro r hr _ A hA h0 i
  obtain ⟨w1, w2⟩ := modelAt_walk htm hnd (hlen r hr)
  obtain ⟨q1, q2⟩ := posterior_dist I.E hE.gauss π hπ0 τ L hL0 h0 i
  refine ⟨q1, q2, fun x => ?_⟩
  obtain ⟨S', f1, f2⟩ := C04_smoothing I.E I.grid _ hE w1 H.S π hp (.inl w2) L hL0 τ hU h0
  unfold singleFit at hA
  rw [hls, hts, hfo, heo, f1] at hA
  cases hA
  unfold postOf
  rw [f2, List.getElem?_ofFn, dif_pos i.2]
  rfl

theorem sum_pick_order (tm : TM K) (P : List K → Prop) [DecidablePred P] (f : List K → K) (Z : K) : ∀ l : List (List K × K),
    ((l.map fun q => (q.1, if InOrder tm q.1 then q.2 * f q.1 / Z else 0)).filter (fun q => decide (P q.1)) |>.map (·.2)).sum =
      ((l.filter fun q => decide (InOrder tm q.1)).map fun q => q.2 * (if P q.1 then f q.1 else 0)).sum / Z
  | [] => by simp
  | q :: l => by
      have ih := sum_pick_order tm P f Z l
      rw [List.map_cons, List.filter_cons, List.filter_cons]
      by_cases h1 : P q.1 <;> by_cases h2 : InOrder tm q.1 <;> simp [h1, h2, ih, add_div]

theorem pick_total_order (tm : TM K) (rows : List (List K)) (ps D : List K) (c Z : K) (f : List K → K) (hl : ps.length = rows.length)
    (hD : D.map (· * c) = (rows.zip ps).map fun q => if InOrder tm q.1 then q.2 * f q.1 / Z else 0) (P : List K → Prop) [DecidablePred P] :
    (((rows.zip (D.map (· * c))).filter fun q => decide (P q.1)).map (·.2)).sum = overInOrder tm rows ps (fun r => if P r then f r else 0) / Z := by
  rw [hD, zip_self_map _ rows ps hl, sum_pick_order]
  rfl

/-- **C117, one hyper-parameter.** In the setting of `C117_partial`, the query for the distribution of one hyper-parameter (time of a structural break or standard deviation of a random walk) returns its grid values and for every
value its posterior probability: the sum over the combinations in order with this value, divided by the sum over all combinations in order, of prior probability times probability of the data. -/
theorem C117_query_partial (I : FitIn K gs) (nJobs : ℕ) (H : HState K gs) (C : CState K gs) (g : HyperGrid K) (ps : List K) (hb : Built H.tm)
    (hsp : " " ∉ (entries H.tm).map (·.1)) (htm : WalkModel I.E H.tm) (hE : Regular I.E)
    (π : Idx gs → K) (hp : PriorMass I.E.cell H.S.prior π) (hn : H.S.prior.isArray = false)
    {n : ℕ} (τ : Fin (n + 1) → K) (hts : I.ts = List.ofFn τ)
    (L : Fin (n + 1) → Idx gs → K) (hls : I.liks = List.ofFn L) (hL0 : ∀ i x, 0 ≤ L i x) (hmode : WalkMode I τ)
    (hg : createHyperGrid H.tm I.ts = .ok g) (hps : g.priors = some ps) (hnn : ∀ p ∈ ps, 0 ≤ p)
    (hr : 1 < (g.rows.filter fun r => decide (InOrder H.tm r)).length)
    (h : cpFit I nJobs H = .ok (some C)) (hpos : C.R.S.logEv ≠ LogV.ninf) (name : String) (v : HVal K) (a : ℕ)
    (he : (entries H.tm)[a]? = some (name, v)) (hvn : (valuesOf I.ts v).Nodup) :
    ∃ D D' A, C.R.hpd = some D ∧ getHPD C.R.tm C.grid D name = (D', .ok (expandAll I.ts v, A)) ∧
      A.flat = (valuesOf I.ts v).map fun t =>
        overInOrder H.tm g.rows ps (fun r => if r[a]? = some t then rowEvidence I.E π H.tm τ L r else 0) / overInOrder H.tm g.rows ps (rowEvidence I.E π H.tm τ L) := by
  obtain ⟨⟨D, d1, d2, d3⟩, -⟩ := C117_partial I nJobs H C g ps hb hsp htm hE π hp hn τ hts L hls hL0 hmode hg hps hnn hr h hpos
  have hpr := (Built.matched hb).proper
  have hnd := cpFit_nodup hpr hg h
  obtain ⟨As, qs, hpd, c1, c2, c3, c4, c5, c6, c7, c8, c9, c10, c11, c12, c13, c14⟩ := cpFit_spec I nJobs H C g ps hb hsp hn hg hps hr h
  obtain ⟨g1, g2, g3⟩ := cpFit_grid hg h
  have hr2 : 2 ≤ g.rows.length := le_trans hr (List.length_filter_le _ _)
  obtain ⟨D', A, a1, a2, -, -⟩ := C34 H.tm I.ts g D name v a hpr hnd hg hr2 d2 he hvn
  refine ⟨D, D', A, d1, ?_, ?_⟩
  · rw [← a1]
    unfold getHPD TM.hyperIndex marginalise
    have x1 : ¬ (g.rows.filter fun r => decide (InOrder H.tm r)).length < 2 := by omega
    have x2 : ¬ g.rows.length < 2 := by omega
    rw [g1, g2, g3, c14, c2, if_neg x1, if_neg x2]
  · rw [a2]
    refine List.map_congr_left fun t _ => ?_
    rw [← pick_total_order H.tm g.rows ps D g.hgc.prod _ (rowEvidence I.E π H.tm τ L) c6 d3 (fun r => r[a]? = some t), probOf, List.zip_map_right, List.filter_map, List.map_map]
    rfl

/-- **C117, durations.** In the setting of `C117_partial`, the query for the distribution of the time between two structural breaks returns all distances that occur in a combination in order, in increasing order, and for every distance
its posterior probability.  With three and more structural breaks the query may raise an exception instead (`C39_refuted`). -/
theorem C117_duration_partial (I : FitIn K gs) (nJobs : ℕ) (H : HState K gs) (C : CState K gs) (g : HyperGrid K) (ps : List K) (hb : Built H.tm)
    (hsp : " " ∉ (entries H.tm).map (·.1)) (htm : WalkModel I.E H.tm) (hE : Regular I.E)
    (π : Idx gs → K) (hp : PriorMass I.E.cell H.S.prior π) (hn : H.S.prior.isArray = false)
    {n : ℕ} (τ : Fin (n + 1) → K) (hts : I.ts = List.ofFn τ)
    (L : Fin (n + 1) → Idx gs → K) (hls : I.liks = List.ofFn L) (hL0 : ∀ i x, 0 ≤ L i x) (hmode : WalkMode I τ)
    (hg : createHyperGrid H.tm I.ts = .ok g) (hps : g.priors = some ps) (hnn : ∀ p ∈ ps, 0 ≤ p)
    (hr : 1 < (g.rows.filter fun r => decide (InOrder H.tm r)).length)
    (h : cpFit I nJobs H = .ok (some C)) (hpos : C.R.S.logEv ≠ LogV.ninf) (n1 n2 : String) (hn1 : n1 ∈ pointNames H.tm) (hn2 : n2 ∈ pointNames H.tm) (hne : n1 ≠ n2) :
    ∃ D dur pr, C.R.hpd = some D ∧ dur.Pairwise (· < ·) ∧ (∀ δ, δ ∈ dur ↔ ∃ row ∈ g.rows, InOrder H.tm row ∧ distance H.tm n1 n2 row = δ) ∧
      pr = dur.map (fun δ => overInOrder H.tm g.rows ps (fun r => if distance H.tm n1 n2 r = δ then rowEvidence I.E π H.tm τ L r else 0) /
        overInOrder H.tm g.rows ps (rowEvidence I.E π H.tm τ L)) ∧
      (getDD C D [n1, n2] = .ok (dur, some pr) ∨ getDD C D [n1, n2] = .error .indexError) ∧
      ((∀ n ∈ pointNames H.tm, n = n1 ∨ n = n2) → getDD C D [n1, n2] = .ok (dur, some pr)) := by
  obtain ⟨⟨D, d1, d2, d3⟩, -⟩ := C117_partial I nJobs H C g ps hb hsp htm hE π hp hn τ hts L hls hL0 hmode hg hps hnn hr h hpos
  obtain ⟨As, qs, hpd, c1, c2, c3, c4, c5, c6, -⟩ := cpFit_spec I nJobs H C g ps hb hsp hn hg hps hr h
  obtain ⟨D0, dur, pr, e1, e2, e3, e4, e5, e6, e7⟩ := C39_partial I nJobs H C g ps hb hsp hn (Finset.prod_pos fun a _ => hE.lattice_pos a).le hg hps hnn hr h hpos n1 n2 hn1 hn2 hne
  rw [d1] at e1
  cases e1
  refine ⟨D, dur, pr, d1, e2, e3, ?_, e6, e7⟩
  rw [e4]
  refine List.map_congr_left fun δ _ => ?_
  exact pick_total_order H.tm g.rows ps D g.hgc.prod _ (rowEvidence I.E π H.tm τ L) c6 d3 (fun r => distance H.tm n1 n2 r = δ)

theorem kernelNth_get (E : Env K gs) (ρ : Idx gs → K) (g : String → HVal K → HVal K) : ∀ (ms : List (TM K)) (k : ℕ) (t : K) (m : TM K), ms[k]? = some m →
    kernelNth E ρ (withValuesAll g ms) k t = kernel E ρ (withValues g m) t
  | [], k, t, m, h => by simp at h
  | a :: ms, 0, t, m, h => by
      cases h
      rfl
  | a :: ms, k + 1, t, m, h => by
      rw [withValuesAll, kernelNth]
      exact kernelNth_get E ρ g ms k t m (by simpa using h)

theorem comp_stay (A : Idx gs → Idx gs → K) : comp A stay = A := by
  funext x z
  unfold comp stay
  simp

theorem entriesAll_withValues_length (g : String → HVal K → HVal K) (ms : List (TM K)) : (entriesAll (withValuesAll g ms)).length = (entriesAll ms).length := by
  have := entries_withValues g (.combined ms)
  rw [withValues, entries, entries] at this
  rw [this, List.length_map]

/-- **C117, meaning of the model.** In a serial model whose sub-models contain no breaks themselves, for the combination `r` of hyper-parameter values the transition at time `t` is that of the sub-model whose number is the number
of structural breaks that lie at or before `t`, with its hyper-parameters as given by `r`. -/
theorem C117_segments (E : Env K gs) (π : Idx gs → K) (names : List String) (vs : List (HVal K)) (pr : List (Nest (HPrior K))) (mask : List Bool) (ms : List (TM K))
    (htm : WalkModel E (.serial names vs pr mask ms)) (hno : pointNamesAll ms = [])
    (hnd : ((entries (.serial names vs pr mask ms)).map (·.1)).Nodup) (r : List K) (hl : r.length = (entries (.serial names vs pr mask ms)).length) (t : K) (m : TM K)
    (hm : ms[((pointsOf (.serial names vs pr mask ms) r).filter (· ≤ t)).length]? = some m) :
    kernel E π (modelAt (.serial names vs pr mask ms) r) t = kernel E π (withValues (assigned ((entries (.serial names vs pr mask ms)).map (·.1)) (r.map .scalar)) m) t := by
  rw [WalkModel] at htm
  obtain ⟨a, b, c, e⟩ := htm
  have he := entries_modelAt hnd hl
  set g := assigned ((entries (.serial names vs pr mask ms)).map (·.1)) (r.map .scalar) with hg
  have hE : modelAt (.serial names vs pr mask ms) r = .serial names (List.zipWith g names vs) pr mask (withValuesAll g ms) := rfl
  have hv : vals (List.zipWith g names vs) = pointsOf (.serial names vs pr mask ms) r := by
    rw [hE, entries] at he
    rw [entries, List.length_append, List.length_zip] at hl
    have hA := entriesAll_withValues_length g ms
    obtain ⟨r1, r2, rfl, hr1⟩ : ∃ r1 r2, r = r1 ++ r2 ∧ r1.length = (entriesAll ms).length :=
      ⟨r.take (entriesAll ms).length, r.drop (entriesAll ms).length, (List.take_append_drop _ _).symm, by rw [List.length_take]; omega⟩
    rw [entries, List.map_append, List.map_append, List.zip_append (by simp [hr1])] at he
    have he2 := (List.append_inj he (by simp [hA, hr1])).2
    rw [List.map_fst_zip (by omega)] at he2
    have hr2 : r2.length = names.length := by rw [List.length_append] at hl; omega
    have hz : List.zipWith g names vs = r2.map .scalar := by
      have := congrArg (List.map (·.2)) he2
      rwa [List.map_snd_zip (by simp [a]), List.map_snd_zip (by simp [hr2])] at this
    rw [hz, vals_scalar]
    unfold pointsOf
    rw [entries, List.map_append, List.zip_append (by simp [hr1]), pointNames, hno, List.nil_append, List.map_fst_zip (by omega), List.filter_append, List.map_append]
    rw [entries, List.map_append, List.map_fst_zip (l₁ := names) (l₂ := vs) (by omega)] at hnd
    rw [List.filter_eq_nil_iff.2, List.filter_eq_self.2, List.map_nil, List.nil_append, List.map_snd_zip (by omega)]
    · intro p hp
      simpa using (List.of_mem_zip hp).1
    · intro p hp
      simp only [decide_eq_true_eq]
      intro hpn
      exact (List.nodup_append.1 hnd).2.2 _ (List.of_mem_zip hp).1 _ hpn rfl
  rw [hE, kernel, if_neg, comp_stay, hv]
  · exact kernelNth_get E π g ms _ t m hm
  · intro hc
    exact b (List.of_mem_zip hc).2

end study

end Props

namespace Ex
open BL Spec

/-- random walk with uncertain standard deviation between two static periods; both structural breaks are uncertain -/
def brkArgs : List (TM ℚ) := [mkStatic, mkBreakPoint "t1" (.list [0, 1]) (.item .none), .leaf (.grw "x") ["s"] [.array [0, 1]] (some (.item .none)),
  mkBreakPoint "t2" (.list [1, 2]) (.item .none), mkStatic]
/-- the model returned by the constructor -/
def brkTM : TM ℚ := .serial ["t1", "t2"] [.array [0, 1], .array [1, 2]] [.item .none, .item .none] [false, false]
  [mkStatic, .leaf (.grw "x") ["s"] [.array [0, 1]] (some (.item .none)), mkStatic]
/-- study with a prior given as function -/
def brkStudy : HState ℚ gs2 := ⟨brkTM, S0 (.func (v2 1 2)), [], none⟩
/-- time stamps one unit apart -/
def brkTimes : Fin 4 → ℚ := ![0, 1, 2, 3]
/-- full fit -/
def brkFull : FitIn ℚ gs2 := ⟨env gs2 2, grid gs2, List.ofFn cpLik, List.ofFn brkTimes, false, false, 1 / 1000⟩
/-- the probabilities of the prior -/
def brkPrior : Idx gs2 → ℚ := fun x => v2 1 2 x / ∑ y, v2 1 2 y

end Ex

namespace Props
open BL Spec

theorem Ex.brk_built : Built Ex.brkTM := by
  refine .serial (args := Ex.brkArgs) ?_ rfl
  intro a ha hn
  simp only [Ex.brkArgs, List.mem_cons, List.not_mem_nil, or_false] at ha
  rcases ha with rfl | rfl | rfl | rfl | rfl
  · exact .static
  · exact absurd ⟨_, _, _, rfl, trivial, rfl⟩ hn
  · exact .grw (name := "s") (value := .list [0, 1]) (target := some "x") (prior := .item .none) rfl trivial rfl
  · exact absurd ⟨_, _, _, rfl, trivial, rfl⟩ hn
  · exact .static

theorem Ex.brk_walk : WalkModel Ex.brkFull.E Ex.brkTM :=
  ⟨rfl, by decide, rfl, trivial, ⟨⟨0, Ex.axis_x _ _⟩, rfl, rfl⟩, trivial, trivial⟩

/-- Concrete case: four data points, two structural breaks and the standard deviation of a random walk uncertain, a prior that is not flat, grid cells of volume 2.  Eight combinations, six of them in order; the study returns, and
all four theorems apply: the standard deviation and the duration of the random walk have the exact posterior probabilities. -/
example : ∃ g ps C D, createHyperGrid Ex.brkTM Ex.brkFull.ts = .ok g ∧ g.priors = some ps ∧ g.rows.length = 8 ∧ (g.rows.filter fun r => decide (InOrder Ex.brkTM r)).length = 6 ∧
    cpFit Ex.brkFull 1 Ex.brkStudy = .ok (some C) ∧ C.R.hpd = some D ∧
    (∃ D' A, getHPD C.R.tm C.grid D "s" = (D', .ok (.array [0, 1], A)) ∧ A.flat = [0, 1].map fun t : ℚ =>
      overInOrder Ex.brkTM g.rows ps (fun r => if r[0]? = some t then rowEvidence Ex.brkFull.E Ex.brkPrior Ex.brkTM Ex.brkTimes Ex.cpLik r else 0) /
        overInOrder Ex.brkTM g.rows ps (rowEvidence Ex.brkFull.E Ex.brkPrior Ex.brkTM Ex.brkTimes Ex.cpLik)) ∧
    (∃ dur pr, getDD C D ["t1", "t2"] = .ok (dur, some pr) ∧ pr = dur.map (fun δ =>
      overInOrder Ex.brkTM g.rows ps (fun r => if distance Ex.brkTM "t1" "t2" r = δ then rowEvidence Ex.brkFull.E Ex.brkPrior Ex.brkTM Ex.brkTimes Ex.cpLik r else 0) /
        overInOrder Ex.brkTM g.rows ps (rowEvidence Ex.brkFull.E Ex.brkPrior Ex.brkTM Ex.brkTimes Ex.cpLik))) ∧
    ∃ P : Fin 4 → Idx Ex.gs2 → ℚ, C.R.S.posts = List.ofFn (fun i => .val (P i)) ∧ ∀ i, ∑ x, P i x = 1 := by
  obtain ⟨C, h1, h2⟩ := Ex.CpOk_iff.1 (show Ex.CpOk (cpFit Ex.brkFull 1 Ex.brkStudy) (fun C => decide (C.R.S.logEv.exp ≠ 0)) = true by decide +kernel)
  have hf : ∀ g, createHyperGrid Ex.brkTM Ex.brkFull.ts = .ok g → g.rows.length = 8 ∧ (g.rows.filter fun r => decide (InOrder Ex.brkTM r)).length = 6 := by
    intro g hg
    cases hg
    decide +kernel
  have hps : ∀ g, createHyperGrid Ex.brkTM Ex.brkFull.ts = .ok g → ∃ ps, g.priors = some ps ∧ ∀ p ∈ ps, 0 ≤ p := by
    intro g hg
    cases hg
    exact ⟨List.replicate 8 (1 / 8), by decide +kernel, by decide +kernel⟩
  obtain ⟨g, hg⟩ : ∃ g, createHyperGrid Ex.brkTM Ex.brkFull.ts = .ok g := ⟨_, rfl⟩
  have hpos : C.R.S.logEv ≠ LogV.ninf := fun h0 => (of_decide_eq_true h2) (by rw [h0]; rfl)
  obtain ⟨ps, hp1, hp2⟩ := hps g hg
  have hE : Regular Ex.brkFull.E := Ex.regular2 (by norm_num)
  have hpm : PriorMass Ex.brkFull.E.cell Ex.brkStudy.S.prior Ex.brkPrior := .func _ (by decide +kernel) (by decide +kernel) (.inl (by decide +kernel))
  have hU : ∀ i : Fin 3, Ex.brkTimes i.succ = Ex.brkTimes i.castSucc + 1 := by decide +kernel
  have hr : 1 < (g.rows.filter fun r => decide (InOrder Ex.brkStudy.tm r)).length := by
    have := (hf g hg).2
    change 1 < (g.rows.filter fun r => decide (InOrder Ex.brkTM r)).length
    omega
  have hL0 : ∀ i x, 0 ≤ Ex.cpLik i x := fun i x => (Ex.cpLik_pos i x).le
  obtain ⟨D, dur, pr, d1, d2, d3, d4, d5, d6⟩ := C117_duration_partial Ex.brkFull 1 Ex.brkStudy C g ps Ex.brk_built (by decide) Ex.brk_walk hE Ex.brkPrior hpm rfl Ex.brkTimes rfl Ex.cpLik rfl hL0
    (.inr (.inr hU)) hg hp1 hp2 hr h1 hpos "t1" "t2" (by decide) (by decide) (by decide)
  obtain ⟨D1, D', A, a1, a2, a3⟩ := C117_query_partial Ex.brkFull 1 Ex.brkStudy C g ps Ex.brk_built (by decide) Ex.brk_walk hE Ex.brkPrior hpm rfl Ex.brkTimes rfl Ex.cpLik rfl hL0
    (.inr (.inr hU)) hg hp1 hp2 hr h1 hpos "s" (.array [0, 1]) 0 rfl (by decide +kernel)
  obtain ⟨P, q1, -, q3⟩ := C117_average_partial Ex.brkFull 1 Ex.brkStudy C g ps Ex.brk_built (by decide) Ex.brk_walk hE Ex.brkPrior hpm rfl Ex.brkTimes hU rfl Ex.cpLik rfl hL0 rfl rfl
    (show (0 : ℚ) < 1 / 1000 by norm_num) hg hp1 hp2 hr h1 hpos
  rw [d1] at a1
  cases a1
  exact ⟨g, ps, C, D, hg, hp1, (hf g hg).1, (hf g hg).2, h1, d1, ⟨D', A, a2, a3⟩, ⟨dur, pr, d6 (by decide), d4⟩, P, q1, fun i => (q3 i).1⟩

/-- Concrete case: in the combination `s = 1, t1 = 0, t2 = 2` the random walk acts at time 1. -/
example : kernel Ex.brkFull.E Ex.brkPrior (modelAt Ex.brkTM [1, 0, 2]) 1 = kernel Ex.brkFull.E Ex.brkPrior (.leaf (.grw "x") ["s"] [.scalar 1] (some (.item .none))) 1 :=
  C117_segments Ex.brkFull.E Ex.brkPrior _ _ _ _ _ Ex.brk_walk rfl (by decide) [1, 0, 2] rfl 1 _ rfl

end Props
