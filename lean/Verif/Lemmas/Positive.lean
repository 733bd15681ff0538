import Verif.Spec.Positive
import Verif.Lemmas.Predictive

/-! # Arrays without zeros stay arrays without zeros -/

set_option linter.unusedSectionVars false

namespace BL
open Spec
variable {K : Type} [Field K] [LinearOrder K] [IsStrictOrderedRing K] {d : ℕ} {gs : Fin d → ℕ}

/-- a valid array without zeros and negative values -/
def Full (p : Arr K gs) : Prop := ∃ q, p = some q ∧ ∀ x, 0 < q x

theorem full_sum [Nonempty (Idx gs)] {v : Idx gs → K} (h : ∀ x, 0 < v x) : 0 < ∑ x, v x := Finset.sum_pos (fun x _ => h x) Finset.univ_nonempty

theorem normalize_full [Nonempty (Idx gs)] {v : Idx gs → K} (h : ∀ x, 0 < v x) : Full (BL.normalize v) :=
  ⟨_, normalize_pos (full_sum h), fun x => div_pos (h x) (full_sum h)⟩

theorem bind_full {p : Arr K gs} {f : (Idx gs → K) → Arr K gs} (hp : Full p) (hf : ∀ q, (∀ x, 0 < q x) → Full (f q)) : Full (p.bind f) := by
  obtain ⟨q, rfl, hq⟩ := hp
  exact hf q hq

theorem convSame_full {ker : (Fin d → ℤ) → K} (h0 : ∀ v, 0 ≤ ker v) (h1 : 0 < ker 0) {p : Idx gs → K} (hp : ∀ x, 0 < p x) : ∀ y, 0 < convSame ker p y := by
  intro y
  unfold convSame
  have := Finset.single_le_sum (f := fun x => p x * ker (fun a => ((y a : ℕ) : ℤ) - ((x a : ℕ) : ℤ))) (fun x _ => mul_nonneg (hp x).le (h0 _)) (Finset.mem_univ y)
  simp only [sub_self] at this
  exact (mul_pos (hp y) h1).trans_le this

theorem filterAxis_full {r : ℕ} {w : ℤ → K} (hw : ∀ k, 0 ≤ w k) (he : ∀ k, w (-k) = w k) (h1 : 0 < ∑ k ∈ Finset.Icc (-(r : ℤ)) r, w k) (a : Fin d) {p : Idx gs → K} (hp : ∀ x, 0 < p x) :
    ∀ x, 0 < filterAxis r w a p x := by
  intro x
  unfold filterAxis
  obtain ⟨k, hk, hk'⟩ := (Finset.sum_pos_iff_of_nonneg fun k _ => hw k).1 h1
  refine Finset.sum_pos' (fun k _ => mul_nonneg (hw _) (hp _).le) ⟨k, hk, mul_pos ?_ (hp _)⟩
  rw [he]; exact hk'

theorem floorAt_full {l : K} {p : Idx gs → K} (hp : ∀ x, 0 < p x) : ∀ x, 0 < floorAt l p x := by
  intro x; unfold floorAt; split
  · rename_i h; exact (hp x).trans h
  · exact hp x

section
variable {E : Env K gs}

theorem resetArr_full [Nonempty (Idx gs)] (h : FullPrior E.prior) : Full E.resetArr := by
  unfold Env.resetArr
  cases hp : E.prior with
  | none => exact normalize_full fun _ => zero_lt_one
  | rvs n ok v => exact normalize_full fun _ => zero_lt_one
  | func v => rw [hp] at h; exact normalize_full h
  | array a =>
      rw [hp] at h
      cases a with
      | none => exact h.elim
      | some v => exact normalize_full h
  | badArray => rw [hp] at h; exact h.elim
  | funcConst c =>
      rw [hp] at h
      simp only [if_neg (ne_of_gt h)]
      exact ⟨_, rfl, fun _ => zero_lt_one⟩

theorem env_cell_pos (hl : ∀ a, 0 < E.lattice a) : 0 < E.cell := Finset.prod_pos fun a _ => hl a

theorem resetCell_full [Nonempty (Idx gs)] (hl : ∀ a, 0 < E.lattice a) (h : FullPrior E.prior) : Full E.resetCell := by
  obtain ⟨q, h1, h2⟩ := resetArr_full h
  exact ⟨_, by rw [Env.resetCell, h1]; rfl, fun x => mul_pos (h2 x) (env_cell_pos hl)⟩

theorem detShift_full [Nonempty (Idx gs)] (hl : ∀ a, 0 < E.lattice a) {a : Fin d} (hsh : ∀ s p, (∀ x, 0 < p x) → ∀ x, 0 < E.ext.shift a s p x) {p : Arr K gs} (hp : Full p) (s : K) :
    ∃ q, detShift E a s p = .ok q ∧ Full q := by
  rw [detShift, if_neg (hl a).ne']
  exact ⟨_, rfl, bind_full hp fun q hq => normalize_full (hsh _ _ hq)⟩

theorem leafFwd_full [Nonempty (Idx gs)] (hl : ∀ a, 0 < E.lattice a) (hX : ProperExt E.ext) (hpr : FullPrior E.prior) (k : Leaf K) (nm : List String) (vs : List (HVal K)) (hp : Option (Nest (HPrior K)))
    (hc : Spreading E (.leaf k nm vs hp)) (toff : K) (p : Arr K gs) (t : K) (hd : Full p) :
    ∃ q, leafFwd E toff k vs p t = .ok q ∧ Full q := by
  cases k with
  | static => exact ⟨p, rfl, hd⟩
  | grw target =>
      obtain ⟨⟨a, ha⟩, σ, rfl⟩ := (by simpa only [Spreading] using hc : (∃ a, E.axis target = .ok a) ∧ ∃ σ, vs = [.scalar σ])
      have e0 : scalarAt [HVal.scalar σ] 0 = .ok σ := rfl
      simp only [leafFwd, grwFwd, e0, ha, bind, Except.bind, (hl a).ne', if_false]
      split
      · rename_i hs
        obtain ⟨q, rfl, hq⟩ := hd
        refine ⟨_, rfl, _, rfl, filterAxis_full (hX.gauss.nonneg _) (hX.gauss.even _) ?_ a hq⟩
        rw [hX.gauss.sum_one _ hs]; exact zero_lt_one
      · exact ⟨_, rfl, hd⟩
  | alphaStable target =>
      obtain ⟨h12, a, c, al, ha, rfl, k0, k1⟩ := (by simpa only [Spreading] using hc : (d = 1 ∨ (d = 2 ∧ ∀ b, gs b % 2 = 0)) ∧ ∃ a c α, E.axis target = .ok a ∧ vs = [.scalar c, .scalar α] ∧
        (∀ k, 0 ≤ E.ext.stableKer (c / E.lattice a) α k) ∧ 0 < E.ext.stableKer (c / E.lattice a) α 0)
      have e0 : scalarAt [HVal.scalar c, .scalar al] 0 = .ok c := rfl
      have e1 : scalarAt [HVal.scalar c, .scalar al] 1 = .ok al := rfl
      simp only [leafFwd, alphaFwd, e0, e1, ha, bind, Except.bind, if_pos h12]
      rw [if_neg (hl a).ne']
      refine ⟨_, rfl, bind_full hd fun q hq => normalize_full (convSame_full (fun v => ?_) ?_ hq)⟩
      · split
        · exact k0 _
        · exact le_rfl
      · simpa using k1
  | changePoint =>
      obtain ⟨v, rfl⟩ := (by simpa only [Spreading] using hc : ∃ v, vs = [.scalar v])
      have hs' : cpHit [HVal.scalar v] t = .ok (decide (t = v)) := rfl
      simp only [leafFwd, hs', bind, Except.bind, decide_eq_true_eq]
      split
      · exact ⟨_, rfl, resetCell_full hl hpr⟩
      · exact ⟨p, rfl, hd⟩
  | independent => exact ⟨_, rfl, resetArr_full hpr⟩
  | regimeSwitch =>
      obtain ⟨v, rfl⟩ := (by simpa only [Spreading] using hc : ∃ v, vs = [.scalar v])
      have e0 : scalarAt [HVal.scalar v] 0 = .ok v := rfl
      simp only [leafFwd, regimeFwd, e0, bind, Except.bind]
      exact ⟨_, rfl, bind_full hd fun q hq => normalize_full (floorAt_full hq)⟩
  | notEqual => simp [Spreading] at hc
  | deterministic f target =>
      obtain ⟨⟨a, ha, hsh⟩, hs⟩ := (by simpa only [Spreading] using hc : (∃ a, E.axis target = .ok a ∧ ∀ s p, (∀ x, 0 < p x) → ∀ x, 0 < E.ext.shift a s p x) ∧
        ∀ v ∈ vs, ∃ c, v = .scalar c)
      simp only [leafFwd, ha, scalars_eq vs hs, bind, Except.bind]
      exact detShift_full hl hsh hd _
  | bivariate =>
      obtain ⟨h2, s1, s2, rho, hs1, hs2, hrho, rfl⟩ := (by simpa only [Spreading] using hc : d = 2 ∧ ∃ s1 s2 ρ, 0 < s1 ∧ 0 < s2 ∧ ρ * ρ < 1 ∧ vs = [.scalar s1, .scalar s2, .scalar ρ])
      have e0 : numberAt [HVal.scalar s1, .scalar s2, .scalar rho] 0 = .ok s1 := rfl
      have e1 : numberAt [HVal.scalar s1, .scalar s2, .scalar rho] 1 = .ok s2 := rfl
      have e2 : numberAt [HVal.scalar s1, .scalar s2, .scalar rho] 2 = .ok rho := rfl
      simp only [leafFwd, bivFwd, e0, e1, e2, bind, Except.bind, dif_pos h2]
      rw [if_neg (by rintro (h | h) <;> exact absurd h (hl _).ne'), if_neg (by rintro (h | h | h) <;> exact absurd h (not_le.2 (by assumption)))]
      refine ⟨_, rfl, bind_full hd fun q hq => normalize_full (convSame_full (fun v => ?_) ?_ hq)⟩
      · exact hX.biv_nonneg _ _ _ _ _
      · simpa using hX.biv_pos (s1 / E.lattice ⟨0, by omega⟩) (s2 / E.lattice ⟨1, by omega⟩) rho (div_pos hs1 (hl _)) (div_pos hs2 (hl _)) hrho
  | breakPoint => simp [Spreading] at hc

theorem leafBwd_full [Nonempty (Idx gs)] (hl : ∀ a, 0 < E.lattice a) (hX : ProperExt E.ext) (hpr : FullPrior E.prior) (k : Leaf K) (nm : List String) (vs : List (HVal K)) (hp : Option (Nest (HPrior K)))
    (hc : Spreading E (.leaf k nm vs hp)) (toff : K) (p : Arr K gs) (t : K) (hd : Full p) :
    ∃ q, leafBwd E toff k vs p t = .ok q ∧ Full q := by
  have h := leafFwd_full hl hX hpr k nm vs hp hc toff p (t - 1) hd
  cases k with
  | deterministic f target =>
      obtain ⟨⟨a, ha, hsh⟩, hs⟩ := (by simpa only [Spreading] using hc : (∃ a, E.axis target = .ok a ∧ ∀ s p, (∀ x, 0 < p x) → ∀ x, 0 < E.ext.shift a s p x) ∧
        ∀ v ∈ vs, ∃ c, v = .scalar c)
      simp only [leafBwd, ha, scalars_eq vs hs, bind, Except.bind]
      exact detShift_full hl hsh hd _
  | static => exact h
  | grw target => exact h
  | alphaStable target => exact h
  | changePoint => exact h
  | independent => exact h
  | regimeSwitch => exact h
  | notEqual => exact h
  | bivariate => exact h
  | breakPoint => exact h

theorem cpCheck_full [Nonempty (Idx gs)] (hl : ∀ a, 0 < E.lattice a) (hpr : FullPrior E.prior) {vs : List K} {mask : List Bool} {p : Arr K gs} (hp : Full p) (t : K) : Full (cpCheck E vs mask p t) := by
  unfold cpCheck
  split
  · exact resetCell_full hl hpr
  · exact hp

theorem index_lt {vs : List (HVal K)} {ms : List (TM K)} (h : ms.length = vs.length + 1) (t : K) : modelIndex (vals vs) t < ms.length := by
  have := breaksUpTo_le (vals vs) t
  rw [vals_length] at this
  rw [modelIndex_eq]
  omega

mutual
theorem fwd_full [Nonempty (Idx gs)] (hl : ∀ a, 0 < E.lattice a) (hX : ProperExt E.ext) (hpr : FullPrior E.prior) :
    ∀ (tm : TM K), Spreading E tm → ∀ (toff : K) (p : Arr K gs) (t : K), Full p → ∃ q, tm.fwd E toff p t = .ok q ∧ Full q
  | .leaf k nm vs hp, hc, toff, p, t, hd => by rw [TM.fwd]; exact leafFwd_full hl hX hpr k nm vs hp hc toff p t hd
  | .combined ms, hc, toff, p, t, hd => by
      rw [TM.fwd]; exact fwdAll_full hl hX hpr ms (by simpa only [Spreading] using hc) toff p t hd
  | .serial _ vs _ mask ms, hc, toff, p, t, hd => by
      have hc' : (∀ v ∈ vs, ∃ c, v = .scalar c) ∧ ms.length = vs.length + 1 ∧ SpreadingAll E ms := by simpa only [Spreading] using hc
      obtain ⟨q, h1, h2⟩ := fwdNth_full hl hX hpr ms hc'.2.2 (breakOffset (vals vs) (modelIndex (vals vs) t)) _ (index_lt hc'.2.1 t) p t hd
      rw [TM.fwd, scalars_eq vs hc'.1]
      simp only [bind, Except.bind, h1]
      exact ⟨_, rfl, cpCheck_full hl hpr h2 t⟩
theorem fwdAll_full [Nonempty (Idx gs)] (hl : ∀ a, 0 < E.lattice a) (hX : ProperExt E.ext) (hpr : FullPrior E.prior) :
    ∀ (ms : List (TM K)), SpreadingAll E ms → ∀ (toff : K) (p : Arr K gs) (t : K), Full p → ∃ q, TM.fwdAll E toff ms p t = .ok q ∧ Full q
  | [], _, toff, p, t, hd => ⟨p, by rw [TM.fwdAll], hd⟩
  | m :: ms, hc, toff, p, t, hd => by
      have hc' : Spreading E m ∧ SpreadingAll E ms := by simpa only [SpreadingAll] using hc
      obtain ⟨q, h1, h2⟩ := fwd_full hl hX hpr m hc'.1 toff p t hd
      obtain ⟨r, h3, h4⟩ := fwdAll_full hl hX hpr ms hc'.2 toff q t h2
      refine ⟨r, ?_, h4⟩
      rw [TM.fwdAll, h1]
      exact h3
theorem fwdNth_full [Nonempty (Idx gs)] (hl : ∀ a, 0 < E.lattice a) (hX : ProperExt E.ext) (hpr : FullPrior E.prior) :
    ∀ (ms : List (TM K)), SpreadingAll E ms → ∀ (toff : K) (i : ℕ), i < ms.length → ∀ (p : Arr K gs) (t : K), Full p → ∃ q, TM.fwdNth E toff ms i p t = .ok q ∧ Full q
  | [], _, _, i, hi, _, _, _ => by simp at hi
  | m :: ms, hc, toff, 0, _, p, t, hd => by
      have hc' : Spreading E m ∧ SpreadingAll E ms := by simpa only [SpreadingAll] using hc
      rw [TM.fwdNth]
      exact fwd_full hl hX hpr m hc'.1 toff p t hd
  | m :: ms, hc, toff, i + 1, hi, p, t, hd => by
      have hc' : Spreading E m ∧ SpreadingAll E ms := by simpa only [SpreadingAll] using hc
      rw [TM.fwdNth]
      exact fwdNth_full hl hX hpr ms hc'.2 toff i (by simpa using hi) p t hd
end

mutual
theorem bwd_full [Nonempty (Idx gs)] (hl : ∀ a, 0 < E.lattice a) (hX : ProperExt E.ext) (hpr : FullPrior E.prior) :
    ∀ (tm : TM K), Spreading E tm → ∀ (toff : K) (p : Arr K gs) (t : K), Full p → ∃ q, tm.bwd E toff p t = .ok q ∧ Full q
  | .leaf k nm vs hp, hc, toff, p, t, hd => by rw [TM.bwd]; exact leafBwd_full hl hX hpr k nm vs hp hc toff p t hd
  | .combined ms, hc, toff, p, t, hd => by
      rw [TM.bwd]; exact bwdAll_full hl hX hpr ms (by simpa only [Spreading] using hc) toff p t hd
  | .serial _ vs _ mask ms, hc, toff, p, t, hd => by
      have hc' : (∀ v ∈ vs, ∃ c, v = .scalar c) ∧ ms.length = vs.length + 1 ∧ SpreadingAll E ms := by simpa only [Spreading] using hc
      obtain ⟨q, h1, h2⟩ := bwdNth_full hl hX hpr ms hc'.2.2 (breakOffset (vals vs) (modelIndex (vals vs) (t - 1))) _ (index_lt hc'.2.1 (t - 1)) p t hd
      rw [TM.bwd, scalars_eq vs hc'.1]
      simp only [bind, Except.bind, h1]
      exact ⟨_, rfl, cpCheck_full hl hpr h2 _⟩
theorem bwdAll_full [Nonempty (Idx gs)] (hl : ∀ a, 0 < E.lattice a) (hX : ProperExt E.ext) (hpr : FullPrior E.prior) :
    ∀ (ms : List (TM K)), SpreadingAll E ms → ∀ (toff : K) (p : Arr K gs) (t : K), Full p → ∃ q, TM.bwdAll E toff ms p t = .ok q ∧ Full q
  | [], _, toff, p, t, hd => ⟨p, by rw [TM.bwdAll], hd⟩
  | m :: ms, hc, toff, p, t, hd => by
      have hc' : Spreading E m ∧ SpreadingAll E ms := by simpa only [SpreadingAll] using hc
      obtain ⟨q, h1, h2⟩ := bwd_full hl hX hpr m hc'.1 toff p t hd
      obtain ⟨r, h3, h4⟩ := bwdAll_full hl hX hpr ms hc'.2 toff q t h2
      refine ⟨r, ?_, h4⟩
      rw [TM.bwdAll, h1]
      exact h3
theorem bwdNth_full [Nonempty (Idx gs)] (hl : ∀ a, 0 < E.lattice a) (hX : ProperExt E.ext) (hpr : FullPrior E.prior) :
    ∀ (ms : List (TM K)), SpreadingAll E ms → ∀ (toff : K) (i : ℕ), i < ms.length → ∀ (p : Arr K gs) (t : K), Full p → ∃ q, TM.bwdNth E toff ms i p t = .ok q ∧ Full q
  | [], _, _, i, hi, _, _, _ => by simp at hi
  | m :: ms, hc, toff, 0, _, p, t, hd => by
      have hc' : Spreading E m ∧ SpreadingAll E ms := by simpa only [SpreadingAll] using hc
      rw [TM.bwdNth]
      exact bwd_full hl hX hpr m hc'.1 toff p t hd
  | m :: ms, hc, toff, i + 1, hi, p, t, hd => by
      have hc' : Spreading E m ∧ SpreadingAll E ms := by simpa only [SpreadingAll] using hc
      rw [TM.bwdNth]
      exact bwdNth_full hl hX hpr ms hc'.2 toff i (by simpa using hi) p t hd
end

mutual
theorem spreading_prior (pr : PriorSpec K gs) : ∀ (tm : TM K), Spreading E tm → Spreading { E with prior := pr } tm
  | .leaf k _ vs _, h => by cases k <;> (simp only [Spreading] at h ⊢; try exact h)
  | .combined ms, h => by rw [Spreading] at *; exact spreadingAll_prior pr ms h
  | .serial _ vs _ mask ms, h => by rw [Spreading] at *; exact ⟨h.1, h.2.1, spreadingAll_prior pr ms h.2.2⟩
theorem spreadingAll_prior (pr : PriorSpec K gs) : ∀ (ms : List (TM K)), SpreadingAll E ms → SpreadingAll { E with prior := pr } ms
  | [], _ => by rw [SpreadingAll]; trivial
  | m :: ms, h => by rw [SpreadingAll] at *; exact ⟨spreading_prior pr m h.1, spreadingAll_prior pr ms h.2⟩
end

theorem computePrior_full [Nonempty (Idx gs)] (hl : ∀ a, 0 < E.lattice a) (hpr : FullPrior E.prior) :
    ∃ a pr, computePrior E = .ok (a, pr) ∧ Full a ∧ FullPrior pr := by
  have hc : 0 < E.cell := env_cell_pos hl
  have hd : ∀ v : Idx gs → K, (∀ x, 0 < v x) → ∃ q, (BL.normalize v).bind (divScalar · E.cell) = some q ∧ ∀ x, 0 < q x := fun v hv =>
    bind_full (normalize_full hv) fun q hq => ⟨_, by rw [divScalar, if_neg hc.ne'], fun x => div_pos (hq x) hc⟩
  unfold computePrior
  cases hp : E.prior with
  | none => exact ⟨_, _, rfl, hd _ fun _ => zero_lt_one, trivial⟩
  | badArray => rw [hp] at hpr; exact hpr.elim
  | array b =>
      rw [hp] at hpr
      cases b with
      | none => exact hpr.elim
      | some v =>
          simp only
          split
          · obtain ⟨q, h1, h2⟩ := hd v hpr
            refine ⟨_, _, rfl, ⟨q, h1, h2⟩, ?_⟩
            rw [h1]; exact h2
          · exact ⟨_, _, rfl, ⟨v, rfl, hpr⟩, hpr⟩
  | func v =>
      rw [hp] at hpr
      simp only
      split
      · exact ⟨_, _, rfl, hd v hpr, hpr⟩
      · exact ⟨_, _, rfl, ⟨v, rfl, hpr⟩, hpr⟩
  | funcConst c =>
      rw [hp] at hpr
      simp only
      split
      · exact ⟨_, _, rfl, hd _ fun _ => hpr, hpr⟩
      · exact ⟨_, _, rfl, ⟨_, rfl, fun _ => hpr⟩, hpr⟩
  | rvs n ok v =>
      rw [hp] at hpr
      obtain ⟨rfl, rfl, hv⟩ := hpr
      simp only [ne_eq, not_true, if_false, if_true]
      exact ⟨_, _, rfl, ⟨v, rfl, hv⟩, rfl, rfl, hv⟩

theorem fwdPass_full [Nonempty (Idx gs)] (hl : ∀ a, 0 < E.lattice a) (hX : ProperExt E.ext) {tm : TM K} (hc : Spreading E tm) :
    ∀ (Ls : List (Idx gs → K)) (ts : List K) (al : Bool) (pr : PriorSpec K gs) (a : Arr K gs), (∀ L ∈ Ls, ∀ x, 0 < L x) → ts.length = Ls.length → FullPrior pr → Full a →
      ∃ r, fwdPass E tm al pr a Ls ts = .ok r ∧ r.stopped = false ∧ FullPrior r.prior ∧ r.steps.map Step.lik = Ls ∧
        ∀ s ∈ r.steps, 0 < s.norm ∧ (∀ x, 0 < s.alpha x) ∧ ∑ x, s.alpha x = 1
  | [], _, _, pr, a, _, _, hpr, _ => ⟨_, by rw [fwdPass], rfl, hpr, rfl, by simp⟩
  | L :: Ls, [], _, _, _, _, hlen, _, _ => by simp at hlen
  | L :: Ls, t :: ts, al, pr, a, hL, hlen, hpr, ha => by
      obtain ⟨q, rfl, hq⟩ := ha
      have h1 : ∀ x, 0 < q x * L x := fun x => mul_pos (hq x) (hL L (by simp) x)
      have hs := full_sum h1
      have h2 : ∀ x, 0 < q x * L x / ∑ y, q y * L y := fun x => div_pos (h1 x) hs
      have hpr' : FullPrior (if al then PriorSpec.array (some fun x => q x * L x / ∑ y, q y * L y) else pr) := by
        split
        · exact h2
        · exact hpr
      obtain ⟨nx, h3, h4⟩ := fwd_full (E := { E with prior := if al then PriorSpec.array (some fun x => q x * L x / ∑ y, q y * L y) else pr }) hl hX hpr' tm (spreading_prior _ tm hc) 0
        (some fun x => q x * L x / ∑ y, q y * L y) t ⟨_, rfl, h2⟩
      obtain ⟨r, h5, h6, h7, h8, h9⟩ := fwdPass_full hl hX hc Ls ts (al && tm.returnsArg t) _ nx (fun L' hL' => hL L' (by simp [hL'])) (by simpa using hlen) hpr' h4
      have he : fwdPass E tm al pr (some q) (L :: Ls) (t :: ts) = .ok { r with steps := ⟨fun x => q x * L x / ∑ y, q y * L y, ∑ y, q y * L y, L, t⟩ :: r.steps } := by
        rw [fwdPass]
        simp only [hs, if_true]
        rw [h3]
        simp only [bind, Except.bind]
        rw [h5]
      refine ⟨_, he, h6, h7, by simp [h8], ?_⟩
      intro s hs'
      rcases List.mem_cons.1 hs' with rfl | hs'
      · exact ⟨hs, h2, by rw [← Finset.sum_div, div_self hs.ne']⟩
      · exact h9 s hs'

theorem localEv_full [Nonempty (Idx gs)] (hl : ∀ a, 0 < E.lattice a) {p L : Idx gs → K} (hp : ∀ x, 0 < p x) (hL : ∀ x, 0 < L x) : ∃ v, localEv E p L = .val v ∧ 0 < v := by
  have h : 0 < (∑ x, p x / L x) * E.cell := mul_pos (full_sum fun x => div_pos (hp x) (hL x)) (env_cell_pos hl)
  refine ⟨_, ?_, one_div_pos.2 h⟩
  rw [localEv, if_neg (by rintro ⟨x, hx, _⟩; exact (hL x).ne' hx), if_neg (by rintro ⟨x, hx⟩; exact (hL x).ne' hx), if_neg h.ne']

theorem bwdPass_full [Nonempty (Idx gs)] (hl : ∀ a, 0 < E.lattice a) (hX : ProperExt E.ext) (hpr : FullPrior E.prior) {tm : TM K} (hc : Spreading E tm) :
    ∀ (st : List (Step K gs)), (∀ s ∈ st, (∀ x, 0 < s.alpha x) ∧ ∀ x, 0 < s.lik x) →
      ∃ o, bwdPass E tm st = .ok o ∧ o.stopped = false ∧ Full o.beta ∧ o.posts.length = st.length ∧ o.locals.length = st.length ∧
        (∀ c ∈ o.posts, ∃ p, c = .val p ∧ (∀ x, 0 < p x) ∧ ∑ x, p x = 1) ∧ ∀ c ∈ o.locals, ∃ v, c = .val v ∧ 0 < v
  | [], _ => ⟨_, by rw [bwdPass], rfl, normalize_full fun _ => zero_lt_one, rfl, rfl, by simp, by simp⟩
  | s :: st, h => by
      obtain ⟨o, h1, h2, ⟨b, h3, hb⟩, h4, h5, h6, h7⟩ := bwdPass_full hl hX hpr hc st fun s' hs' => h s' (by simp [hs'])
      obtain ⟨ha, hL⟩ := h s (by simp)
      have hq : ∀ x, 0 < s.alpha x * b x := fun x => mul_pos (ha x) (hb x)
      have hn := full_sum hq
      have hp : ∀ x, 0 < s.alpha x * b x / ∑ y, s.alpha y * b y := fun x => div_pos (hq x) hn
      obtain ⟨nb, h8, h9⟩ := bwd_full hl hX hpr tm hc 0 (some fun x => b x * s.lik x) s.t ⟨_, rfl, fun x => mul_pos (hb x) (hL x)⟩
      refine ⟨_, by rw [bwdPass]; simp only [h1, h2, h3, hn, h8, bind, Except.bind, if_true]; rfl, rfl, bind_full h9 fun q hq => normalize_full hq, by simp [h4], by simp [h5], ?_, ?_⟩
      · intro c hc'
        rcases List.mem_cons.1 hc' with rfl | hc'
        · exact ⟨_, rfl, hp, by rw [← Finset.sum_div, div_self hn.ne']⟩
        · exact h6 c hc'
      · intro c hc'
        rcases List.mem_cons.1 hc' with rfl | hc'
        · exact localEv_full hl hp hL
        · exact h7 c hc'

end
end BL
