import Verif.Props.C30
import Verif.Props.C100
import Verif.Props.C104
import Verif.Lemmas.SoftMaxHyper

/-! # C108: rounding errors of the averages of a hyper-study -/

set_option linter.unusedSectionVars false

namespace Props
open BL Spec

variable {d : ℕ} {gs : Fin d → ℕ}

theorem sum_zip {α β : Type} (f : α × β → ℝ) : ∀ (n : ℕ) (l : List α) (l' : List β) (h : l.length = n) (h' : l'.length = n), ((l.zip l').map f).sum = ∑ k : Fin n, f (l[k], l'[k])
  | 0, l, l', h, h' => by
      obtain rfl := List.length_eq_zero_iff.1 h
      simp
  | n + 1, [], _, h, _ => by simp at h
  | n + 1, _ :: _, [], _, h' => by simp at h'
  | n + 1, a :: l, b :: l', h, h' => by
      rw [List.zip_cons_cons, List.map_cons, List.sum_cons, sum_zip f n l l' (by simpa using h) (by simpa using h'), Fin.sum_univ_succ]
      rfl

/-- mean value of an approximate distribution, computed with rounding errors -/
theorem mean_close {κ τ r : ℝ} (h0 : 0 ≤ κ) (hκ : κ < 1) {N : ℕ} (hN : N = Fintype.card (Idx gs)) (hNκ : ((1 + N : ℕ) : ℝ) * κ < 1) {P q : Idx gs → ℝ} (hq : ∀ x, 0 ≤ q x) (h : ∀ x, |q x - P x| ≤ r * P x + 16 * τ)
    {grid : (a : Fin d) → Fin (gs a) → ℝ} {a : Fin d} {m : ℝ} (hm : RMean κ grid a q m) :
    |m - mean grid a P| ≤ meanAcc κ N r * ∑ x, P x * |grid a (x a)| + 16 * τ * (1 + gam (1 + N) κ) * ∑ x : Idx gs, |grid a (x a)| := by
  have h1 := mean_acc (N := 0) h0 hκ (fun x => Acc.refl h0 hκ (hq x) 0) hm (by rw [zero_add, ← hN]; exact hNκ)
  rw [zero_add, ← hN] at h1
  have h2 : ∑ x, |q x - P x| * |grid a (x a)| ≤ r * ∑ x, P x * |grid a (x a)| + 16 * τ * ∑ x : Idx gs, |grid a (x a)| := by
    rw [Finset.mul_sum, Finset.mul_sum, ← Finset.sum_add_distrib]
    refine Finset.sum_le_sum fun x _ => ?_
    have := mul_le_mul_of_nonneg_right (h x) (abs_nonneg (grid a (x a)))
    linarith
  have h3 : |mean grid a q - mean grid a P| ≤ ∑ x, |q x - P x| * |grid a (x a)| := by
    rw [mean, mean, ← Finset.sum_sub_distrib]
    refine (Finset.abs_sum_le_sum_abs _ _).trans (le_of_eq (Finset.sum_congr rfl fun x _ => ?_))
    rw [← sub_mul, abs_mul]
  have h4 : ∑ x, q x * |grid a (x a)| ≤ ∑ x, P x * |grid a (x a)| + ∑ x, |q x - P x| * |grid a (x a)| := by
    rw [← Finset.sum_add_distrib]
    refine Finset.sum_le_sum fun x _ => ?_
    have := mul_le_mul_of_nonneg_right (le_abs_self (q x - P x)) (abs_nonneg (grid a (x a)))
    linarith
  have hg : 0 ≤ gam (1 + N) κ := by
    rw [gam]
    exact div_nonneg (by positivity) (by linarith)
  have h5 := mul_le_mul_of_nonneg_left (h4.trans (add_le_add_right h2 _)) hg
  have h6 : |m - mean grid a P| ≤ |m - mean grid a q| + |mean grid a q - mean grid a P| := abs_sub_le _ _ _
  have e : (1 + N : ℝ) * κ / (1 - (1 + N) * κ) = gam (1 + N) κ := by rw [gam]; push_cast; rfl
  rw [meanAcc, e]
  linarith

theorem Singles.getElem {I : FitIn ℝ gs} {H : HState ℝ gs} {rows : List (List ℝ)} {As : List (FitState ℝ gs)} (h : Singles I H rows As) {k : ℕ} (hk : k < rows.length) (hk' : k < As.length) :
    singleFit I H.tm H.S rows[k] = .ok As[k] := by
  have := (List.forall₂_iff_get.1 h).2 k hk hk'
  simpa using this

/-- **C108 (part that holds: the prior of the parameters is not a numpy array).** Averages of a hyper-study in floating-point arithmetic.  Let `R` be the result of `HyperStudy.fit` in exact arithmetic, with
non-zero evidence.  In a floating-point run let the single results be accurate to `η`: log-evidences `le`, prior values `hp`, posterior values `post`, sum `lc` of the logarithms and product `c'` of the
hyper-grid constants; let operations on logarithms have an error of at most `κ (1 + |result|)`, exponentials and quotients a relative error of `κ` or an absolute error of `τ` (underflow).  `M` bounds the size
of all logarithms; the evidences themselves may be far outside the range of floating-point numbers.  Then the exponentials taken on the way stay between 0 and 2 (no overflow), the divisors are at least 1/10
(no division by zero); averaged posterior, mean values, hyper-parameter distribution and log-evidence equal those of `R` up to a relative error of about `Ω`, where `Ω` is linear in the accuracies `η` and `κ`. -/
theorem C108_partial (I : FitIn ℝ gs) (nJobs : ℕ) (H R : HState ℝ gs) (g : HyperGrid ℝ) (ps : List ℝ) (hb : Built H.tm)
    (hsp : " " ∉ (entries H.tm).map (·.1)) (hn : H.S.prior.isArray = false)
    (hg : createHyperGrid H.tm I.ts = .ok g) (hps : g.priors = some ps) (hr : 1 < g.rows.length) (hnn : ∀ p ∈ ps, 0 ≤ p)
    (h : hyperFit I nJobs H = .ok (some R)) (hpos : R.S.logEv ≠ LogV.ninf)
    (heo : I.evidenceOnly = false) (hε : 0 < I.ε) (hne : Nonempty (Idx gs))
    (hl : ∀ a, 0 ≤ I.E.lattice a)
    -- accuracy of the arithmetic
    {κ τ η M : ℝ} {n N : ℕ} (hnr : n = g.rows.length) (hN : N = Fintype.card (Idx gs)) (h0 : 0 ≤ κ) (hκN : κ * (N + n) ≤ 1 / 16) (hτ : 0 ≤ τ) (hτN : (N + n) * τ ≤ 1 / 64) (hη : 0 ≤ η)
    (hεN : N * I.ε ≤ 1) (hΔ : logAcc κ η M n ≤ 1 / 4)
    -- accuracy of the single results
    {post : Fin n → ℕ → Idx gs → ℝ} {hp : Fin n → ℝ} {le : Fin n → Option ℝ} {lc c' : ℝ}
    (hsingle : ∀ (k : Fin n) (A : FitState ℝ gs), singleFit I H.tm H.S g.rows[k] = .ok A → EvApprox η A.logEv.exp (le k) ∧
      (A.logEv ≠ LogV.ninf → ∀ t < I.liks.length, ∀ x, 0 ≤ postOf A t x ∧ post k t x ≤ Real.exp η * postOf A t x ∧ postOf A t x ≤ Real.exp η * post k t x))
    (hhp : ∀ (k : Fin n) (p : ℝ), ps[k.val]? = some p → ValApprox η p (hp k)) (hlc : |lc - Real.log g.hgc.prod| ≤ η) (hc' : 0 < c') (hcc : |Real.log c' - Real.log g.hgc.prod| ≤ η)
    -- size of the logarithms
    (hM0 : 2 + Real.log n ≤ M)
    (hM : ∀ (k : Fin n) (A : FitState ℝ gs) (p : ℝ), singleFit I H.tm H.S g.rows[k] = .ok A → ps[k.val]? = some p → A.logEv ≠ LogV.ninf → p ≠ 0 →
      2 + |Real.log I.ε| + |Real.log A.logEv.exp| + |Real.log p| + |Real.log g.hgc.prod| + Real.log n ≤ M)
    -- the run
    {lg : ℕ → Idx gs → Option ℝ} {m : ℝ} {v : ℕ → Idx gs → ℝ} {s : ℕ → ℝ} {q : ℕ → Idx gs → ℝ} (hA : RAverage κ τ I.ε n I.liks.length post le hp lg m v s q)
    {l : Fin n → Option ℝ} {m' : ℝ} {w : Fin n → ℝ} {s' : ℝ} {p D : Fin n → ℝ} {Λ : ℝ} (hB : RHyper κ τ n le hp lc c' l m' w s' p D Λ) :
    (∃ P : ℕ → Idx gs → ℝ, R.S.posts = (List.range I.liks.length).map (fun t => .val (P t)) ∧ ∀ t < I.liks.length,
        (∀ x, 0 ≤ v t x ∧ v t x ≤ 2) ∧ 1 / 10 ≤ s t ∧ s t ≤ 4 * N ∧
        (∀ x, |q t x - P t x| ≤ (Real.exp (quotAcc κ τ (logAcc κ η M n) N) - 1) * P t x + 16 * τ) ∧
        ∀ a m, RMean κ I.grid a (q t) m → ∃ m₀, (R.S.means a)[t]? = some m₀ ∧
          |m - m₀| ≤ meanAcc κ N (Real.exp (quotAcc κ τ (logAcc κ η M n) N) - 1) * ∑ x, P t x * |I.grid a (x a)| + 16 * τ * (1 + gam (1 + N) κ) * ∑ x : Idx gs, |I.grid a (x a)|) ∧
      (∃ D₀ : List ℝ, R.hpd = some D₀ ∧ D₀.length = n ∧ ∀ (k : Fin n) (x : ℝ), D₀[k.val]? = some x →
        |D k - x| ≤ (Real.exp (quotAcc κ τ (logAcc κ η M n) n + η + 2 * κ) - 1) * x + (20 / g.hgc.prod + 1) * τ) ∧
      |Λ - Real.log R.S.logEv.exp| ≤ sumAcc κ τ (logAcc κ η M n) n + 6 * κ * M := by
  have hcell : 0 ≤ I.E.cell := Finset.prod_nonneg fun a _ => hl a
  obtain ⟨As, W, D₀, c1, c2, c3, c4, c5, c6, c7, P, p1, p2⟩ := C30_partial I nJobs H R g ps hb hsp hn hcell hg hps hr hnn h hpos heo hε hne
  obtain ⟨As', W', D', e1, e2, e3, e4, e5, -⟩ := C31_partial I nJobs H R g ps hb hsp hn hcell hg hps hr hnn h hpos
  obtain ⟨As'', f1, -, f3, f4⟩ := C29_partial I nJobs H R g ps hb hsp hn hg hps hr h
  have hAA : As' = As := by
    have q1 := mapE_ok.2 c1
    rw [mapE_ok.2 e1] at q1
    exact Except.ok.inj q1
  have hAA' : As'' = As := by
    have q1 := mapE_ok.2 c1
    rw [mapE_ok.2 f1] at q1
    exact Except.ok.inj q1
  subst hAA hAA'
  have hDD : D' = D₀ := by rw [c2] at e2; exact (Option.some.inj e2).symm
  subst hDD
  have hWW : W' = W := by rw [← e3, c3]
  subst hWW
  have hlA : As''.length = n := by rw [← c1.length_eq, hnr]
  have hlp : ps.length = n := by rw [f3, hlA]
  have hlW : W'.length = n := by rw [c4, hlA]
  have hlD : D'.length = n := by rw [← hlW, ← e3, List.length_map]
  -- values of the combinations
  obtain ⟨ev, hev⟩ : ∃ ev : Fin n → ℝ, ∀ k, ev k = (As''[k.val]'(by rw [hlA]; exact k.isLt)).logEv.exp := ⟨_, fun _ => rfl⟩
  obtain ⟨pr, hpr'⟩ : ∃ pr : Fin n → ℝ, ∀ k, pr k = ps[k.val]'(by rw [hlp]; exact k.isLt) := ⟨_, fun _ => rfl⟩
  obtain ⟨Q, hQ⟩ : ∃ Q : Fin n → ℕ → Idx gs → ℝ, ∀ k, Q k = postOf (As''[k.val]'(by rw [hlA]; exact k.isLt)) := ⟨_, fun _ => rfl⟩
  obtain ⟨c, hc⟩ : ∃ c, c = g.hgc.prod := ⟨_, rfl⟩
  obtain ⟨Z, hZ⟩ : ∃ Z, Z = R.S.logEv.exp := ⟨_, rfl⟩
  have hfit : ∀ k : Fin n, singleFit I H.tm H.S (g.rows[k.val]'(by rw [← hnr]; exact k.isLt)) = .ok (As''[k.val]'(by rw [hlA]; exact k.isLt)) := fun k => c1.getElem (by rw [← hnr]; exact k.isLt) (by rw [hlA]; exact k.isLt)
  have hpsk : ∀ k : Fin n, ps[k.val]? = some (pr k) := fun k => by rw [hpr' k]; exact List.getElem?_eq_getElem _
  have hev0 : ∀ k, 0 ≤ ev k := fun k => by rw [hev k]; exact fit_ev_nonneg hcell (hfit k)
  have hpr0 : ∀ k, 0 ≤ pr k := fun k => by rw [hpr' k]; exact hnn _ (List.getElem_mem _)
  have hevn : ∀ k, ev k ≠ 0 → (As''[k.val]'(by rw [hlA]; exact k.isLt)).logEv ≠ LogV.ninf := fun k h1 h2 => h1 (by rw [hev k, h2]; rfl)
  have hc0 : 0 ≤ c := by rw [hc]; exact hgc_nonneg (Built.matched hb).proper hg
  have hZ0 : Z ≠ 0 := by rw [hZ]; exact fun h0 => hpos (LogV.ext_exp h0)
  have hZe : Z = ∑ k, ev k * pr k * c := by
    rw [hZ, f4, sum_zip _ n As'' ps hlA hlp]
    refine Finset.sum_congr rfl fun k _ => ?_
    simp only [Fin.getElem_fin]
    rw [hev k, hpr' k, hc, mul_assoc]
  have hcpos : 0 < c := by
    refine lt_of_le_of_ne hc0 fun h1 => hZ0 ?_
    rw [hZe, ← h1]; simp
  have hWk : ∀ k : Fin n, W'[k.val]'(by rw [hlW]; exact k.isLt) = ev k * pr k * c / Z := by
    intro k
    simp only [e4, List.getElem_map, List.getElem_zip]
    rw [hev k, hpr' k, hc, hZ, mul_assoc]
  have hP : ∀ k, ev k ≠ 0 → ∀ t < I.liks.length, (∀ x, 0 ≤ Q k t x) ∧ ∑ x, Q k t x = 1 := by
    intro k hk t ht
    have hsf := hfit k
    have hA0 := hevn k hk
    unfold singleFit at hsf
    rw [heo] at hsf
    obtain ⟨l1, l2⟩ := C07_normalised _ _ _ _ _ _ _ _ hsf hA0
    have ht' : t < (As''[k.val]'(by rw [hlA]; exact k.isLt)).posts.length := by omega
    obtain ⟨p, hp, hp2⟩ := l2 _ (List.getElem_mem ht')
    have : Q k t = p := by
      rw [hQ k]
      unfold postOf
      rw [List.getElem?_eq_getElem ht', hp]
    refine ⟨fun x => ?_, by rw [this]; exact hp2⟩
    rw [hQ k]
    exact ((hsingle k _ (hfit k)).2 hA0 t ht x).1
  have hle : ∀ k, EvApprox η (ev k) (le k) := fun k => by rw [hev k]; exact (hsingle k _ (hfit k)).1
  have hpost : ∀ k, ev k ≠ 0 → ∀ t < I.liks.length, ∀ x, post k t x ≤ Real.exp η * Q k t x ∧ Q k t x ≤ Real.exp η * post k t x := by
    intro k hk t ht x
    rw [hQ k]
    exact ((hsingle k _ (hfit k)).2 (hevn k hk) t ht x).2
  have hhp' : ∀ k, ValApprox η (pr k) (hp k) := fun k => hhp k _ (hpsk k)
  have hM' : ∀ k, ev k ≠ 0 → pr k ≠ 0 → 2 + |Real.log I.ε| + |Real.log (ev k)| + |Real.log (pr k)| + |Real.log c| + Real.log n ≤ M := by
    intro k h1 h2
    rw [hev k, hc]
    exact hM k _ _ (hfit k) (hpsk k) (hevn k h1) h2
  have hn1 : (1 : ℝ) ≤ n := by exact_mod_cast (by omega : 1 ≤ n)
  have hlogn := Real.log_nonneg hn1
  have hN1 : (1 : ℝ) ≤ N := by rw [hN]; exact_mod_cast Fintype.card_pos
  have hκ : κ ≤ 1 / 10 := by nlinarith
  obtain ⟨g1, g2, g3, g4⟩ := hyper_close (M := M) h0 hκ (by nlinarith) hτ (by nlinarith) hη (by linarith) hΔ hcpos (by rw [hc]; exact hlc) hc' (by rw [hc]; exact hcc) hle hhp' hM0
    (fun k h1 h2 => by linarith [hM' k h1 h2, abs_nonneg (Real.log I.ε)]) hB
  refine ⟨⟨P, p1, fun t ht => ?_⟩, ⟨D', c2, hlD, fun k x hx => ?_⟩, ?_⟩
  · obtain ⟨a1, a2, a3, a4, a5⟩ := average_close (M := M) hN h0 hκ (by nlinarith) hτ (by nlinarith) hη hε hεN (by linarith) hΔ hle hhp' hev0 hpr0 hP hpost
      (fun k h1 h2 => by linarith [hM' k h1 h2, abs_nonneg (Real.log c)]) hA ht
    have hclose : ∀ x, |q t x - P t x| ≤ (Real.exp (quotAcc κ τ (logAcc κ η M n) N) - 1) * P t x + 16 * τ := ?_
    · refine ⟨a1, a2, a3, hclose, fun a m hm => ⟨mean I.grid a (P t), ?_, ?_⟩⟩
      · rcases hyperFit_spec I nJobs H g ps hb hsp hn hg hps hr with ⟨e, he⟩ | ⟨_, _, _, _, R', r0, -, -, -, -, -, -, -, r8⟩
        · rw [he] at h; cases h
        rw [r0] at h
        cases h
        rw [(r8 heo).2]
        change (List.filterMap (fun c : Cell (Idx gs → ℝ) => Option.map (mean I.grid a) c.get?) R.S.posts)[t]? = _
        rw [p1, List.filterMap_map]
        have : ((fun c : Cell (Idx gs → ℝ) => Option.map (mean I.grid a) c.get?) ∘ fun t => Cell.val (P t)) = fun t => some (mean I.grid a (P t)) := rfl
        rw [this, List.filterMap_eq_map']
        simp [ht]
      · refine mean_close h0 (by linarith) hN ?_ (fun x => ((hA.soft t ht).quot x).1) hclose hm
        push_cast
        nlinarith
    intro x
    have hmix : ∀ x, Spec.mixture As'' W' (fun A => max I.ε (postOf A t x)) = c / Z * mixAt I.ε Q ev pr t x := by
      intro x
      rw [Spec.mixture, sum_zip _ n As'' W' hlA hlW, mixAt, Finset.mul_sum]
      refine Finset.sum_congr rfl fun k _ => ?_
      simp only [Fin.getElem_fin]
      rw [hWk k, hQ k]
      ring
    have hPx : P t x = mixAt I.ε Q ev pr t x / ∑ y, mixAt I.ε Q ev pr t y := by
      rw [(p2 t ht).2.1 x]
      simp only [hmix]
      rw [← Finset.mul_sum, mul_div_mul_left _ _ (div_ne_zero hcpos.ne' hZ0)]
    rw [hPx]
    exact a5 x
  · have hxk : x = ev k * pr k * c / (∑ k, ev k * pr k * c) / c := by
      obtain ⟨hk, hx'⟩ := List.getElem?_eq_some_iff.1 hx
      have := hWk k
      simp only [← e3, List.getElem_map] at this
      rw [hx', ← hc] at this
      rw [← hZe, ← this, mul_div_assoc, div_self hcpos.ne', mul_one]
    rw [hxk, ← hc]
    exact g3 k
  · rw [← hZ, hZe]
    exact g4

/-! ## Together with the errors of the single fits -/

theorem acc_log {u a b : ℝ} {N : ℕ} (hu1 : u < 1) (h : Acc u N a b) : b ≤ Real.exp (N * (u / (1 - u))) * a ∧ a ≤ Real.exp (N * (u / (1 - u))) * b := by
  have hv : 0 < 1 - u := by linarith
  have hp : 0 < (1 - u) ^ N := pow_pos hv N
  have h1 : 1 ≤ Real.exp (N * (u / (1 - u))) * (1 - u) ^ N := by
    have e1 : 1 / (1 - u) ≤ Real.exp (u / (1 - u)) := by
      have := Real.add_one_le_exp (u / (1 - u))
      have e : u / (1 - u) + 1 = 1 / (1 - u) := by field_simp; ring
      linarith
    have e2 : 1 ≤ Real.exp (u / (1 - u)) * (1 - u) := by rwa [div_le_iff₀ hv] at e1
    have := one_le_pow₀ e2 (n := N)
    rwa [mul_pow, ← Real.exp_nat_mul] at this
  constructor
  · calc b = 1 * b := (one_mul b).symm
      _ ≤ Real.exp (N * (u / (1 - u))) * (1 - u) ^ N * b := mul_le_mul_of_nonneg_right h1 h.right
      _ = Real.exp (N * (u / (1 - u))) * ((1 - u) ^ N * b) := by ring
      _ ≤ _ := mul_le_mul_of_nonneg_left h.upper (Real.exp_nonneg _)
  · calc a = 1 * a := (one_mul a).symm
      _ ≤ Real.exp (N * (u / (1 - u))) * (1 - u) ^ N * a := mul_le_mul_of_nonneg_right h1 h.left
      _ = Real.exp (N * (u / (1 - u))) * ((1 - u) ^ N * a) := by ring
      _ ≤ _ := mul_le_mul_of_nonneg_left h.lower (Real.exp_nonneg _)

/-- A single fit with rounding errors is accurate, and finds impossible data impossible. -/
theorem single_close {E : Env ℝ gs} {grid : (a : Fin d) → Fin (gs a) → ℝ} (hE : Regular E) {tm : TM ℝ} (hL : Linear E tm) {S A : FitState ℝ gs} {π : Idx gs → ℝ} (hp : PriorMass E.cell S.prior π)
    (hR : ResetFree tm ∨ S.prior.isArray = false ∧ ∃ r, ({ E with prior := S.prior } : Env ℝ gs).resetArr = some r)
    {u : ℝ} (hu : 0 ≤ u) {eP eL e : ℕ} {a' : Idx gs → ℝ} (ha : ∀ x, Acc u eP (π x / E.cell) (a' x)) {c' : ℝ} (hc' : Acc u eP E.cell c')
    {liks liks' : List (Idx gs → ℝ)} {ts : List ℝ} (hl : List.Forall₂ (fun L L' => ∀ x, Acc u eL (L x) (L' x)) liks liks')
    {fo : Bool} (hfit : fit E grid tm liks ts fo false S = .ok A) (hz : fo = true ∨ A.logEv ≠ LogV.ninf) {post : ℕ → Idx gs → ℝ} {norms : List ℝ} {le : Option ℝ}
    (h' : RStudy { E with prior := S.prior } tm u e a' liks' ts fo c' post norms le) {N : ℕ} (hN : N = roundings liks.length (Fintype.card (Idx gs)) (elements tm) e eP eL) (hNu : N * u < 1)
    {η : ℝ} (hη : N * (u / (1 - u)) + gam (liks.length + 1) u * ((norms.map fun n => |Real.log n|).sum + |Real.log c'|) ≤ η) :
    EvApprox η A.logEv.exp le ∧ (A.logEv ≠ LogV.ninf → ∀ t < liks.length, ∀ x, 0 ≤ postOf A t x ∧ post t x ≤ Real.exp η * postOf A t x ∧ postOf A t x ≤ Real.exp η * post t x) := by
  have hne := hE.nonempty
  have hT1 : liks.length + 1 ≤ N := by
    rw [hN, roundings]
    nlinarith [Nat.zero_le (liks.length * eL), Nat.zero_le (liks.length * Fintype.card (Idx gs)), Nat.zero_le (liks.length * (elements tm * e)), Nat.zero_le (elements tm * e)]
  have hu1 : u < 1 := u_lt_one hu (N := N) (by omega) hNu
  have hcore : ∀ {steps : List (Step ℝ gs)} {stopped : Bool}, RFwd { E with prior := S.prior } tm u e a' liks' ts steps stopped →
      (stopped = true → A.logEv = LogV.ninf) ∧ (stopped = false → fo = true → A.logEv ≠ LogV.ninf) := by
    intro steps stopped h1
    have hcell : 0 < E.cell := cell_pos hE.lattice_pos
    unfold fit at hfit
    generalize hc : computePrior { E with prior := S.prior } = cp at hfit
    cases cp with
    | error _ => simp [bind, Except.bind] at hfit
    | ok cp =>
      obtain ⟨a, pr0⟩ := cp
      simp only [bind, Except.bind] at hfit
      generalize hf : fwdPass E tm pr0.isArray pr0 a liks ts = f at hfit
      cases f with
      | error _ => simp at hfit
      | ok f =>
        obtain ⟨k1, -, k3⟩ := rounded_core hE hL hu hu1 hp hR ha hl hc hf h1
        dsimp only at hfit
        rw [k1] at hfit
        constructor
        · rintro rfl
          simp only [if_true, Except.ok.injEq] at hfit
          rw [← hfit]
        · rintro rfl rfl
          simp only [Bool.false_eq_true, if_false, if_true, Except.ok.injEq] at hfit
          have key : ∀ (ss ss' : List (Step ℝ gs)) (N : ℕ) (Z Z' : ℝ), StepsAcc u (Fintype.card (Idx gs)) eL (elements tm * e) N Z Z' ss ss' → 0 < normProd ss := by
            intro ss
            induction ss with
            | nil => intro _ _ _ _ _; simp [normProd]
            | cons s ss ih =>
                intro ss' N Z Z' h
                cases ss' with
                | nil => simp [StepsAcc] at h
                | cons s' ss' =>
                    rw [StepsAcc] at h
                    have := ih _ _ _ _ h.2.2.2.2.2.2
                    rw [normProd] at *
                    rw [List.map_cons, List.prod_cons]
                    exact mul_pos h.1 this
          intro h0
          rw [← hfit] at h0
          have h2 : (sumLog E f.steps).exp = 0 := congrArg LogV.exp h0
          rw [sumLog_exp] at h2
          exact (mul_pos (key _ _ _ _ _ k3) hcell).ne' h2
  cases h' with
  | stop h1 =>
      have h0 := (hcore h1).1 rfl
      exact ⟨Or.inl ⟨rfl, by rw [h0]; rfl⟩, fun h => absurd h0 h⟩
  | @run posts _ l h1 h2 h3 =>
      have hev : A.logEv ≠ LogV.ninf := by
        rcases hz with hz | hz
        · obtain ⟨ss, h4, -⟩ := h1
          exact (hcore h4).2 rfl hz
        · exact hz
      have hev' : A.logEv.exp ≠ 0 := fun h => hev (LogV.ext_exp h)
      obtain ⟨q1, -, q3, -⟩ := rounded_acc hE hL hu hu1 hp hR ha hc' hl hfit hev' h1 hN
      have hlog := C104_log hE hL hp hR hu ha hc' hl hfit hev' h1 hN hNu h2
      have hG0 : 0 ≤ gam (liks.length + 1) u * ((norms.map fun n => |Real.log n|).sum + |Real.log c'|) := by
        apply mul_nonneg
        · have : ((liks.length + 1 : ℕ) : ℝ) * u < 1 := lt_of_le_of_lt (mul_le_mul_of_nonneg_right (by exact_mod_cast hT1) hu) hNu
          rw [gam]
          exact div_nonneg (by positivity) (by linarith)
        · apply add_nonneg _ (abs_nonneg _)
          refine List.sum_nonneg fun y hy => ?_
          obtain ⟨b, -, rfl⟩ := List.mem_map.1 hy
          exact abs_nonneg _
      refine ⟨Or.inr ⟨l, rfl, lt_of_le_of_ne q3.left (Ne.symm hev'), hlog.trans hη⟩, fun _ t ht x => ?_⟩
      obtain ⟨l1, -⟩ := C07_normalised _ _ _ _ _ _ _ _ hfit hev
      have ht1 : t < A.posts.length := by omega
      have ht2 : t < posts.length := by rw [← q1.length_eq]; exact ht1
      obtain ⟨p, hp1, hp2⟩ := (List.forall₂_iff_get.1 q1).2 t ht1 ht2
      simp only [List.get_eq_getElem] at hp1 hp2
      have hpo : postOf A t = p := by
        unfold postOf
        rw [List.getElem?_eq_getElem ht1, hp1]
      rw [hpo, h3 t _ (List.getElem?_eq_getElem ht2)]
      have h4 := acc_log hu1 (hp2 x)
      have h5 : Real.exp (N * (u / (1 - u))) ≤ Real.exp η := Real.exp_le_exp.2 (by linarith)
      exact ⟨(hp2 x).left, h4.1.trans (mul_le_mul_of_nonneg_right h5 (hp2 x).left), h4.2.trans (mul_le_mul_of_nonneg_right h5 (hp2 x).right)⟩

/-- **C108 (complete run).** The accuracy of the single results that `C108_partial` asks for, if the single fits are runs with rounding errors as in C104 (relative error `u` per operation): `η` has to
bound the error of a single fit, given by the number of roundings and the logarithms of its normalisation constants. -/
theorem C108_singles_partial (I : FitIn ℝ gs) (H : HState ℝ gs) (g : HyperGrid ℝ) (hE : Regular I.E) (heo : I.evidenceOnly = false)
    {π : Idx gs → ℝ} (hπ : PriorMass I.E.cell H.S.prior π) (hlin : ∀ row ∈ g.rows, Linear I.E (modelAt H.tm row))
    (hR : (∀ row ∈ g.rows, ResetFree (modelAt H.tm row)) ∨ H.S.prior.isArray = false ∧ ∃ r, ({ I.E with prior := H.S.prior } : Env ℝ gs).resetArr = some r)
    (hz : I.forwardOnly = true ∨ ∀ row ∈ g.rows, ∀ A, singleFit I H.tm H.S row = .ok A → A.logEv ≠ LogV.ninf)
    {u : ℝ} (hu : 0 ≤ u) {eP eL e : ℕ} {a' : Idx gs → ℝ} (ha : ∀ x, Acc u eP (π x / I.E.cell) (a' x)) {cE : ℝ} (hcE : Acc u eP I.E.cell cE)
    {liks' : List (Idx gs → ℝ)} (hl : List.Forall₂ (fun L L' => ∀ x, Acc u eL (L x) (L' x)) I.liks liks')
    {n : ℕ} (hnr : n = g.rows.length) {post : Fin n → ℕ → Idx gs → ℝ} {norms : Fin n → List ℝ} {le : Fin n → Option ℝ}
    (hrun : ∀ k : Fin n, RStudy { I.E with prior := H.S.prior } (modelAt H.tm g.rows[k]) u e a' liks' I.ts I.forwardOnly cE (post k) (norms k) (le k))
    {N : ℕ} (hN : ∀ k : Fin n, roundings I.liks.length (Fintype.card (Idx gs)) (elements (modelAt H.tm g.rows[k])) e eP eL ≤ N) (hNu : N * u < 1)
    {η : ℝ} (hη : ∀ k, N * (u / (1 - u)) + gam (I.liks.length + 1) u * (((norms k).map fun n => |Real.log n|).sum + |Real.log cE|) ≤ η) :
    ∀ (k : Fin n) (A : FitState ℝ gs), singleFit I H.tm H.S g.rows[k] = .ok A → EvApprox η A.logEv.exp (le k) ∧
      (A.logEv ≠ LogV.ninf → ∀ t < I.liks.length, ∀ x, 0 ≤ postOf A t x ∧ post k t x ≤ Real.exp η * postOf A t x ∧ postOf A t x ≤ Real.exp η * post k t x) := by
  intro k A hA
  have hmem : g.rows[k] ∈ g.rows := List.getElem_mem _
  have hz' : I.forwardOnly = true ∨ A.logEv ≠ LogV.ninf := hz.imp id fun h => h _ hmem A hA
  unfold singleFit at hA
  rw [heo] at hA
  have hNk : ((roundings I.liks.length (Fintype.card (Idx gs)) (elements (modelAt H.tm g.rows[k])) e eP eL : ℕ) : ℝ) ≤ N := by exact_mod_cast hN k
  have hNu' : ((roundings I.liks.length (Fintype.card (Idx gs)) (elements (modelAt H.tm g.rows[k])) e eP eL : ℕ) : ℝ) * u < 1 := lt_of_le_of_lt (mul_le_mul_of_nonneg_right hNk hu) hNu
  have hN1 : 1 ≤ roundings I.liks.length (Fintype.card (Idx gs)) (elements (modelAt H.tm g.rows[k])) e eP eL := by rw [roundings]; nlinarith [Nat.zero_le (I.liks.length * (eL + 2 + Fintype.card (Idx gs) + elements (modelAt H.tm g.rows[k]) * e)), Nat.zero_le (elements (modelAt H.tm g.rows[k]) * e)]
  have hu1 : u < 1 := u_lt_one hu hN1 hNu'
  refine single_close hE (hlin _ hmem) hπ (hR.imp (fun h => h _ hmem) id) hu ha hcE hl hA hz' (hrun k) rfl hNu' (le_trans ?_ (hη k))
  have : 0 ≤ u / (1 - u) := div_nonneg hu (by linarith)
  have := mul_le_mul_of_nonneg_right hNk this
  linarith

/-! ## Runs exist -/

theorem near_self {κ : ℝ} (h0 : 0 ≤ κ) (a : ℝ) : Near κ a a := by
  rw [Near, sub_self, abs_zero]; positivity

theorem rtiny_self {κ τ a : ℝ} (h0 : 0 ≤ κ) (hτ : 0 ≤ τ) (ha : 0 ≤ a) : RTiny κ τ a a := by
  refine ⟨ha, ?_⟩
  rw [sub_self, abs_zero]; positivity

theorem rsum_exists {κ : ℝ} (h0 : 0 ≤ κ) (m : Multiset ℝ) : m ≠ 0 → RSum κ m m.sum := by
  induction m using Multiset.induction with
  | empty => intro h; exact absurd rfl h
  | cons a m ih =>
      intro _
      by_cases hm : m = 0
      · subst hm; simpa using RSum.single (u := κ) a
      · rw [← Multiset.singleton_add, Multiset.sum_add, Multiset.sum_singleton]
        refine .add (.single a) (ih hm) ?_
        rw [Rounded, sub_self, abs_zero]
        positivity

theorem rlogadd_exists {κ : ℝ} (h0 : 0 ≤ κ) (m : Multiset (Option ℝ)) : ∃ r, RLogAdd κ m r ∧ ((∃ y, some y ∈ m) → ∃ y, r = some y) := by
  induction m using Multiset.induction with
  | empty => exact ⟨none, .start, by simp⟩
  | cons a m ih =>
      obtain ⟨r, h1, h2⟩ := ih
      rw [← Multiset.singleton_add]
      cases a with
      | none => exact ⟨r, .left (.single none) h1, fun ⟨y, hy⟩ => h2 ⟨y, by simpa using hy⟩⟩
      | some a =>
          cases r with
          | none => exact ⟨some a, .right (.single _) h1, fun _ => ⟨_, rfl⟩⟩
          | some b => exact ⟨some _, .add (.single _) h1 (near_self h0 _), fun _ => ⟨_, rfl⟩⟩

theorem greatest_exists {ι : Type} (S : Finset ι) (f : ι → Option ℝ) (h : ∃ i ∈ S, ∃ y, f i = some y) : ∃ m, IsGreatest {y | ∃ i ∈ S, f i = some y} m := by
  have hfin : {y | ∃ i ∈ S, f i = some y}.Finite := by
    refine (S.finite_toSet.image fun i => (f i).getD 0).subset ?_
    rintro y ⟨i, hi, hy⟩
    exact ⟨i, hi, by simp [hy]⟩
  obtain ⟨i, hi, y, hy⟩ := h
  obtain ⟨m, hm, hmax⟩ := hfin.exists_maximalFor id _ ⟨y, i, hi, hy⟩
  exact ⟨m, hm, fun z hz => by
    rcases le_total z m with h | h
    · exact h
    · exact hmax hz h⟩

theorem shift_exists {κ τ : ℝ} (h0 : 0 ≤ κ) (hτ : 0 ≤ τ) (m : ℝ) (l : Option ℝ) : ∃ v, RShift κ τ m l v ∧ 0 ≤ v := by
  cases l with
  | none => exact ⟨0, rfl, le_rfl⟩
  | some a => exact ⟨Real.exp (a - m), ⟨a - m, near_self h0 _, rtiny_self h0 hτ (Real.exp_nonneg _)⟩, Real.exp_nonneg _⟩

theorem soft_exists {κ τ : ℝ} (h0 : 0 ≤ κ) (hτ : 0 ≤ τ) (m : ℝ) {ι : Type} [Fintype ι] [Nonempty ι] (l : ι → Option ℝ) : ∃ v s q, RSoft κ τ m l v s q ∧ ∀ x, 0 ≤ q x := by
  choose v h1 h2 using fun x => shift_exists h0 hτ m (l x)
  have hs : RSum κ (Finset.univ.val.map v) (∑ x, v x) := by
    refine rsum_exists h0 _ ?_
    simp [Finset.univ_nonempty.ne_empty]
  have hq : ∀ x, 0 ≤ v x / ∑ x, v x := fun x => div_nonneg (h2 x) (Finset.sum_nonneg fun y _ => h2 y)
  exact ⟨v, _, fun x => v x / ∑ x, v x, ⟨h1, hs, fun x => rtiny_self h0 hτ (hq x)⟩, hq⟩

/-- Every set of single results, with one combination of finite log-evidence and positive prior value, has a floating-point run of the averages. -/
theorem average_exists [Nonempty (Idx gs)] {κ τ : ℝ} (h0 : 0 ≤ κ) (hτ : 0 ≤ τ) (ε : ℝ) {n T : ℕ} (hT : 0 < T) (post : Fin n → ℕ → Idx gs → ℝ) (le : Fin n → Option ℝ) (hp : Fin n → ℝ)
    (hk : ∃ k a, le k = some a ∧ hp k ≠ 0) : ∃ lg m v s q, RAverage κ τ ε n T post le hp lg m v s q := by
  have hterm : ∀ (i : Fin n) (t : ℕ) (x : Idx gs), ∃ r, RAvgTerm κ ε (post i t x) (hp i) (le i) r ∧ ((∃ a, le i = some a) → hp i ≠ 0 → ∃ y, r = some y) := by
    intro i t x
    cases hle : le i with
    | none => exact ⟨none, rfl, by simp⟩
    | some a =>
        by_cases h1 : hp i = 0
        · refine ⟨none, ?_, fun _ h => absurd h1 h⟩
          rw [RAvgTerm, if_pos h1]
        · refine ⟨some (Real.log (max ε (post i t x)) + a + Real.log (hp i)), ?_, fun _ _ => ⟨_, rfl⟩⟩
          rw [RAvgTerm, if_neg h1]
          exact ⟨_, _, _, _, near_self h0 _, near_self h0 _, near_self h0 _, near_self h0 _, rfl⟩
  choose term t1 t2 using hterm
  have hlg : ∀ (t : ℕ) (x : Idx gs), ∃ r, RLogAdd κ (Finset.univ.val.map fun i => term i t x) r ∧ ((∃ y, some y ∈ Finset.univ.val.map fun i => term i t x) → ∃ y, r = some y) := fun t x => rlogadd_exists h0 _
  choose lg l1 l2 using hlg
  obtain ⟨k, a, k1, k2⟩ := hk
  have hlgs : ∀ t x, ∃ y, lg t x = some y := by
    intro t x
    obtain ⟨y, hy⟩ := t2 k t x ⟨a, k1⟩ k2
    exact l2 t x ⟨y, Multiset.mem_map.2 ⟨k, Finset.mem_univ_val k, hy⟩⟩
  obtain ⟨x₀⟩ := ‹Nonempty (Idx gs)›
  obtain ⟨m, hm⟩ := greatest_exists (Finset.range T ×ˢ (Finset.univ : Finset (Idx gs))) (fun i => lg i.1 i.2) ⟨(0, x₀), by simp [hT], hlgs 0 x₀⟩
  have : Nonempty (Idx gs) := ⟨x₀⟩
  choose v s q hs using fun t => soft_exists (κ := κ) (τ := τ) h0 hτ m (lg t)
  refine ⟨lg, m, v, s, q, fun t _ x => ⟨_, fun i => t1 i t x, l1 t x⟩, ?_, fun t _ => (hs t).1⟩
  convert hm using 1
  ext y
  simp

theorem hyper_exists {κ τ : ℝ} (h0 : 0 ≤ κ) (hτ : 0 ≤ τ) {n : ℕ} (le : Fin n → Option ℝ) (hp : Fin n → ℝ) (lc : ℝ) {c : ℝ} (hc : 0 < c)
    (hk : ∃ k a, le k = some a ∧ hp k ≠ 0) : ∃ l m v s q D L, RHyper κ τ n le hp lc c l m v s q D L := by
  have hterm : ∀ i : Fin n, ∃ r, RLogHyper κ lc (hp i) (le i) r ∧ ((∃ a, le i = some a) → hp i ≠ 0 → ∃ y, r = some y) := by
    intro i
    cases hle : le i with
    | none => exact ⟨none, rfl, by simp⟩
    | some a =>
        by_cases h1 : hp i = 0
        · refine ⟨none, ?_, fun _ h => absurd h1 h⟩
          rw [RLogHyper, if_pos h1]
        · refine ⟨some (a + Real.log (hp i) + lc), ?_, fun _ _ => ⟨_, rfl⟩⟩
          rw [RLogHyper, if_neg h1]
          exact ⟨_, _, _, near_self h0 _, near_self h0 _, near_self h0 _, rfl⟩
  choose l l1 l2 using hterm
  obtain ⟨k, a, k1, k2⟩ := hk
  obtain ⟨m, hm⟩ := greatest_exists Finset.univ l ⟨k, Finset.mem_univ k, l2 k ⟨a, k1⟩ k2⟩
  have : Nonempty (Fin n) := ⟨k⟩
  obtain ⟨v, s, q, hs, hq⟩ := soft_exists h0 hτ m l
  refine ⟨l, m, v, s, q, fun i => q i / c, Real.log s + m, l1, ?_, hs, fun i => rtiny_self h0 hτ (div_nonneg (hq i) hc.le), v, s, _, hs.shift, hs.sum, near_self h0 _, near_self h0 _⟩
  simpa using hm

/-- The bounds of C108 for numbers with 53 bits (`κ = 2^-50`, underflow below `2^-1022`), up to 1000 combinations of hyper-parameters, 100000 grid points, logarithms up to 100000 and single results accurate
to `10^-9`: relative errors below `10^-6`. -/
theorem C108_size {n N : ℕ} {M : ℝ} (hn : n ≤ 1000) (hN : N ≤ 100000) (hM : M ≤ 100000) (hM0 : 0 ≤ M) :
    logAcc (1 / 2 ^ 50) (1 / 10 ^ 9) M n ≤ 1 / 4 ∧ Real.exp (quotAcc (1 / 2 ^ 50) (1 / 2 ^ 1022) (logAcc (1 / 2 ^ 50) (1 / 10 ^ 9) M n) N) - 1 ≤ 1 / 10 ^ 6 ∧
      Real.exp (quotAcc (1 / 2 ^ 50) (1 / 2 ^ 1022) (logAcc (1 / 2 ^ 50) (1 / 10 ^ 9) M n) n + 1 / 10 ^ 9 + 2 * (1 / 2 ^ 50)) - 1 ≤ 1 / 10 ^ 6 ∧
      sumAcc (1 / 2 ^ 50) (1 / 2 ^ 1022) (logAcc (1 / 2 ^ 50) (1 / 10 ^ 9) M n) n + 6 * (1 / 2 ^ 50) * M ≤ 1 / 10 ^ 6 := by
  have hn' : (n : ℝ) ≤ 1000 := by exact_mod_cast hn
  have hN' : (N : ℝ) ≤ 100000 := by exact_mod_cast hN
  have hτ : (1 : ℝ) / 2 ^ 1022 ≤ 1 / 2 ^ 100 := one_div_le_one_div_of_le (by positivity) (pow_le_pow_right₀ (by norm_num) (by norm_num))
  have hτ0 : (0 : ℝ) ≤ 1 / 2 ^ 1022 := by positivity
  obtain ⟨τ, hτd⟩ : ∃ τ : ℝ, τ = 1 / 2 ^ 1022 := ⟨_, rfl⟩
  rw [← hτd] at hτ hτ0 ⊢
  have hnM : (n : ℝ) * M ≤ 1000 * 100000 := mul_le_mul hn' hM hM0 (by norm_num)
  have hNτ : (N : ℝ) * τ ≤ 100000 * (1 / 2 ^ 100) := mul_le_mul hN' hτ hτ0 (by norm_num)
  have hnτ : (n : ℝ) * τ ≤ 1000 * (1 / 2 ^ 100) := mul_le_mul hn' hτ hτ0 (by norm_num)
  have hl : logAcc (1 / 2 ^ 50) (1 / 10 ^ 9) M n ≤ 2 / 10 ^ 7 := by
    have : logAcc (1 / 2 ^ 50) (1 / 10 ^ 9) M n = 3 / 10 ^ 9 + (2 * (n * M) + 10 * M) / 2 ^ 50 := by rw [logAcc]; ring
    rw [this]
    have : (2 * (n * M) + 10 * M) / 2 ^ 50 ≤ (2 * (1000 * 100000) + 10 * 100000) / 2 ^ 50 := by
      apply div_le_div_of_nonneg_right _ (by positivity)
      linarith
    norm_num at this ⊢
    linarith
  have hs : ∀ {N' : ℕ}, (N' : ℝ) ≤ 100000 → (N' : ℝ) * τ ≤ 100000 * (1 / 2 ^ 100) → sumAcc (1 / 2 ^ 50) τ (logAcc (1 / 2 ^ 50) (1 / 10 ^ 9) M n) N' ≤ 3 / 10 ^ 7 := by
    intro N' h1 h2
    rw [sumAcc]
    norm_num at h2 ⊢
    linarith
  have hq : ∀ {N' : ℕ}, (N' : ℝ) ≤ 100000 → (N' : ℝ) * τ ≤ 100000 * (1 / 2 ^ 100) → quotAcc (1 / 2 ^ 50) τ (logAcc (1 / 2 ^ 50) (1 / 10 ^ 9) M n) N' ≤ 6 / 10 ^ 7 := by
    intro N' h1 h2
    have := hs h1 h2
    rw [quotAcc]
    norm_num at this hl ⊢
    linarith
  have he : ∀ x : ℝ, x ≤ 7 / 10 ^ 7 → Real.exp x - 1 ≤ 1 / 10 ^ 6 := by
    intro x hx
    have h2 := Real.exp_bound' (x := 7 / 10 ^ 7) (by norm_num) (by norm_num) (n := 2) (by norm_num)
    refine (sub_le_sub_right ((Real.exp_le_exp.2 hx).trans h2) 1).trans ?_
    norm_num [Finset.sum_range_succ, Nat.factorial]
  have hn3 : (n : ℝ) ≤ 100000 := by linarith
  have hn4 : (n : ℝ) * τ ≤ 100000 * (1 / 2 ^ 100) := hnτ.trans (by norm_num)
  refine ⟨hl.trans (by norm_num), he _ ((hq hN' hNτ).trans (by norm_num)), he _ ?_, ?_⟩
  · have := hq hn3 hn4
    norm_num at this ⊢
    linarith
  · have := hs hn3 hn4
    norm_num at this ⊢
    linarith

/-- The hypotheses of `C108_partial` are met: white noise whose standard deviation follows one of two random walks, any data; the single results are exact, the averages are computed with rounding errors. -/
example (y : Fin 3 → ℝ) : ∃ (κ : ℝ) (R : HState ℝ Ex.gs3) (P : ℕ → Idx Ex.gs3 → ℝ) (q : ℕ → Idx Ex.gs3 → ℝ), 0 < κ ∧
    hyperFit ⟨Ex.realEnv, fun _ (i : Fin 3) => (i.val : ℝ) + 1, List.ofFn fun i x => normalDensity 0 ((x 0 : Fin 3).val + 1) (y i), List.ofFn ![0, 1, 2], true, false, 1 / 10 ^ 300⟩ 1 Ex.twoWalks = .ok (some R) ∧
    R.S.posts = (List.range 3).map (fun t => .val (P t)) ∧ ∀ t < 3, ∀ x, |q t x - P t x| ≤ (Real.exp (quotAcc κ (1 / 1000) (14 / 100) 3) - 1) * P t x + 16 * (1 / 1000) := by
  have := Ex.realEnv_regular.nonempty
  obtain ⟨I, hI⟩ : ∃ I : FitIn ℝ Ex.gs3, I = ⟨Ex.realEnv, fun _ (i : Fin 3) => (i.val : ℝ) + 1, List.ofFn fun i x => normalDensity 0 ((x 0 : Fin 3).val + 1) (y i), List.ofFn ![0, 1, 2], true, false, 1 / 10 ^ 300⟩ := ⟨_, rfl⟩
  rw [← hI]
  obtain ⟨g, hgdef⟩ : ∃ g : HyperGrid ℝ, g = ⟨[.array [1, 2]], ["sigma"], [[1], [2]], [1], some [1 / 2, 1 / 2]⟩ := ⟨_, rfl⟩
  have hrows : g.rows.length = 2 := by rw [hgdef]; rfl
  have hprod : g.hgc.prod = 1 := by rw [hgdef]; simp
  have hb : Built Ex.twoWalks.tm := .grw (name := "sigma") (value := .val (.array [1, 2])) (target := some "x") (prior := .item .none) rfl trivial rfl
  have hsp : " " ∉ (entries Ex.twoWalks.tm).map (·.1) := by simp [Ex.twoWalks, entries]
  have hax : Ex.realEnv.axis "x" = .ok 0 := by simp [Env.axis, Ex.realEnv, List.finRange_succ]
  have hlin : ∀ row ∈ g.rows, Linear Ex.realEnv (modelAt Ex.twoWalks.tm row) := by
    intro row hrow
    rw [hgdef] at hrow
    have : row = [1] ∨ row = [2] := by simpa using hrow
    rcases this with rfl | rfl
    · change Linear Ex.realEnv (.leaf (.grw "x") ["sigma"] [.scalar 1] (some (.item .none)))
      simp [Linear, hax]
    · change Linear Ex.realEnv (.leaf (.grw "x") ["sigma"] [.scalar 2] (some (.item .none)))
      simp [Linear, hax]
  have hpos : ∀ i x, 0 < normalDensity 0 (((x : Idx Ex.gs3) 0 : Fin 3).val + 1) (y i) := fun i x => by
    rw [normalDensity]
    positivity
  have hall : ∀ row ∈ g.rows, ∃ A, singleFit I Ex.twoWalks.tm Ex.twoWalks.S row = .ok A ∧ 0 < A.logEv.exp ∧ ∀ t x, 0 ≤ postOf A t x := by
    intro row hrow
    have hst := kernel_stoch (ρ := fun _ => 1 / (Fintype.card (Idx Ex.gs3) : ℝ)) Ex.realEnv_regular (hlin row hrow) (Ex.noise_valid _ (hlin row hrow)).resetCond
    obtain ⟨A, hA, hA2⟩ := C02_partial Ex.realEnv (fun _ (i : Fin 3) => (i.val : ℝ) + 1) _ Ex.realEnv_regular (hlin row hrow) (Or.inl (by simp [Ex.realEnv, Env.cell])) (FitState.init .none) _ .flat (Or.inl rfl)
      (fun i x => normalDensity 0 ((x 0 : Fin 3).val + 1) (y i)) (fun i x => (hpos i x).le) ![0, 1, 2] true false (Or.inr rfl)
    have hpos' : 0 < evidence (fun _ => 1 / (Fintype.card (Idx Ex.gs3) : ℝ)) (fun i : Fin 2 => kernel Ex.realEnv (fun _ => 1 / (Fintype.card (Idx Ex.gs3) : ℝ)) (modelAt Ex.twoWalks.tm row) ((![0, 1, 2] : Fin 3 → ℝ) i.castSucc))
        (fun (i : Fin 3) (x : Idx Ex.gs3) => normalDensity 0 ((x 0 : Fin 3).val + 1) (y i)) := ?_
    · obtain ⟨B, hB, hB2⟩ := C03_filtering Ex.realEnv (fun _ (i : Fin 3) => (i.val : ℝ) + 1) _ Ex.realEnv_regular (hlin row hrow) (FitState.init .none) _ .flat (Or.inr (Or.inl rfl))
        (fun i x => normalDensity 0 ((x 0 : Fin 3).val + 1) (y i)) (fun i x => (hpos i x).le) ![0, 1, 2] hpos'.ne'
      have hAB : A = B := by
        rw [hA] at hB
        exact Except.ok.inj hB
      refine ⟨A, by rw [hI]; exact hA, by rw [hA2]; exact hpos', fun t x => ?_⟩
      rw [hAB, postOf, hB2]
      by_cases ht : t < 3
      · rw [List.getElem?_eq_getElem (by simpa using ht)]
        simp only [List.getElem_ofFn]
        have hw : ∀ {n : ℕ} (T : Fin n → Idx Ex.gs3 → Idx Ex.gs3 → ℝ) (L : Fin (n + 1) → Idx Ex.gs3 → ℝ), (∀ i x y, 0 ≤ T i x y) → (∀ i x, 0 ≤ L i x) → ∀ z, 0 ≤ pathWeight (fun _ => 1 / (Fintype.card (Idx Ex.gs3) : ℝ)) T L z :=
          fun T L hT hL z => mul_nonneg (mul_nonneg (by positivity) (Finset.prod_nonneg fun i _ => hT _ _ _)) (Finset.prod_nonneg fun i _ => hL _ _)
        rw [filtering, posterior]
        refine div_nonneg (Finset.sum_nonneg fun z _ => ?_) (Finset.sum_nonneg fun z _ => hw _ _ (fun i => hst.nonneg _) (fun i x => (hpos _ x).le) _)
        first
        | exact hw _ _ (fun i => hst.nonneg _) (fun i x => (hpos _ x).le) _
        | split_ifs
          · exact hw _ _ (fun i => hst.nonneg _) (fun i x => (hpos _ x).le) _
          · exact le_rfl
      · rw [List.getElem?_eq_none (by simpa using ht)]
    refine evidence_pos (fun x => by positivity) ?_ (fun i => hst.nonneg _) (fun i => hst.sum _) hpos
    rw [Finset.sum_const, Finset.card_univ, nsmul_eq_mul, mul_one_div_cancel (Nat.cast_ne_zero.2 Fintype.card_ne_zero)]
    exact one_pos
  have hgI : createHyperGrid Ex.twoWalks.tm I.ts = .ok g := by rw [hgdef]; exact Ex.twoWalks_grid _
  have hps : g.priors = some [1 / 2, 1 / 2] := by rw [hgdef]
  obtain ⟨R, hR⟩ := hyperFit_ok I 1 Ex.twoWalks g [1 / 2, 1 / 2] hb hsp rfl hgI hps (by omega) (by rw [hgdef]; rfl) (by decide) fun row hrow => (hall row hrow).imp fun A h => h.1
  choose A hA1 hA2 hA3 using fun k : Fin g.rows.length => hall _ (List.getElem_mem k.isLt)
  have hAu : ∀ (k : Fin g.rows.length) B, singleFit I Ex.twoWalks.tm Ex.twoWalks.S g.rows[k] = .ok B → B = A k := fun k B hB => by
    have := hA1 k
    simp only [Fin.getElem_fin] at hB
    rw [hB] at this
    exact Except.ok.inj this
  have hRpos : R.S.logEv ≠ LogV.ninf := by
    obtain ⟨As, f1, f2, f3, f4⟩ := C29_partial I 1 Ex.twoWalks R g [1 / 2, 1 / 2] hb hsp rfl hgI hps (by omega) hR
    have hlA : As.length = 2 := by rw [← f1.length_eq, hrows]
    intro h0
    have h1 : R.S.logEv.exp = 0 := by rw [h0]; rfl
    rw [f4, sum_zip _ 2 As [1 / 2, 1 / 2] hlA rfl, Fin.sum_univ_two, hprod] at h1
    have hpos : ∀ k : Fin 2, 0 < (As[k.val]'(by rw [hlA]; exact k.isLt)).logEv.exp := by
      intro k
      have := hAu ⟨k.val, by rw [hrows]; exact k.isLt⟩ _ (f1.getElem (k := k.val) (by rw [hrows]; exact k.isLt) (by rw [hlA]; exact k.isLt))
      rw [this]
      exact hA2 _
    have p0 := hpos 0
    have p1 := hpos 1
    simp at h1 p0 p1
    linarith
  obtain ⟨M, hMd⟩ : ∃ M, M = ∑ k, (2 + |Real.log I.ε| + |Real.log (A k).logEv.exp| + |Real.log (1 / 2)| + |Real.log g.hgc.prod| + Real.log g.rows.length) := ⟨_, rfl⟩
  have hlog0 : 0 ≤ Real.log (g.rows.length : ℝ) := Real.log_natCast_nonneg _
  have hMk : ∀ k, 2 + |Real.log I.ε| + |Real.log (A k).logEv.exp| + |Real.log (1 / 2)| + |Real.log g.hgc.prod| + Real.log g.rows.length ≤ M := by
    intro k
    rw [hMd]
    exact Finset.single_le_sum (f := fun k => 2 + |Real.log I.ε| + |Real.log (A k).logEv.exp| + |Real.log (1 / 2)| + |Real.log g.hgc.prod| + Real.log g.rows.length) (fun k _ => by positivity) (Finset.mem_univ k)
  have k0 : Fin g.rows.length := ⟨0, by omega⟩
  have hM0 : 2 + Real.log g.rows.length ≤ M := by
    have := hMk k0
    have := abs_nonneg (Real.log I.ε)
    have := abs_nonneg (Real.log (A k0).logEv.exp)
    have := abs_nonneg (Real.log (1 / 2))
    have := abs_nonneg (Real.log g.hgc.prod)
    linarith
  have hM2 : 2 ≤ M := by linarith
  have hcard : Fintype.card (Idx Ex.gs3) = 3 := by decide +kernel
  have hε : I.ε = 1 / 10 ^ 300 := by rw [hI]
  have hεN : ((3 : ℕ) : ℝ) * I.ε ≤ 1 := by
    have : (1 : ℝ) / 10 ^ 300 ≤ 1 / 10 ^ 1 := one_div_le_one_div_of_le (by norm_num) (pow_le_pow_right₀ (by norm_num) (by norm_num))
    rw [hε]
    push_cast
    linarith
  obtain ⟨κ, hκ⟩ : ∃ κ : ℝ, κ = 1 / (100 * M) := ⟨_, rfl⟩
  have hκ0 : 0 < κ := by rw [hκ]; positivity
  have hκM : κ * M = 1 / 100 := by rw [hκ]; field_simp
  have hκ1 : κ ≤ 1 / 200 := by nlinarith
  have hrl : (g.rows.length : ℝ) = 2 := by rw [hrows]; norm_num
  have hacc : logAcc κ 0 M g.rows.length = 14 / 100 := by rw [logAcc, hrl, mul_assoc, hκM]; norm_num
  have hac : ∀ k : Fin g.rows.length, ∃ (k' : Fin g.rows.length) (a : ℝ), (fun k => some (Real.log (A k).logEv.exp)) k' = some a ∧ (fun _ : Fin g.rows.length => (1 / 2 : ℝ)) k' ≠ 0 := fun k => ⟨k, _, rfl, by norm_num⟩
  obtain ⟨lg, m, v, s, q, hrun⟩ := average_exists (κ := κ) (τ := 1 / 1000) hκ0.le (by norm_num) I.ε (T := I.liks.length) (by rw [hI]; simp) (fun k => postOf (A k)) _ _ (hac k0)
  obtain ⟨l, m', w, s', p, D, Λ, hrun'⟩ := hyper_exists (κ := κ) (τ := 1 / 1000) hκ0.le (by norm_num) _ _ (Real.log g.hgc.prod) (c := g.hgc.prod) (by rw [hprod]; norm_num) (hac k0)
  have hpsk : ∀ (k : Fin g.rows.length) (p : ℝ), ([1 / 2, 1 / 2] : List ℝ)[k.val]? = some p → p = 1 / 2 := by
    intro k p hp
    have := List.mem_of_getElem? hp
    simpa using this
  obtain ⟨⟨P, p1, p2⟩, -⟩ := C108_partial I 1 Ex.twoWalks R g [1 / 2, 1 / 2] hb hsp rfl hgI hps (by omega) (by simp) hR hRpos (by rw [hI]) (by rw [hε]; positivity) this
    (by intro a; rw [hI]; simp [Ex.realEnv])
    (κ := κ) (τ := 1 / 1000) (η := 0) (M := M) (n := g.rows.length) (N := 3) rfl hcard.symm hκ0.le (by rw [hrl]; norm_num; linarith) (by norm_num) (by rw [hrl]; norm_num) le_rfl
    hεN (by rw [hacc]; norm_num) (post := fun k => postOf (A k)) (hp := fun _ => 1 / 2) (le := fun k => some (Real.log (A k).logEv.exp)) (lc := Real.log g.hgc.prod) (c' := g.hgc.prod)
    (fun k B hB => by
      rw [hAu k B hB]
      exact ⟨Or.inr ⟨_, rfl, hA2 k, by simp⟩, fun _ t _ x => ⟨hA3 k t x, by simp⟩⟩)
    (fun k p hp => by rw [hpsk k p hp]; exact Or.inr ⟨by norm_num, by norm_num, by simp⟩) (by simp) (by rw [hprod]; norm_num) (by simp) hM0
    (fun k B p hB hp _ _ => by rw [hAu k B hB, hpsk k p hp]; exact hMk k) hrun hrun'
  have h3 : I.liks.length = 3 := by rw [hI]; simp
  rw [h3] at p1 p2
  refine ⟨κ, R, P, q, hκ0, hR, p1, fun t ht x => ?_⟩
  have := (p2 t ht).2.2.2.1 x
  rwa [hacc] at this

theorem rounded_self {u a : ℝ} (hu : 0 ≤ u) : Rounded u a a := by
  rw [Rounded, sub_self, abs_zero]; positivity

/-- A forward-only fit of one elementary model has a floating-point run (the exact one), whatever the accuracy. -/
theorem rfwd_exists {E : Env ℝ gs} (hE : Regular E) {k : Leaf ℝ} {ns : List String} {vs : List (HVal ℝ)} {pr : Option (Nest (HPrior ℝ))} (hL : Linear E (.leaf k ns vs pr)) (hR : ResetFree (.leaf k ns vs pr)) :
    ∀ (liks : List (Idx gs → ℝ)) (ts : List ℝ), ts.length = liks.length → (∀ L ∈ liks, ∀ x, 0 ≤ L x) → ∀ a : Idx gs → ℝ, (∀ x, 0 ≤ a x) →
    ∃ ss st, ∀ u, 0 ≤ u → RFwd E (.leaf k ns vs pr) u 0 a liks ts ss st
  | [], ts, _, _, a, _ => ⟨[], false, fun u _ => .done a ts⟩
  | L :: Ls, [], h, _, _, _ => by simp at h
  | L :: Ls, t :: ts, h, hLs, a, ha => by
      have hne := hE.nonempty
      have hs : ∀ u : ℝ, 0 ≤ u → RSumGrid u (fun x => a x * L x) (∑ x, a x * L x) := fun u hu => rsum_exists hu _ (by simp [Finset.univ_nonempty.ne_empty])
      by_cases h0 : 0 < ∑ x, a x * L x
      · have hα : ∀ x, 0 ≤ a x * L x / ∑ x, a x * L x := fun x => div_nonneg (mul_nonneg (ha x) (hLs _ (by simp) x)) h0.le
        have hsum : ∑ x, a x * L x / ∑ x, a x * L x = 1 := by rw [← Finset.sum_div, div_self h0.ne']
        have hf := fwd_linear (R := 0) (ρ := fun _ => 0) hE.lattice_pos hE.gauss _ hL (Or.inl hR) 0 (fun x => a x * L x / ∑ x, a x * L x) t 1 hsum one_pos
        have hm : massOut E 0 (.leaf k ns vs pr) t 1 = 1 := by cases k <;> simp_all [massOut, ResetFree]
        rw [TM.fwd, hm] at hf
        obtain ⟨ss, st, hr⟩ := rfwd_exists hE hL hR Ls ts (by simpa using h) (fun L hl => hLs L (by simp [hl])) (push (kernel E (fun _ => 0) (.leaf k ns vs pr) t) fun x => a x * L x / ∑ x, a x * L x)
          fun y => Finset.sum_nonneg fun x _ => by
            have := kernel_nonneg hE.gauss (.leaf k ns vs pr) (Or.inl hR) (ρ := fun _ => 0) t
            first | exact mul_nonneg (hα x) (this x y) | exact mul_nonneg (this x y) (hα x)
        refine ⟨_, st, fun u hu => .step (fun x => rounded_self hu) (hs u hu) h0 (fun x => rounded_self hu) ⟨_, hf, fun x => ?_⟩ (hr u hu)⟩
        have hk : 0 ≤ push (kernel E (fun _ => 0) (.leaf k ns vs pr) t) (fun x => a x * L x / ∑ x, a x * L x) x := Finset.sum_nonneg fun y _ => by
            have := kernel_nonneg hE.gauss (.leaf k ns vs pr) (Or.inl hR) (ρ := fun _ => 0) t
            first | exact mul_nonneg (hα y) (this y x) | exact mul_nonneg (this y x) (hα y)
        have e : (1 : ℝ) / 1 * push (kernel E (fun _ => 0) (.leaf k ns vs pr) t) (fun x => a x * L x / ∑ x, a x * L x) x = push (kernel E (fun _ => 0) (.leaf k ns vs pr) t) (fun x => a x * L x / ∑ x, a x * L x) x := by ring
        rw [e]
        exact ⟨hk, hk, by simp, by simp⟩
      · exact ⟨[], true, fun u hu => .stop (fun x => rounded_self hu) (hs u hu) h0⟩

theorem rstudy_exists {E : Env ℝ gs} (hE : Regular E) {k : Leaf ℝ} {ns : List String} {vs : List (HVal ℝ)} {pr : Option (Nest (HPrior ℝ))} (hL : Linear E (.leaf k ns vs pr)) (hR : ResetFree (.leaf k ns vs pr))
    {liks : List (Idx gs → ℝ)} {ts : List ℝ} (hT : ts.length = liks.length) (hl : ∀ L ∈ liks, ∀ x, 0 ≤ L x) {a : Idx gs → ℝ} (ha : ∀ x, 0 ≤ a x) (c : ℝ) :
    ∃ post norms le, ∀ u, 0 ≤ u → RStudy E (.leaf k ns vs pr) u 0 a liks ts true c post norms le := by
  obtain ⟨ss, st, h⟩ := rfwd_exists hE hL hR liks ts hT hl a ha
  cases st with
  | true => exact ⟨fun _ _ => 0, [], none, fun u hu => .stop (h u hu)⟩
  | false =>
      refine ⟨fun t => ((ss.map Step.alpha)[t]?).getD fun _ => 0, ss.map Step.norm, some (((ss.map Step.norm ++ [c]).map Real.log : List ℝ) : Multiset ℝ).sum, fun u hu =>
        .run (posts := ss.map Step.alpha) ⟨ss, h u hu, rfl, rfl⟩ ⟨(ss.map Step.norm ++ [c]).map Real.log, ?_, rsum_exists hu _ (by simp)⟩ fun t p hp => by rw [hp]; rfl⟩
      rw [List.forall₂_map_right_iff]
      exact List.forall₂_same.2 fun x _ => rounded_self hu

/-- The hypotheses of `C108_singles_partial` are met: white noise whose standard deviation follows one of two random walks, any data; runs of the single fits with relative errors up to `1/1000`. -/
example (y : Fin 3 → ℝ) : ∃ (η : ℝ) (post : Fin 2 → ℕ → Idx Ex.gs3 → ℝ) (le : Fin 2 → Option ℝ), ∀ (k : Fin 2) (A : FitState ℝ Ex.gs3),
    singleFit ⟨Ex.realEnv, fun _ (i : Fin 3) => (i.val : ℝ) + 1, List.ofFn fun i x => normalDensity 0 ((x 0 : Fin 3).val + 1) (y i), List.ofFn ![0, 1, 2], true, false, 1 / 10 ^ 300⟩ Ex.twoWalks.tm Ex.twoWalks.S
      [if k = 0 then 1 else 2] = .ok A → EvApprox η A.logEv.exp (le k) ∧
      (A.logEv ≠ LogV.ninf → ∀ t < 3, ∀ x, 0 ≤ postOf A t x ∧ post k t x ≤ Real.exp η * postOf A t x ∧ postOf A t x ≤ Real.exp η * post k t x) := by
  have := Ex.realEnv_regular.nonempty
  obtain ⟨I, hI⟩ : ∃ I : FitIn ℝ Ex.gs3, I = ⟨Ex.realEnv, fun _ (i : Fin 3) => (i.val : ℝ) + 1, List.ofFn fun i x => normalDensity 0 ((x 0 : Fin 3).val + 1) (y i), List.ofFn ![0, 1, 2], true, false, 1 / 10 ^ 300⟩ := ⟨_, rfl⟩
  rw [← hI]
  obtain ⟨g, hgdef⟩ : ∃ g : HyperGrid ℝ, g = ⟨[.array [1, 2]], ["sigma"], [[1], [2]], [1], some [1 / 2, 1 / 2]⟩ := ⟨_, rfl⟩
  have hIE : I.E = Ex.realEnv := by rw [hI]
  have hax : Ex.realEnv.axis "x" = .ok 0 := by simp [Env.axis, Ex.realEnv, List.finRange_succ]
  have hmod : ∀ v : ℝ, modelAt Ex.twoWalks.tm [v] = .leaf (.grw "x") ["sigma"] [.scalar v] (some (.item .none)) := fun v => rfl
  have hlin : ∀ v : ℝ, Linear Ex.realEnv (.leaf (.grw "x") ["sigma"] [.scalar v] (some (.item .none))) := fun v => by simp [Linear, hax]
  have hfree : ∀ v : ℝ, ResetFree (.leaf (.grw "x") ["sigma"] [.scalar v] (some (.item .none)) : TM ℝ) := fun v => by simp [ResetFree]
  have hL0 : ∀ L ∈ I.liks, ∀ x, 0 ≤ L x := by
    intro L hL x
    rw [hI, List.mem_ofFn] at hL
    obtain ⟨i, rfl⟩ := hL
    exact (normal_isDensity (by positivity) _).nonneg _
  have hlen : I.ts.length = I.liks.length := by rw [hI]; simp
  have h3 : I.liks.length = 3 := by rw [hI]; simp
  choose post norms le hrun using fun k : Fin 2 => rstudy_exists (E := Ex.realEnv) Ex.realEnv_regular (hlin (if k = 0 then 1 else 2)) (hfree _) hlen hL0 (a := fun _ => 1 / (Fintype.card (Idx Ex.gs3) : ℝ)) (fun x => by positivity) 1
  obtain ⟨N, hN⟩ : ∃ N, N = roundings 3 3 1 0 0 0 := ⟨_, rfl⟩
  have hN' : N ≤ 100 := by rw [hN]; decide
  have hcard : Fintype.card (Idx Ex.gs3) = 3 := by decide +kernel
  obtain ⟨η, hη⟩ : ∃ η : ℝ, ∀ k, N * ((1 / 1000 : ℝ) / (1 - 1 / 1000)) + gam (3 + 1) (1 / 1000) * (((norms k).map fun n => |Real.log n|).sum + |Real.log (1 : ℝ)|) ≤ η := by
    refine ⟨max (N * ((1 / 1000 : ℝ) / (1 - 1 / 1000)) + gam (3 + 1) (1 / 1000) * (((norms 0).map fun n => |Real.log n|).sum + |Real.log (1 : ℝ)|))
      (N * ((1 / 1000 : ℝ) / (1 - 1 / 1000)) + gam (3 + 1) (1 / 1000) * (((norms 1).map fun n => |Real.log n|).sum + |Real.log (1 : ℝ)|)), fun k => ?_⟩
    have : k = 0 ∨ k = 1 := by fin_cases k <;> simp
    rcases this with rfl | rfl
    · exact le_max_left _ _
    · exact le_max_right _ _
  have hrk : ∀ k : Fin 2, g.rows[k.val]'(by rw [hgdef]; exact k.isLt) = [if k = 0 then 1 else 2] := by
    intro k
    subst hgdef
    fin_cases k <;> simp
  refine ⟨η, post, le, fun k A hA => ?_⟩
  have hres := C108_singles_partial I Ex.twoWalks g (by rw [hIE]; exact Ex.realEnv_regular) (by rw [hI]) (π := fun _ => 1 / (Fintype.card (Idx Ex.gs3) : ℝ)) (by rw [hIE]; exact .flat)
    (fun row hrow => by
      rw [hgdef] at hrow
      have : row = [1] ∨ row = [2] := by simpa using hrow
      rw [hIE]
      rcases this with rfl | rfl <;> rw [hmod] <;> exact hlin _)
    (Or.inl fun row hrow => by
      rw [hgdef] at hrow
      have : row = [1] ∨ row = [2] := by simpa using hrow
      rcases this with rfl | rfl <;> rw [hmod] <;> exact hfree _) (Or.inl (by rw [hI])) (u := 1 / 1000) (eP := 0) (eL := 0) (e := 0) (by norm_num) (a' := fun _ => 1 / (Fintype.card (Idx Ex.gs3) : ℝ))
    (fun x => by
      rw [hIE]
      have : Ex.realEnv.cell = 1 := by simp [Ex.realEnv, Env.cell]
      rw [this, div_one]
      refine ⟨by positivity, by positivity, by simp, by simp⟩) (cE := 1)
    (by
      rw [hIE]
      have : Ex.realEnv.cell = 1 := by simp [Ex.realEnv, Env.cell]
      rw [this]
      constructor <;> norm_num) (liks' := I.liks) (List.forall₂_same.2 fun L hL x => ⟨hL0 L hL x, hL0 L hL x, by simp, by simp⟩) (n := 2) (by rw [hgdef]; rfl) (post := post) (norms := norms) (le := le)
    (fun k => by
      simp only [Fin.getElem_fin]
      rw [hrk k, hmod, hIE, hI]
      rw [hI] at hrun
      exact hrun k (1 / 1000) (by norm_num)) (N := N)
    (fun k => by
      simp only [Fin.getElem_fin]
      rw [hrk k, hmod, h3, hcard, hN]
      exact le_of_eq rfl) (by
      have : (N : ℝ) ≤ 100 := by exact_mod_cast hN'
      linarith) (η := η) (by rw [h3]; exact hη) k A
    (by
      simp only [Fin.getElem_fin]
      rw [hrk k]
      exact hA)
  rw [h3] at hres
  exact hres

end Props
