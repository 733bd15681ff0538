import Verif.Props.C108
import Verif.Props.C110
import Verif.Lemmas.RoundingOnline

/-! # C109: rounding errors of online studies -/

set_option linter.unusedSectionVars false

namespace Spec
open BL
variable {d : ℕ} {gs : Fin d → ℕ}

/-- Computed log-evidence `le` and posterior `post` of one hypothesis are accurate to `η`: the exact ones `h` exist, the evidence is not zero, the error of the log-evidence is at most `η` and posterior
values differ at most by the factor `exp η`. -/
def HypApprox (η : ℝ) (h : OHyp ℝ gs) (le : ℝ) (post : Idx gs → ℝ) : Prop :=
  ∃ p l, h = ⟨some p, some l⟩ ∧ 0 < l.exp ∧ |le - Real.log l.exp| ≤ η ∧ ∀ x, 0 ≤ p x ∧ post x ≤ Real.exp η * p x ∧ p x ≤ Real.exp η * post x

end Spec

namespace Props
open BL Spec

variable {D : Type} {d : ℕ} {gs : Fin d → ℕ}

/-! ## one hypothesis -/

/-- one update of the exact and of the rounded run -/
theorem absorb_acc {u : ℝ} (hu : 0 ≤ u) (hu1 : u < 1) {N eL : ℕ} {Z Z' : ℝ} (hZ : 0 < Z) (hZ' : 0 < Z') {b b' L L' post' : Idx gs → ℝ} {norm : ℝ} (hb : ∀ x, Acc u N (Z * b x) (Z' * b' x))
    (hL : ∀ x, Acc u eL (L x) (L' x)) (h : ROAbsorb u b' L' norm post') (o : OHyp ℝ gs) {l : LogV ℝ} (ho : o.ev = some l) :
    0 < norm ∧ ∃ (p : Idx gs → ℝ) (n : ℝ), o.absorb L (some b) = ⟨some p, some (l + LogV.log n)⟩ ∧ 0 < n ∧ Acc u (N + (eL + 2 + Fintype.card (Idx gs))) (Z * n) (Z' * norm) ∧
      ∀ x, Acc u (N + (eL + 2 + Fintype.card (Idx gs))) (Z * n * p x) (Z' * norm * post' x) := by
  obtain ⟨α, h1, h2, h3, h4⟩ := h
  obtain ⟨-, k2, k3⟩ := step_acc (b' := post') hu hu1 hZ hZ' hb hL h1 h2
  have hp : 0 < ∑ x, b x * L x := pos_of_mul_pos_right (k2.symm.pos hu1 (mul_pos hZ' h3)) hZ.le
  refine ⟨h3, fun x => b x * L x / ∑ x, b x * L x, ∑ x, b x * L x, ?_, hp, k2.mono hu hu1 (by omega), fun x => ?_⟩
  · simp only [OHyp.absorb, divScalar, if_neg hp.ne', if_neg (not_lt.2 hp.le), ho, Option.map_some]
  · have := k3 h3 h4 x
    rw [mul_assoc Z, mul_div_cancel₀ _ hp.ne']
    exact this.mono hu hu1 (by omega)

/-- all updates of one hypothesis -/
theorem rohyp_acc {E E' : Env ℝ gs} (hE : Twin E E') {tm : TM ℝ} (hL : Linear E tm) (hR : ResetFree tm ∨ E'.prior = E.prior ∧ ∃ r, E.resetArr = some r) {u : ℝ} (hu : 0 ≤ u) (hu1 : u < 1) {eP eL e : ℕ} {a a' : Idx gs → ℝ}
    (ha : ∀ x, Acc u eP (a x) (a' x)) {c' : ℝ} {Ls' : List (Idx gs → ℝ)} {post' : Idx gs → ℝ} {norms : List ℝ} {le' : ℝ} (h' : ROHyp E' tm u e a' c' Ls' post' norms le') :
    ∀ {Ls : List (Idx gs → ℝ)}, List.Forall₂ (fun L L' => ∀ x, Acc u eL (L x) (L' x)) Ls Ls' → ∀ {h : OHyp ℝ gs}, chain E tm (some (some a)) (OHyp.start E) Ls = .ok h →
      Ls ≠ [] ∧ norms.length = Ls.length ∧ 0 < norms.prod ∧ ∃ (p : Idx gs → ℝ) (l : LogV ℝ) (Z : ℝ), h = ⟨some p, some l⟩ ∧ l.exp = E.cell * Z ∧ 0 < Z ∧
        Acc u (eP + Ls.length * (eL + 2 + Fintype.card (Idx gs) + elements tm * e)) Z norms.prod ∧
        ∀ x, Acc u (eP + Ls.length * (eL + 2 + Fintype.card (Idx gs) + elements tm * e)) (Z * p x) (norms.prod * post' x) := by
  induction h' with
  | @first L' post' norm lc ln le h1 _ _ _ =>
      intro Ls hLs h hc
      obtain ⟨L, Ls, hL1, hL2, rfl⟩ := List.forall₂_cons_right_iff.1 hLs
      cases hL2
      simp only [chain, bind, Except.bind, OHyp.update, predictive, Except.map, Except.ok.injEq] at hc
      obtain ⟨k1, p, n, k2, k3, k4, k5⟩ := absorb_acc hu hu1 one_pos one_pos (by simpa only [one_mul] using ha) hL1 h1 (OHyp.start E) (l := LogV.log E.cell) rfl
      simp only [one_mul] at k4 k5
      refine ⟨by simp, rfl, by simpa using k1, p, _, n, by rw [← hc, k2], by simp, k3, ?_, fun x => ?_⟩
      · simpa using k4.mono hu hu1 (M := eP + (eL + 2 + Fintype.card (Idx gs) + elements tm * e)) (by omega)
      · simpa using (k5 x).mono hu hu1 (M := eP + (eL + 2 + Fintype.card (Idx gs) + elements tm * e)) (by omega)
  | @next Ms' L' post b' post' norms norm ln le le' _ h2 h3 _ _ ih =>
      intro Ls hLs h hc
      have f1 := List.forall₂_take_append _ _ _ hLs
      have f2 := List.forall₂_drop_append _ _ _ hLs
      obtain ⟨Ms, hMs⟩ : ∃ Ms, Ms = Ls.take Ms'.length := ⟨_, rfl⟩
      obtain ⟨L, Ls2, hL1, hL2, hL3⟩ := List.forall₂_cons_right_iff.1 f2
      cases hL2
      have hsplit : Ls = Ms ++ [L] := by rw [hMs, ← hL3, List.take_append_drop]
      rw [← hMs] at f1
      rw [hsplit, chain_snoc] at hc
      cases hch : chain E tm (some (some a)) (OHyp.start E) Ms with
      | error _ => rw [hch] at hc; cases hc
      | ok h₁ =>
        rw [hch] at hc
        obtain ⟨g1, g2, g3, p, l, Z, rfl, g4, g5, g6, g7⟩ := ih f1 hch
        simp only [Except.bind, if_neg g1, OHyp.update, predictive] at hc
        cases hf : tm.fwd E 0 (some p) (-1) with
        | error _ => rw [hf] at hc; cases hc
        | ok q =>
          rw [hf] at hc
          obtain ⟨b, rfl, hq⟩ := fwd_passes hE hu hu1 e tm hL hR 0 (-1) p post b' q hf h2
          have hb := passes_norm hu hu1 g5 g3 hq g6 g7
          simp only [Except.map, Except.ok.injEq] at hc
          obtain ⟨k1, p', n, k2, k3, k4, k5⟩ := absorb_acc hu hu1 g5 g3 hb hL1 h3 ⟨some p, some l⟩ (l := l) rfl
          have hlen : eP + Ls.length * (eL + 2 + Fintype.card (Idx gs) + elements tm * e) =
              eP + Ms.length * (eL + 2 + Fintype.card (Idx gs) + elements tm * e) + elements tm * e + (eL + 2 + Fintype.card (Idx gs)) := by
            rw [hsplit, List.length_append, List.length_singleton]; ring
          refine ⟨by rw [hsplit]; simp, by rw [hsplit]; simp [g2], by rw [List.prod_append]; simpa using mul_pos g3 k1, p', _, Z * n, by rw [← hc, k2], ?_, mul_pos g5 k3, ?_, fun x => ?_⟩
          · simp [g4, mul_assoc]
          · rw [hlen, List.prod_append, List.prod_singleton]; exact k4
          · rw [hlen, List.prod_append, List.prod_singleton]; exact k5 x

/-- the entry of `logEvidenceList` is a sum of logarithms -/
theorem rohyp_log {E : Env ℝ gs} {tm : TM ℝ} {u : ℝ} {e : ℕ} {a' : Idx gs → ℝ} {c' : ℝ} {Ls' : List (Idx gs → ℝ)} {post' : Idx gs → ℝ} {norms : List ℝ} {le' : ℝ} (h' : ROHyp E tm u e a' c' Ls' post' norms le') :
    RLogEv Real.log u norms c' le' := by
  have key : ∃ (lns : List ℝ) (lc : ℝ), List.Forall₂ (fun n x => Rounded u (Real.log n) x) norms lns ∧ Rounded u (Real.log c') lc ∧ RSum u ↑(lns ++ [lc]) le' := by
    induction h' with
    | @first L' post' norm lc ln le h1 h2 h3 h4 =>
        refine ⟨[ln], lc, .cons h3 .nil, h2, ?_⟩
        have := RSum.add (RSum.single lc) (RSum.single ln) h4
        rw [add_comm] at this
        exact this
    | @next Ms' L' post b' post' norms norm ln le le' _ _ _ h4 h5 ih =>
        obtain ⟨lns, lc, i1, i2, i3⟩ := ih
        refine ⟨lns ++ [ln], lc, ?_, i2, ?_⟩
        · exact List.rel_append i1 (.cons h4 .nil)
        · have := RSum.add i3 (RSum.single ln) h5
          have e : ((lns ++ [lc] : List ℝ) : Multiset ℝ) + {ln} = ((lns ++ [ln] ++ [lc] : List ℝ) : Multiset ℝ) := by
            rw [← Multiset.coe_singleton, Multiset.coe_add, Multiset.coe_eq_coe, List.append_assoc, List.append_assoc]
            exact List.Perm.append_left lns (List.Perm.swap _ _ _)
          rwa [e] at this
  obtain ⟨lns, lc, k1, k2, k3⟩ := key
  exact ⟨_, List.rel_append k1 (.cons k2 .nil), k3⟩

/-! ## one transition model -/

/-- **C109 (one transition model).** Results of one transition model after a step: if log-evidences, posteriors and prior values of its hypotheses have errors of at most `η` (on a logarithmic scale), then the
distribution of the hyper-parameters, the log-evidence and the posterior of the model computed from them have the stated errors. -/
theorem finished_close {m : OModelSt ℝ gs} (hf : Finished m) (hc : 0 < m.grid.hgc.prod) {κ τ η M : ℝ} {n : ℕ} (hn : n = m.hyps.length) (h0 : 0 ≤ κ) (hκ : κ ≤ 1 / 10) (hκn : κ * n ≤ 1 / 16)
    (hτ : 0 ≤ τ) (hτn : n * τ ≤ 1 / 64) (hη : 0 ≤ η) (hΔ : logAcc κ η M n ≤ 1 / 4) (hlogM : 2 + Real.log n ≤ M) {le hp : Fin n → ℝ} {post : Fin n → Idx gs → ℝ}
    (hhyp : ∀ (j : Fin n) h, m.hyps[j.val]? = some h → HypApprox η h (le j) (post j)) (hhp : ∀ (j : Fin n) ps p, m.grid.priors = some ps → ps[j.val]? = some p → ValApprox η p (hp j))
    (hM : ∀ (j : Fin n) h l ps p, m.hyps[j.val]? = some h → h.ev = some l → m.grid.priors = some ps → ps[j.val]? = some p → p ≠ 0 → 2 + |Real.log l.exp| + |Real.log p| ≤ M)
    {c' : ℝ} (hc' : 0 < c') (hcc : |Real.log c' - Real.log m.grid.hgc.prod| ≤ η) {D : Fin n → ℝ} {L : ℝ} {Q : Idx gs → ℝ} (hrun : ROModel κ τ le hp post c' D L Q) :
    ∃ D₀ l Q₀, m.hpd = some D₀ ∧ m.hyperEv = some l ∧ m.post = some Q₀ ∧ D₀.length = n ∧ 0 < l.exp ∧ (∀ x, 0 ≤ Q₀ x ∧ Q₀ x ≤ 1) ∧
      (∀ (j : Fin n) x, D₀[j.val]? = some x → Off (quotAcc κ τ (logAcc κ η M n) n + η + 2 * κ) ((20 / m.grid.hgc.prod + 1) * τ) x (D j)) ∧
      |L - Real.log l.exp| ≤ sumAcc κ τ (logAcc κ η M n) n + 6 * κ * M ∧
      ∀ x, 0 ≤ Q x ∧ Off (quotAcc κ τ (logAcc κ η M n) n + 3 * η + 4 * κ + 2 * κ * n) (n * (68 + 6 * m.grid.hgc.prod) * τ) (Q₀ x) (Q x) := by
  subst hn
  have hj : ∀ j : Fin m.hyps.length, m.hyps[j.val]? = some m.hyps[j] := fun j => by simp
  choose P lv k1 k2 k3 k4 using fun j => hhyp j _ (hj j)
  obtain ⟨pr, p1, p2, p3, p4⟩ := hf.exact k1 hc.ne'
  have hpj : ∀ j : Fin m.hyps.length, (List.ofFn pr)[j.val]? = some (pr j) := fun j => by simp
  have hP1 : ∀ j, ∑ x, P j x = 1 := fun j => hf.posts m.hyps[j] (List.getElem_mem _) _ (by rw [k1 j])
  have hP : ∀ j x, 0 ≤ P j x ∧ P j x ≤ 1 := fun j x => ⟨(k4 j x).1, (hP1 j).symm ▸ Finset.single_le_sum (fun y _ => (k4 j y).1) (Finset.mem_univ x)⟩
  have hM2 : 2 ≤ M := by linarith [Real.log_natCast_nonneg m.hyps.length]
  obtain ⟨g1, g2, g3, g4⟩ := model_close (M := M) h0 hκn hκ hτ hτn hη hM2 hΔ k2 k3 (fun j => hhp j _ _ p1 (hpj j)) hlogM
    (fun j hj0 => hM j _ _ _ _ (hj j) (by rw [k1 j]) p1 (hpj j) hj0) hc hc' hcc hP (fun j x => (k4 j x).2) hrun
  obtain ⟨p5, p6⟩ := p4 g1
  have hw0 : ∀ j, 0 ≤ (lv j).exp * pr j / ∑ j, (lv j).exp * pr j := fun j => div_nonneg (mul_nonneg (k2 j).le (p2 j)) g1.le
  have hw1 : ∑ j, (lv j).exp * pr j / ∑ j, (lv j).exp * pr j = 1 := by rw [← Finset.sum_div, div_self g1.ne']
  refine ⟨_, _, _, p5, p3, p6, by simp, g1, fun x => ⟨Finset.sum_nonneg fun j _ => mul_nonneg (hw0 j) (hP j x).1, ?_⟩, fun j x hx => ?_, g3, g4⟩
  · rw [← hw1]
    exact Finset.sum_le_sum fun j _ => mul_le_of_le_one_right (hw0 j) (hP j x).2
  · have : x = (lv j).exp * pr j / (∑ j, (lv j).exp * pr j) / m.grid.hgc.prod := by
      rw [List.getElem?_ofFn] at hx
      simpa using hx.symm
    rw [this]
    exact g2 j

/-! ## the whole study -/

/-- A hypothesis of an online study, updated with rounding errors, is accurate; its exact evidence is positive. -/
theorem hyp_close {E : Env ℝ gs} (hE : Regular E) {tm : TM ℝ} (hL : Linear E tm) {prior pr : PriorSpec ℝ gs} {π : Idx gs → ℝ} (hp : PriorMass E.cell prior π)
    (hR : ResetFree tm ∨ prior.isArray = false ∧ ∃ r, ({ E with prior := prior } : Env ℝ gs).resetArr = some r) {a0 : Arr ℝ gs} (hcp : computePrior { E with prior := prior } = .ok (a0, pr))
    {u : ℝ} (hu : 0 ≤ u) {eP eL e : ℕ} {a' : Idx gs → ℝ} (ha : ∀ x, Acc u eP (π x / E.cell) (a' x)) {c' : ℝ} (hc' : Acc u eP E.cell c')
    {Ls Ls' : List (Idx gs → ℝ)} (hl : List.Forall₂ (fun L L' => ∀ x, Acc u eL (L x) (L' x)) Ls Ls') {h : OHyp ℝ gs} (hch : chain { E with prior := pr } tm (some a0) (OHyp.start { E with prior := pr }) Ls = .ok h)
    {post : Idx gs → ℝ} {norms : List ℝ} {le : ℝ} (h' : ROHyp { E with prior := prior } tm u e a' c' Ls' post norms le)
    {N : ℕ} (hN : roundings Ls.length (Fintype.card (Idx gs)) (elements tm) e eP eL ≤ N) (hNu : N * u < 1)
    {η : ℝ} (hη : N * (u / (1 - u)) + gam (Ls.length + 1) u * ((norms.map fun n => |Real.log n|).sum + |Real.log c'|) ≤ η) : HypApprox η h le post := by
  have hne := hE.nonempty
  have hcell : 0 < E.cell := cell_pos hE.lattice_pos
  have hk : eP + Ls.length * (eL + 2 + Fintype.card (Idx gs) + elements tm * e) + (eP + Ls.length * (eL + 2 + Fintype.card (Idx gs) + elements tm * e)) ≤ N := by
    refine le_trans ?_ hN
    rw [roundings, add_mul]
    omega
  have hT1 : Ls.length + 1 ≤ N := by
    refine le_trans ?_ hN
    rw [roundings]
    nlinarith [Nat.zero_le (Ls.length * eL), Nat.zero_le (Ls.length * Fintype.card (Idx gs)), Nat.zero_le (Ls.length * (elements tm * e)), Nat.zero_le (elements tm * e)]
  have hu1 : u < 1 := u_lt_one hu (N := N) (by omega) hNu
  obtain ⟨pr', h1, h2, h3⟩ := computePrior_mass (E := { E with prior := prior }) hcell hp
  rw [hcp, Except.ok.injEq, Prod.mk.injEq] at h1
  obtain ⟨rfl, rfl⟩ := h1
  obtain ⟨-, r2, r3, p, l, Z, rfl, r4, r5, r6, r7⟩ := rohyp_acc (E := { E with prior := pr }) (E' := { E with prior := prior }) ⟨hE.gauss, rfl, rfl, rfl⟩ (linear_prior pr tm hL)
    (hR.imp id fun ⟨q1, q2⟩ => by
      have := h3 q1
      simp only at this
      subst this
      exact ⟨rfl, q2⟩) hu hu1 (a := fun x => 1 / E.cell * π x) (a' := a') (fun x => by rw [one_div_mul_eq_div]; exact ha x) h' hl hch
  have r4' : l.exp = E.cell * Z := r4
  have hlog := log_acc hu (T := Ls.length) (ev := l.exp) (by rw [r4']; exact mul_pos hcell r5)
    (by
      rw [r4', mul_comm]
      exact (r6.mul hu1 hc').mono hu hu1 (by omega)) r2 hT1 hNu (rohyp_log h')
  have hG0 : 0 ≤ gam (Ls.length + 1) u * ((norms.map fun n => |Real.log n|).sum + |Real.log c'|) := by
    apply mul_nonneg
    · have : ((Ls.length + 1 : ℕ) : ℝ) * u < 1 := lt_of_le_of_lt (mul_le_mul_of_nonneg_right (by exact_mod_cast hT1) hu) hNu
      rw [gam]
      exact div_nonneg (by positivity) (by linarith)
    · apply add_nonneg _ (abs_nonneg _)
      refine List.sum_nonneg fun y hy => ?_
      obtain ⟨b, -, rfl⟩ := List.mem_map.1 hy
      exact abs_nonneg _
  refine ⟨p, l, rfl, by rw [r4']; exact mul_pos hcell r5, hlog.trans hη, fun x => ?_⟩
  have hx := (r7 x).div hu1 r6 r5 r3
  rw [mul_div_cancel_left₀ _ r5.ne', mul_div_cancel_left₀ _ r3.ne'] at hx
  have h4 := acc_log hu1 (hx.mono hu hu1 hk)
  have h5 : Real.exp (N * (u / (1 - u))) ≤ Real.exp η := Real.exp_le_exp.2 (by linarith)
  exact ⟨hx.left, h4.1.trans (mul_le_mul_of_nonneg_right h5 hx.left), h4.2.trans (mul_le_mul_of_nonneg_right h5 hx.right)⟩

/-- **C109 (averages over models).** Distribution of the models, posterior, mean values and log-evidence of the study, if the results of the single models have the errors `η` (log-evidences, prior
probabilities), `Ω` and `ϑ` (relative and absolute errors of the posteriors). -/
theorem C109_average {c : OConf ℝ D gs} (h1 : 1 ≤ c.seg) (hcell : 0 ≤ c.E.cell) {ms : List (String × TM ℝ)} (hg : GoodModels ms) (hnn : NonnegPriors ms) (hne : ms ≠ []) {store : Bool}
    {prior : PriorSpec ℝ gs} {p : Option (List ℝ)} {S S' : OState ℝ D gs} (hs : setup store prior ms p = .ok S) {xs : List D} (hr : runSteps c S xs = .ok S') (hx : c.seg ≤ xs.length)
    -- accuracy of the results of the models
    {κ τ η M Ω ϑ : ℝ} {r N : ℕ} (hrl : r = S'.models.length) (hN : N = Fintype.card (Idx gs)) (h0 : 0 ≤ κ) (hκr : κ * r ≤ 1 / 16) (hκN : κ * (1 + N) < 1) (hκ : κ ≤ 1 / 10) (hτ : 0 ≤ τ) (hτr : r * τ ≤ 1 / 64)
    (hη : 0 ≤ η) (hΔ : logAcc κ η M r ≤ 1 / 4) (hΩ0 : 0 ≤ Ω) (hΩ1 : Ω ≤ 1) (hϑ0 : 0 ≤ ϑ) (hϑ1 : ϑ ≤ 1) (hW : quotAcc κ τ (logAcc κ η M r) r ≤ 1) {L π : Fin r → ℝ} {Q : Fin r → Idx gs → ℝ}
    (hmod : ∀ (i : Fin r) m, S'.models[i.val]? = some m → ∃ l Q₀, m.hyperEv = some l ∧ m.post = some Q₀ ∧ 0 < l.exp ∧ |L i - Real.log l.exp| ≤ η ∧ 2 + |Real.log l.exp| ≤ M ∧
      ∀ x, 0 ≤ Q₀ x ∧ Q₀ x ≤ 1 ∧ 0 ≤ Q i x ∧ Off Ω ϑ (Q₀ x) (Q i x))
    (hπ : ∀ (i : Fin r) πs a, S'.tmPrior = some πs → πs[i.val]? = some a → ValApprox η a (π i)) (hlogM : 2 + Real.log r ≤ M)
    (hM : ∀ (i : Fin r) m l πs a, S'.models[i.val]? = some m → m.hyperEv = some l → S'.tmPrior = some πs → πs[i.val]? = some a → a ≠ 0 → 2 + |Real.log l.exp| + |Real.log a| ≤ M)
    {w : Fin r → ℝ} {P : Idx gs → ℝ} {Λ : ℝ} (hrun : ROCombine κ τ L π Q w P Λ) :
    ∃ w₀ P₀ l, S'.tmd = some w₀ ∧ S'.marg = some P₀ ∧ S'.logEv = some l ∧ w₀.length = r ∧
      (∀ (i : Fin r) y, w₀[i.val]? = some y → Off (quotAcc κ τ (logAcc κ η M r) r) (16 * τ) y (w i)) ∧
      (∀ x, 0 ≤ P x ∧ Off (Ω + quotAcc κ τ (logAcc κ η M r) r + κ + 2 * κ * r) (r * (8 * ϑ + 146 * τ)) (P₀ x) (P x)) ∧
      (∀ a μ, RMean κ c.grid a P μ → |μ - mean c.grid a P₀| ≤
        meanAcc κ N (Real.exp (Ω + quotAcc κ τ (logAcc κ η M r) r + κ + 2 * κ * r) - 1) * ∑ x, P₀ x * |c.grid a (x a)| + r * (8 * ϑ + 146 * τ) * (1 + gam (1 + N) κ) * ∑ x : Idx gs, |c.grid a (x a)|) ∧
      0 < l.exp ∧ |Λ - Real.log l.exp| ≤ sumAcc κ τ (logAcc κ η M r) r + 6 * κ * M := by
  obtain ⟨a1, a2, a3, a4, a5⟩ := online_facts h1 hcell hg hnn hne hs hr hx
  obtain ⟨πs, hπs⟩ : ∃ πs, πs = S.tmPrior.getD (ms.map fun _ => 1 / (ms.length : ℝ)) := ⟨_, rfl⟩
  have hlen : πs.length = r := by rw [hπs, tmPrior_len h1 hs, hrl, a1.length_eq]
  rw [← hπs] at a2
  obtain ⟨π₀, rfl⟩ := eq_ofFn hlen
  subst hrl
  have hj : ∀ i : Fin S'.models.length, S'.models[i.val]? = some S'.models[i] := fun i => by simp
  have hpj : ∀ i : Fin S'.models.length, (List.ofFn π₀)[i.val]? = some (π₀ i) := fun i => by simp
  choose lv Q₀ k1 k2 k3 k4 k5 k6 using fun i => hmod i _ (hj i)
  have hM2 : 2 ≤ M := by linarith [Real.log_natCast_nonneg S'.models.length]
  have e1 : S'.models.map OModelSt.hyperEv = List.ofFn fun i => some (lv i) := map_eq_ofFn _ _ k1
  have e2 : S'.models.map OModelSt.post = List.ofFn fun i => some (Q₀ i) := map_eq_ofFn _ _ k2
  obtain ⟨g1, g2, g3⟩ := combine_close (M := M) h0 hκr hκ hτ hτr hη hM2 hΔ hΩ0 hΩ1 hϑ0 hϑ1 hW k3 k4 hlogM k5 (fun i x => ⟨(k6 i x).1, (k6 i x).2.1⟩) (fun i x => (k6 i x).2.2) hrun.tmd
  obtain ⟨ll, l1, l2⟩ := hrun.evidence
  obtain ⟨g4, g5⟩ := (weights_close (M := M) h0 hκr hκ hτ hτr hη hM2 hΔ k3 k4 (fun i => hπ i _ _ a2 (hpj i)) hlogM (fun i hi => hM i _ _ _ _ (hj i) (k1 i) a2 (hpj i) hi) l1).2 _ l2
  have htm : S'.tmd = some (List.ofFn fun i => (lv i).exp / ∑ i, (lv i).exp) := by
    rw [a3, e1, allSome_ofFn, Option.map_some, Option.bind_some, List.map_ofFn, normWeights_pos _ (by rw [List.sum_ofFn]; exact g1), normalised_ofFn]
    · rfl
    · intro x hx
      obtain ⟨j, rfl⟩ := List.mem_ofFn.1 hx
      exact (k3 j).le
  have hma : S'.marg = some fun x => ∑ i, (lv i).exp / (∑ i, (lv i).exp) * Q₀ i x := by
    rw [a4, htm, e2]
    simp only [BL.mixture, allSome_ofFn]
    congr 1
    funext x
    rw [zipWith_ofFn, List.sum_ofFn]
    exact Finset.sum_congr rfl fun i _ => mul_comm _ _
  have hle : S'.logEv = some ⟨∑ i, (lv i).exp * π₀ i⟩ := by
    rw [a5, e1, allSome_ofFn, a2]
    simp only [Option.map_some, Option.getD_some, List.map_ofFn]
    rw [zipWith_ofFn, List.sum_ofFn]
    rfl
  have hP : ∀ x, 0 ≤ P x ∧ Off (Ω + quotAcc κ τ (logAcc κ η M S'.models.length) S'.models.length + κ + 2 * κ * S'.models.length) (S'.models.length * (8 * ϑ + 146 * τ))
      (∑ i, (lv i).exp / (∑ i, (lv i).exp) * Q₀ i x) (P x) := by
    intro x
    obtain ⟨z, z1, z2⟩ := hrun.marg x
    exact g3 z x _ z1 z2
  refine ⟨_, _, _, htm, hma, hle, by simp, fun i y hy => ?_, hP, fun a μ hμ => ?_, g4, g5⟩
  · have : y = (lv i).exp / ∑ i, (lv i).exp := by
      rw [List.getElem?_ofFn] at hy
      simpa using hy.symm
    rw [this]
    exact (g2 i).2
  · obtain ⟨θ, hθ⟩ : ∃ θ : ℝ, 16 * θ = S'.models.length * (8 * ϑ + 146 * τ) := ⟨S'.models.length * (8 * ϑ + 146 * τ) / 16, by ring⟩
    rw [← hθ] at hP ⊢
    exact mean_close h0 (by linarith) hN (by push_cast; linarith) (fun x => (hP x).1) (fun x => (hP x).2) hμ

/-- **C109 (part that holds: transition models as in C104, no underflow inside the single hypotheses).** An online study in floating-point arithmetic.  Let `S'` be the state after all calls of `step` in
exact arithmetic.  In a floating-point run every hypothesis (transition model with values of its hyper-parameters) is updated with relative errors of at most `u` per operation (`ROHyp`), the averages over
hypotheses and over models are taken with relative errors of at most `κ`, results below the range of normal numbers have an absolute error of at most `τ` (`ROModel`, `ROCombine`).  `η` bounds the errors of
the hypotheses, `η₂`, `Ω`, `ϑ` those of the models; `M` bounds the size of all logarithms, the evidences themselves may be far outside the range of floating-point numbers.  Then all results of the
exact study are defined; hyper-parameter distributions, distribution of the models, posterior, mean values and log-evidence equal the exact ones up to the stated errors, which are linear in the
accuracies of the arithmetic. -/
theorem C109_partial {c : OConf ℝ D gs} (h1 : 1 ≤ c.seg) (hE : Regular c.E) {ms : List (String × TM ℝ)} (hg : GoodModels ms) (hnn : NonnegPriors ms) (hne : ms ≠ []) {store : Bool}
    {prior : PriorSpec ℝ gs} {p : Option (List ℝ)} {S S' : OState ℝ D gs} (hs : setup store prior ms p = .ok S) {xs : List D} (hr : runSteps c S xs = .ok S') (hx : c.seg ≤ xs.length)
    (hvol : ∀ m ∈ S'.models, 0 < m.grid.hgc.prod)
    -- computed prior, cell volume and likelihoods
    {π : Idx gs → ℝ} (hprior : PriorMass c.E.cell prior π) {u : ℝ} (hu : 0 ≤ u) {eP eL e : ℕ} {a' : Idx gs → ℝ} (ha : ∀ x, Acc u eP (π x / c.E.cell) (a' x)) {cE : ℝ} (hcE : Acc u eP c.E.cell cE)
    {Ls' : List (Idx gs → ℝ)} (hl : List.Forall₂ (fun L L' => ∀ x, Acc u eL (L x) (L' x)) (segLiks c xs) Ls')
    -- the hypotheses
    {r : ℕ} (hrl : r = S'.models.length) {n : Fin r → ℕ} (hn : ∀ (i : Fin r) m, S'.models[i.val]? = some m → n i = m.hyps.length)
    {post : (i : Fin r) → Fin (n i) → Idx gs → ℝ} {norms : (i : Fin r) → Fin (n i) → List ℝ} {le : (i : Fin r) → Fin (n i) → ℝ} {N₁ : ℕ} (hNu : N₁ * u < 1) {η : ℝ} (hη : 0 ≤ η)
    (hhyp : ∀ (i : Fin r) (j : Fin (n i)) q m tm, ms[i.val]? = some q → S'.models[i.val]? = some m → (hypotheses q.2 m.grid)[j.val]? = some tm → Linear c.E tm ∧
      (ResetFree tm ∨ prior.isArray = false ∧ ∃ r, ({ c.E with prior := prior } : Env ℝ gs).resetArr = some r) ∧ ROHyp { c.E with prior := prior } tm u e a' cE Ls' (post i j) (norms i j) (le i j) ∧
      roundings Ls'.length (Fintype.card (Idx gs)) (elements tm) e eP eL ≤ N₁ ∧ N₁ * (u / (1 - u)) + gam (Ls'.length + 1) u * (((norms i j).map fun n => |Real.log n|).sum + |Real.log cE|) ≤ η)
    -- the models
    {κ τ M : ℝ} (h0 : 0 ≤ κ) (hκ : κ ≤ 1 / 10) (hτ : 0 ≤ τ) (hκn : ∀ i, κ * n i ≤ 1 / 16) (hτn : ∀ i, n i * τ ≤ 1 / 64) (hΔ : ∀ i, logAcc κ η M (n i) ≤ 1 / 4) (hlogn : ∀ i, 2 + Real.log (n i) ≤ M)
    {hp : (i : Fin r) → Fin (n i) → ℝ} (hhp : ∀ (i : Fin r) (j : Fin (n i)) m ps p, S'.models[i.val]? = some m → m.grid.priors = some ps → ps[j.val]? = some p → ValApprox η p (hp i j))
    (hM : ∀ (i : Fin r) (j : Fin (n i)) m h l ps p, S'.models[i.val]? = some m → m.hyps[j.val]? = some h → h.ev = some l → m.grid.priors = some ps → ps[j.val]? = some p → p ≠ 0 →
      2 + |Real.log l.exp| + |Real.log p| ≤ M)
    {c' : Fin r → ℝ} (hc' : ∀ i, 0 < c' i) (hcc : ∀ (i : Fin r) m, S'.models[i.val]? = some m → |Real.log (c' i) - Real.log m.grid.hgc.prod| ≤ η)
    {D₁ : (i : Fin r) → Fin (n i) → ℝ} {L : Fin r → ℝ} {Q : Fin r → Idx gs → ℝ} (hmod : ∀ i, ROModel κ τ (le i) (hp i) (post i) (c' i) (D₁ i) (L i) (Q i))
    -- the whole study
    {N : ℕ} (hN : N = Fintype.card (Idx gs)) {η₂ Ω ϑ : ℝ} (hη₂ : ∀ i, sumAcc κ τ (logAcc κ η M (n i)) (n i) + 6 * κ * M ≤ η₂)
    (hΩ : ∀ i, quotAcc κ τ (logAcc κ η M (n i)) (n i) + 3 * η + 4 * κ + 2 * κ * n i ≤ Ω) (hϑ : ∀ (i : Fin r) m, S'.models[i.val]? = some m → n i * (68 + 6 * m.grid.hgc.prod) * τ ≤ ϑ)
    (hκr : κ * r ≤ 1 / 16) (hκN : κ * (1 + N) < 1) (hτr : r * τ ≤ 1 / 64) (hΔ₂ : logAcc κ η₂ M r ≤ 1 / 4) (hΩ1 : Ω ≤ 1) (hϑ1 : ϑ ≤ 1) (hW : quotAcc κ τ (logAcc κ η₂ M r) r ≤ 1)
    {πr : Fin r → ℝ} (hπ : ∀ (i : Fin r) πs a, S'.tmPrior = some πs → πs[i.val]? = some a → ValApprox η₂ a (πr i)) (hlogr : 2 + Real.log r ≤ M)
    (hM₁ : ∀ (i : Fin r) m l, S'.models[i.val]? = some m → m.hyperEv = some l → 2 + |Real.log l.exp| ≤ M)
    (hM₂ : ∀ (i : Fin r) m l πs a, S'.models[i.val]? = some m → m.hyperEv = some l → S'.tmPrior = some πs → πs[i.val]? = some a → a ≠ 0 → 2 + |Real.log l.exp| + |Real.log a| ≤ M)
    {w : Fin r → ℝ} {P : Idx gs → ℝ} {Λ : ℝ} (hrun : ROCombine κ τ L πr Q w P Λ) :
    (∀ (i : Fin r) m, S'.models[i.val]? = some m → ∃ D₀ l, m.hpd = some D₀ ∧ m.hyperEv = some l ∧ D₀.length = n i ∧ 0 < l.exp ∧ |L i - Real.log l.exp| ≤ η₂ ∧
        ∀ (j : Fin (n i)) x, D₀[j.val]? = some x → Off (quotAcc κ τ (logAcc κ η M (n i)) (n i) + η + 2 * κ) ((20 / m.grid.hgc.prod + 1) * τ) x (D₁ i j)) ∧
      ∃ w₀ P₀ l, S'.tmd = some w₀ ∧ S'.marg = some P₀ ∧ S'.logEv = some l ∧ w₀.length = r ∧
        (∀ (i : Fin r) y, w₀[i.val]? = some y → Off (quotAcc κ τ (logAcc κ η₂ M r) r) (16 * τ) y (w i)) ∧
        (∀ x, 0 ≤ P x ∧ Off (Ω + quotAcc κ τ (logAcc κ η₂ M r) r + κ + 2 * κ * r) (r * (8 * ϑ + 146 * τ)) (P₀ x) (P x)) ∧
        (∀ a μ, RMean κ c.grid a P μ → |μ - mean c.grid a P₀| ≤
          meanAcc κ N (Real.exp (Ω + quotAcc κ τ (logAcc κ η₂ M r) r + κ + 2 * κ * r) - 1) * ∑ x, P₀ x * |c.grid a (x a)| + r * (8 * ϑ + 146 * τ) * (1 + gam (1 + N) κ) * ∑ x : Idx gs, |c.grid a (x a)|) ∧
        0 < l.exp ∧ |Λ - Real.log l.exp| ≤ sumAcc κ τ (logAcc κ η₂ M r) r + 6 * κ * M := by
  have hne' := hE.nonempty
  have hcell : 0 < c.E.cell := cell_pos hE.lattice_pos
  obtain ⟨a1, -⟩ := online_facts h1 hcell.le hg hnn hne hs hr hx
  obtain ⟨i1, i2, -⟩ := setup_inv h1 hs
  have hi := runSteps_inv h1 hg hne xs [] S S' i1 hr
  rw [List.nil_append] at hi
  obtain ⟨-, a0, b1, -, -, b2, -⟩ := hi.after hx
  rw [i2] at b1
  have key : ∀ (i : Fin r) m, S'.models[i.val]? = some m → ∃ D₀ l Q₀, m.hpd = some D₀ ∧ m.hyperEv = some l ∧ m.post = some Q₀ ∧ D₀.length = n i ∧ 0 < l.exp ∧ (∀ x, 0 ≤ Q₀ x ∧ Q₀ x ≤ 1) ∧
      (∀ (j : Fin (n i)) x, D₀[j.val]? = some x → Off (quotAcc κ τ (logAcc κ η M (n i)) (n i) + η + 2 * κ) ((20 / m.grid.hgc.prod + 1) * τ) x (D₁ i j)) ∧
      |L i - Real.log l.exp| ≤ sumAcc κ τ (logAcc κ η M (n i)) (n i) + 6 * κ * M ∧
      ∀ x, 0 ≤ Q i x ∧ Off (quotAcc κ τ (logAcc κ η M (n i)) (n i) + 3 * η + 4 * κ + 2 * κ * n i) (n i * (68 + 6 * m.grid.hgc.prod) * τ) (Q₀ x) (Q i x) := by
    intro i m hm
    obtain ⟨him, hm'⟩ := List.getElem?_eq_some_iff.1 hm
    have hiq : i.val < ms.length := by rw [a1.length_eq]; exact him
    have f1 := ((List.forall₂_iff_get.1 a1).2 i.val hiq him).2.2
    have f2 := ((List.forall₂_iff_get.1 b2).2 i.val hiq him).1
    simp only [List.get_eq_getElem] at f1 f2
    rw [hm'] at f1 f2
    refine finished_close (M := M) f1 (hvol m (by rw [← hm']; exact List.getElem_mem _)) (hn i m hm) h0 hκ (hκn i) hτ (hτn i) hη (hΔ i) (hlogn i) ?_ (fun j ps p => hhp i j m ps p hm) (fun j h l ps p => hM i j m h l ps p hm)
      (hc' i) (hcc i m hm) (hmod i)
    intro j h hh
    obtain ⟨hjm, hj'⟩ := List.getElem?_eq_some_iff.1 hh
    have hjh : j.val < (hypotheses ms[i.val].2 m.grid).length := by rw [f2.hyps.length_eq]; exact hjm
    have f3 := (List.forall₂_iff_get.1 f2.hyps).2 j.val hjh hjm
    simp only [List.get_eq_getElem] at f3
    rw [hj'] at f3
    obtain ⟨q1, q2, q3, q4, q5⟩ := hhyp i j _ m _ (List.getElem?_eq_getElem hiq) hm (List.getElem?_eq_getElem hjh)
    rw [← hl.length_eq] at q4 q5
    exact hyp_close hE q1 hprior q2 b1 hu ha hcE hl f3 q3 q4 hNu q5
  have hη₂0 : 0 ≤ η₂ := by
    rcases Nat.eq_zero_or_pos r with h | h
    · exfalso
      have := a1.length_eq
      rw [← hrl, h] at this
      exact hne (List.length_eq_zero_iff.1 this)
    · obtain ⟨D₀, l, Q₀, -, -, -, -, -, -, -, k, -⟩ := key ⟨0, h⟩ _ (List.getElem?_eq_getElem (by rw [← hrl]; exact h))
      exact (abs_nonneg _).trans (k.trans (hη₂ _))
  have hr0 : 0 < r := by
    rcases Nat.eq_zero_or_pos r with h | h
    · exfalso
      have := a1.length_eq
      rw [← hrl, h] at this
      exact hne (List.length_eq_zero_iff.1 this)
    · exact h
  have hM2 : 2 ≤ M := by linarith [Real.log_natCast_nonneg r]
  have hΩ0 : 0 ≤ Ω := by
    refine le_trans ?_ (hΩ ⟨0, hr0⟩)
    rw [quotAcc, sumAcc, logAcc]
    positivity
  have hϑ0 : 0 ≤ ϑ := by
    have hi0 : 0 < S'.models.length := by rw [← hrl]; exact hr0
    refine le_trans ?_ (hϑ ⟨0, hr0⟩ _ (List.getElem?_eq_getElem hi0))
    have := hvol _ (List.getElem_mem hi0)
    positivity
  refine ⟨fun i m hm => ?_, ?_⟩
  · obtain ⟨D₀, l, Q₀, k1, k2, -, k4, k5, -, k7, k8, -⟩ := key i m hm
    exact ⟨D₀, l, k1, k2, k4, k5, k8.trans (hη₂ i), k7⟩
  · refine C109_average h1 hcell.le hg hnn hne hs hr hx hrl hN h0 hκr hκN hκ hτ hτr hη₂0 hΔ₂ hΩ0 hΩ1 hϑ0 hϑ1 hW (fun i m hm => ?_) hπ hlogr hM₂ hrun
    obtain ⟨D₀, l, Q₀, -, k2, k3, -, k5, k6, -, k8, k9⟩ := key i m hm
    exact ⟨l, Q₀, k2, k3, k5, k8.trans (hη₂ i), hM₁ i m l hm k2, fun x => ⟨(k6 x).1, (k6 x).2, (k9 x).1, (k9 x).2.mono (k6 x).1 (hΩ i) (hϑ i m hm)⟩⟩

theorem local_lists {A B : List (OModelSt ℝ gs)} {πs : List ℝ} {ltmd : Option (List ℝ)} (hlt : ltmd = (allSome (List.zipWith (fun q p => localWeight q.1 q.2 p) (A.zip B) πs)).bind normWeights)
    {κ τ η M : ℝ} {r : ℕ} (hA : A.length = r) (hB : B.length = r) (hlen : πs.length = r) (h0 : 0 ≤ κ) (hκr : κ * r ≤ 1 / 16) (hκ : κ ≤ 1 / 10) (hτ : 0 ≤ τ) (hτr : r * τ ≤ 1 / 64) (hη : 0 ≤ η)
    (hΔ : logAcc κ (2 * η + κ * M) M r ≤ 1 / 4) (hlogM : 2 + Real.log r ≤ M) {Lo L π : Fin r → ℝ}
    (hLo : ∀ (i : Fin r) m, A[i.val]? = some m → ∃ l, m.hyperEv = some l ∧ 0 < l.exp ∧ |Lo i - Real.log l.exp| ≤ η)
    (hL : ∀ (i : Fin r) m, B[i.val]? = some m → ∃ l, m.hyperEv = some l ∧ 0 < l.exp ∧ |L i - Real.log l.exp| ≤ η) (hπ : ∀ (i : Fin r) a, πs[i.val]? = some a → ValApprox η a (π i))
    (hM : ∀ (i : Fin r) m m' l l' a, A[i.val]? = some m → m.hyperEv = some l → B[i.val]? = some m' → m'.hyperEv = some l' → πs[i.val]? = some a → 2 + |Real.log (l'.exp / l.exp)| + |Real.log a| ≤ M)
    {w : Fin r → ℝ} (hrun : ROLocal κ τ Lo L π w) :
    ∃ w₀, ltmd = some w₀ ∧ w₀.length = r ∧ ∀ (i : Fin r) y, w₀[i.val]? = some y → Off (quotAcc κ τ (logAcc κ (2 * η + κ * M) M r) r) (16 * τ) y (w i) := by
  obtain ⟨π₀, rfl⟩ := eq_ofFn hlen
  have hj1 : ∀ i : Fin r, A[i.val]? = some (A[i.val]'(by rw [hA]; exact i.isLt)) := fun i => List.getElem?_eq_getElem _
  have hj2 : ∀ i : Fin r, B[i.val]? = some (B[i.val]'(by rw [hB]; exact i.isLt)) := fun i => List.getElem?_eq_getElem _
  have hpj : ∀ i : Fin r, (List.ofFn π₀)[i.val]? = some (π₀ i) := fun i => by simp
  choose lo k1 k2 k3 using fun i => hLo i _ (hj1 i)
  choose ln j1 j2 j3 using fun i => hL i _ (hj2 i)
  have hM2 : 2 ≤ M := by linarith [Real.log_natCast_nonneg r]
  obtain ⟨g1, g2⟩ := local_close (M := M) h0 hκr hκ hτ hτr hη hM2 hΔ k2 j2 k3 j3 (fun i => hπ i _ (hpj i)) hlogM (fun i => hM i _ _ _ _ _ (hj1 i) (k1 i) (hj2 i) (j1 i) (hpj i)) hrun
  have hπ0 : ∀ i, 0 ≤ π₀ i := fun i => by rcases hπ i _ (hpj i) with ⟨-, h⟩ | ⟨-, h, -⟩; exacts [h.ge, h.le]
  have hw : List.zipWith (fun q p => localWeight q.1 q.2 p) (A.zip B) (List.ofFn π₀) = List.ofFn fun i => some ((ln i).exp / (lo i).exp * π₀ i) := by
    apply List.ext_getElem
    · simp [hA, hB]
    · intro i h1 h2
      have hir : i < r := by simpa using h2
      simp only [List.getElem_zipWith, List.getElem_zip, List.getElem_ofFn, localWeight]
      rw [k1 ⟨i, hir⟩, j1 ⟨i, hir⟩]
      simp only [if_neg (k2 ⟨i, hir⟩).ne']
  rw [hw, allSome_ofFn, Option.bind_some, normWeights_pos _ (by rw [List.sum_ofFn]; exact g1), normalised_ofFn] at hlt
  · refine ⟨_, hlt, by simp, fun i y hy => ?_⟩
    have : y = (ln i).exp / (lo i).exp * π₀ i / ∑ i, (ln i).exp / (lo i).exp * π₀ i := by
      rw [List.getElem?_ofFn] at hy
      simpa using hy.symm
    rw [this]
    exact (g2 i).2
  · intro y hy
    obtain ⟨i, rfl⟩ := List.mem_ofFn.1 hy
    exact mul_nonneg (div_nonneg (j2 i).le (k2 i).le) (hπ0 i)

/-- **C109 (local distribution of the transition models).** If the log-evidences of the models before and after a step are accurate to `η` (see `C109_partial`), so is the local distribution computed in
this step. -/
theorem C109_local {c : OConf ℝ D gs} (h1 : 1 ≤ c.seg) (hcell : 0 ≤ c.E.cell) {ms : List (String × TM ℝ)} (hg : GoodModels ms) (hnn : NonnegPriors ms) (hne : ms ≠ []) {store : Bool}
    {prior : PriorSpec ℝ gs} {p : Option (List ℝ)} {S S1 S2 : OState ℝ D gs} (hs : setup store prior ms p = .ok S) {xs : List D} (hr : runSteps c S xs = .ok S1) (hx : c.seg ≤ xs.length)
    {x : D} (hst : S1.step (some c) x = (S2, none)) {κ τ η M : ℝ} {r : ℕ} (hrl : r = S2.models.length) (h0 : 0 ≤ κ) (hκr : κ * r ≤ 1 / 16) (hκ : κ ≤ 1 / 10) (hτ : 0 ≤ τ) (hτr : r * τ ≤ 1 / 64) (hη : 0 ≤ η)
    (hΔ : logAcc κ (2 * η + κ * M) M r ≤ 1 / 4) (hlogM : 2 + Real.log r ≤ M) {Lo L π : Fin r → ℝ}
    (hLo : ∀ (i : Fin r) m, S1.models[i.val]? = some m → ∃ l, m.hyperEv = some l ∧ 0 < l.exp ∧ |Lo i - Real.log l.exp| ≤ η)
    (hL : ∀ (i : Fin r) m, S2.models[i.val]? = some m → ∃ l, m.hyperEv = some l ∧ 0 < l.exp ∧ |L i - Real.log l.exp| ≤ η)
    (hπ : ∀ (i : Fin r) πs a, S2.tmPrior = some πs → πs[i.val]? = some a → ValApprox η a (π i))
    (hM : ∀ (i : Fin r) m m' l l' πs a, S1.models[i.val]? = some m → m.hyperEv = some l → S2.models[i.val]? = some m' → m'.hyperEv = some l' → S2.tmPrior = some πs → πs[i.val]? = some a →
      2 + |Real.log (l'.exp / l.exp)| + |Real.log a| ≤ M)
    {w : Fin r → ℝ} (hrun : ROLocal κ τ Lo L π w) :
    ∃ w₀, S2.ltmd = some w₀ ∧ w₀.length = r ∧ ∀ (i : Fin r) y, w₀[i.val]? = some y → Off (quotAcc κ τ (logAcc κ (2 * η + κ * M) M r) r) (16 * τ) y (w i) := by
  have hr2 := runSteps_append hr hst
  obtain ⟨a1, a2, -⟩ := online_facts h1 hcell hg hnn hne hs hr hx
  obtain ⟨b1, b2, -⟩ := online_facts h1 hcell hg hnn hne hs hr2 (by simp; omega)
  obtain ⟨i1, -⟩ := setup_inv h1 hs
  have hi := runSteps_inv h1 hg hne xs [] S S1 i1 hr
  rw [List.nil_append] at hi
  have hm : S1.models ≠ [] := by
    intro h0
    have := a1.length_eq
    rw [h0] at this
    exact hne (List.length_eq_zero_iff.1 this)
  obtain ⟨l1, -⟩ := step_local hm hst (by rw [hi.raw]; omega) (hi.after hx).1
  have hl1 : S1.models.length = r := by rw [hrl, ← a1.length_eq, b1.length_eq]
  rw [a2, Option.getD_some] at l1
  exact local_lists l1 hl1 hrl.symm (by rw [tmPrior_len h1 hs, hrl, b1.length_eq]) h0 hκr hκ hτ hτr hη hΔ hlogM hLo hL (fun i a => hπ i _ a b2) (fun i m m' l l' a e1 e2 e3 e4 => hM i m m' l l' _ a e1 e2 e3 e4 b2) hrun

/-- **C109 (local distribution of the transition models after the first data segment).** The "old" log-evidences are zero. -/
theorem C109_local_first {c : OConf ℝ D gs} (h1 : 1 ≤ c.seg) (hcell : 0 ≤ c.E.cell) {ms : List (String × TM ℝ)} (hg : GoodModels ms) (hnn : NonnegPriors ms) (hne : ms ≠ []) {store : Bool}
    {prior : PriorSpec ℝ gs} {p : Option (List ℝ)} {S S1 S2 : OState ℝ D gs} (hs : setup store prior ms p = .ok S) {xs : List D} (hr : runSteps c S xs = .ok S1) (hx : c.seg = xs.length + 1)
    {x : D} (hst : S1.step (some c) x = (S2, none)) {κ τ η M : ℝ} {r : ℕ} (hrl : r = S2.models.length) (h0 : 0 ≤ κ) (hκr : κ * r ≤ 1 / 16) (hκ : κ ≤ 1 / 10) (hτ : 0 ≤ τ) (hτr : r * τ ≤ 1 / 64) (hη : 0 ≤ η)
    (hΔ : logAcc κ (2 * η + κ * M) M r ≤ 1 / 4) (hlogM : 2 + Real.log r ≤ M) {L π : Fin r → ℝ}
    (hL : ∀ (i : Fin r) m, S2.models[i.val]? = some m → ∃ l, m.hyperEv = some l ∧ 0 < l.exp ∧ |L i - Real.log l.exp| ≤ η)
    (hπ : ∀ (i : Fin r) πs a, S2.tmPrior = some πs → πs[i.val]? = some a → ValApprox η a (π i))
    (hM : ∀ (i : Fin r) m l πs a, S2.models[i.val]? = some m → m.hyperEv = some l → S2.tmPrior = some πs → πs[i.val]? = some a → 2 + |Real.log l.exp| + |Real.log a| ≤ M)
    {w : Fin r → ℝ} (hrun : ROLocal κ τ (fun _ => 0) L π w) :
    ∃ w₀, S2.ltmd = some w₀ ∧ w₀.length = r ∧ ∀ (i : Fin r) y, w₀[i.val]? = some y → Off (quotAcc κ τ (logAcc κ (2 * η + κ * M) M r) r) (16 * τ) y (w i) := by
  have hr2 := runSteps_append hr hst
  obtain ⟨b1, b2, -⟩ := online_facts h1 hcell hg hnn hne hs hr2 (by simp; omega)
  obtain ⟨i1, -⟩ := setup_inv h1 hs
  have hi := runSteps_inv h1 hg hne xs [] S S1 i1 hr
  rw [List.nil_append] at hi
  obtain ⟨f1, -, -, f2⟩ := hi.before (by omega)
  have hm : S1.models ≠ [] := by
    intro h0
    have := f2.length_eq
    rw [h0] at this
    exact hne (List.length_eq_zero_iff.1 this)
  obtain ⟨Ms, l1, l2, l3⟩ := step_local_first hm hst (by rw [hi.raw]; omega) f1
  rw [b2, Option.getD_some] at l3
  refine local_lists l3 (by rw [l1, hrl]) hrl.symm (by rw [tmPrior_len h1 hs, hrl, b1.length_eq]) h0 hκr hκ hτ hτr hη hΔ hlogM (Lo := fun _ => 0) ?_ hL (fun i a => hπ i _ a b2) ?_ hrun
  · intro i m hm
    exact ⟨_, l2 m (List.mem_of_getElem? hm), one_pos, by change |0 - Real.log (1 : ℝ)| ≤ η; simpa using hη⟩
  · intro i m m' l l' a e1 e2 e3 e4 e5
    rw [l2 m (List.mem_of_getElem? e1)] at e2
    cases e2
    have := hM i m' l' _ a e3 e4 b2 e5
    change 2 + |Real.log (l'.exp / 1)| + |Real.log a| ≤ M
    rwa [div_one]

/-! ## Runs exist -/

/-- An elementary model that keeps all values possible: the exact updates are a floating-point run, whatever the accuracy. -/
theorem rohyp_exists {E : Env ℝ gs} [Nonempty (Idx gs)] (hl : ∀ a, 0 < E.lattice a) (hX : ProperExt E.ext) (hpr : FullPrior E.prior) {k : Leaf ℝ} {ns : List String} {vs : List (HVal ℝ)}
    {pr : Option (Nest (HPrior ℝ))} (hS : Spreading E (.leaf k ns vs pr)) {a : Idx gs → ℝ} (ha : ∀ x, 0 < a x) (c : ℝ) (Ls : List (Idx gs → ℝ)) : Ls ≠ [] → (∀ L ∈ Ls, ∀ x, 0 < L x) →
    ∃ post norms le, (∀ x, 0 < post x) ∧ ∀ u, 0 ≤ u → ROHyp E (.leaf k ns vs pr) u 0 a c Ls post norms le := by
  have habs : ∀ (b L : Idx gs → ℝ), (∀ x, 0 < b x) → (∀ x, 0 < L x) → (∀ x, 0 < b x * L x / ∑ x, b x * L x) ∧ ∀ u, 0 ≤ u → ROAbsorb u b L (∑ x, b x * L x) fun x => b x * L x / ∑ x, b x * L x := by
    intro b L hb hL
    have hp : ∀ x, 0 < b x * L x := fun x => mul_pos (hb x) (hL x)
    refine ⟨fun x => div_pos (hp x) (full_sum hp), fun u hu => ⟨fun x => b x * L x, fun x => rounded_self hu, ?_, full_sum hp, fun x => rounded_self hu⟩⟩
    exact rsum_exists hu _ (by simp [Finset.univ_nonempty.ne_empty])
  induction Ls using List.reverseRecOn with
  | nil => exact fun h => absurd rfl h
  | append_singleton Ls L ih =>
      intro _ hL
      by_cases h0 : Ls = []
      · subst h0
        obtain ⟨h1, h2⟩ := habs a L ha (hL L (by simp))
        exact ⟨_, _, _, h1, fun u hu => .first (h2 u hu) (rounded_self hu) (rounded_self hu) (rounded_self hu)⟩
      · obtain ⟨post, norms, le, i1, i2⟩ := ih h0 fun L' hL' => hL L' (by simp [hL'])
        obtain ⟨q, q1, b, rfl, hb⟩ := leafFwd_full hl hX hpr k ns vs pr hS 0 (some post) (-1) ⟨post, rfl, i1⟩
        obtain ⟨h1, h2⟩ := habs b L hb (hL L (by simp))
        refine ⟨_, _, _, h1, fun u hu => .next (i2 u hu) (b := b) ?_ (h2 u hu) (rounded_self hu) (rounded_self hu)⟩
        rw [TM.rounded]
        exact ⟨b, q1, fun x => ⟨(hb x).le, (hb x).le, by simp, by simp⟩⟩

theorem logs_exist {κ : ℝ} (h0 : 0 ≤ κ) {n : ℕ} (hn : 0 < n) (le hp : Fin n → ℝ) (hpp : ∀ j, 0 < hp j) :
    ∃ l : Fin n → Option ℝ, (∀ j, ROLog κ (hp j) (le j) (l j)) ∧ ∃ m, IsGreatest {y | ∃ i, l i = some y} m := by
  refine ⟨fun j => some (le j + Real.log (hp j)), fun j => ?_, ?_⟩
  · rw [ROLog, if_neg (hpp j).ne']
    exact ⟨_, _, near_self h0 _, near_self h0 _, rfl⟩
  · obtain ⟨m, hm⟩ := greatest_exists Finset.univ (fun j => some (le j + Real.log (hp j))) ⟨⟨0, hn⟩, Finset.mem_univ _, _, rfl⟩
    exact ⟨m, by simpa using hm⟩

theorem romodel_exists {κ τ : ℝ} (h0 : 0 ≤ κ) (hτ : 0 ≤ τ) {n : ℕ} (hn : 0 < n) (le hp : Fin n → ℝ) (hpp : ∀ j, 0 < hp j) {post : Fin n → Idx gs → ℝ} (hpost : ∀ j x, 0 ≤ post j x) {c : ℝ} (hc : 0 < c) :
    ∃ D L Q, ROModel κ τ le hp post c D L Q ∧ ∀ x, 0 ≤ Q x := by
  have : Nonempty (Fin n) := ⟨⟨0, hn⟩⟩
  obtain ⟨l, l1, m, hm⟩ := logs_exist h0 hn le hp hpp
  obtain ⟨v, s, q, hs, hq⟩ := soft_exists h0 hτ m l
  have hD : ∀ j, 0 ≤ q j / c := fun j => div_nonneg (hq j) hc.le
  refine ⟨fun j => q j / c, Real.log s + m, fun x => ∑ j, post j x * (q j / c) * c, ⟨⟨l, l1, m, v, s, _, hm, hs.shift, hs.sum, near_self h0 _, near_self h0 _⟩,
    ⟨l, q, l1, ⟨m, v, s, hm, hs⟩, fun j => rtiny_self h0 hτ (hD j)⟩, fun x => ⟨_, fun j => post j x * (q j / c) * c, fun j => rtiny_self h0 hτ (mul_nonneg (hpost j x) (hD j)),
      fun j => rtiny_self h0 hτ (mul_nonneg (mul_nonneg (hpost j x) (hD j)) hc.le), rsum_exists h0 _ (by simp; omega)⟩⟩,
    fun x => Finset.sum_nonneg fun j _ => mul_nonneg (mul_nonneg (hpost j x) (hD j)) hc.le⟩

theorem rocombine_exists {κ τ : ℝ} (h0 : 0 ≤ κ) (hτ : 0 ≤ τ) {r : ℕ} (hr : 0 < r) (L π : Fin r → ℝ) (hπ : ∀ i, 0 < π i) {Q : Fin r → Idx gs → ℝ} (hQ : ∀ i x, 0 ≤ Q i x) :
    ∃ w P Λ, ROCombine κ τ L π Q w P Λ := by
  have : Nonempty (Fin r) := ⟨⟨0, hr⟩⟩
  obtain ⟨m, hm⟩ := greatest_exists Finset.univ (fun i => some (L i)) ⟨⟨0, hr⟩, Finset.mem_univ _, _, rfl⟩
  obtain ⟨v, s, q, hs, hq⟩ := soft_exists h0 hτ m fun i => some (L i)
  obtain ⟨l, l1, m', hm'⟩ := logs_exist h0 hr L π hπ
  obtain ⟨v', s', q', hs', -⟩ := soft_exists h0 hτ m' l
  exact ⟨q, fun x => ∑ i, Q i x * q i, Real.log s' + m', ⟨m, v, s, by simpa using hm, hs⟩,
    fun x => ⟨fun i => Q i x * q i, fun i => rtiny_self h0 hτ (mul_nonneg (hQ i x) (hq i)), rsum_exists h0 _ (by simp; omega)⟩,
    ⟨l, l1, m', v', s', _, hm', hs'.shift, hs'.sum, near_self h0 _, near_self h0 _⟩⟩

theorem bounded {ι : Type} [Finite ι] (f : ι → ℝ) : ∃ M, ∀ i, f i ≤ M := by
  obtain ⟨M, hM⟩ := Set.Finite.bddAbove (Set.finite_range f)
  exact ⟨M, fun i => hM ⟨i, rfl⟩⟩

theorem acc_self {u a : ℝ} (ha : 0 ≤ a) : Acc u 0 a a := ⟨ha, ha, by simp, by simp⟩

theorem val_self {η a : ℝ} (hη : 0 ≤ η) (ha : 0 < a) : ValApprox η a a := .inr ⟨ha, ha, by simpa using hη⟩

/-- error of the logarithms, if the arithmetic is accurate enough -/
theorem eta_small {t δ B : ℝ} {N T : ℕ} (ht : 0 ≤ t) (hB : 0 ≤ B) (h1 : t ≤ 1 / 2) (h2 : t * (T + 1) ≤ 1 / 2) (h : t * (2 * (N + (T + 1) * B)) ≤ δ) : N * (t / (1 - t)) + gam (T + 1) t * B ≤ δ := by
  have e1 : t / (1 - t) ≤ 2 * t := by
    rw [div_le_iff₀ (by linarith)]
    nlinarith
  have e2 : gam (T + 1) t ≤ 2 * ((T + 1) * t) := by
    rw [gam]
    push_cast
    rw [div_le_iff₀ (by linarith)]
    have : 0 ≤ ((T : ℝ) + 1) * t := by positivity
    nlinarith
  have e3 := mul_le_mul_of_nonneg_left e1 (Nat.cast_nonneg (α := ℝ) N)
  have e4 := mul_le_mul_of_nonneg_right e2 hB
  linarith

/-- **The hypotheses of `C109_partial` can be met, with errors as small as desired.**  For every online study with elementary transition models that keep all parameter values possible, positive prior and
likelihoods there are `t > 0` and a run of the floating-point model with accuracy `u = κ = τ = t` to which `C109_partial` applies; the guaranteed error of the log-evidence is at most `ε`. -/
theorem C109_exists {c : OConf ℝ D gs} (h1 : 1 ≤ c.seg) (hE : Regular c.E) (hX : ProperExt c.E.ext) {ms : List (String × TM ℝ)} (hg : LiveModels c.E ms) (hne : ms ≠ []) {store : Bool}
    {prior : PriorSpec ℝ gs} (hpr : FullPrior prior) {p : Option (List ℝ)} (hp : ∀ l, p = some l → ∀ x ∈ l, 0 < x) {S S' : OState ℝ D gs} (hs : setup store prior ms p = .ok S) {xs : List D}
    (hL : ∀ L ∈ segLiks c xs, ∀ x, 0 < L x) (hr : runSteps c S xs = .ok S') (hx : c.seg ≤ xs.length) {π : Idx gs → ℝ} (hprior : PriorMass c.E.cell prior π)
    (hleaf : ∀ q ∈ ms, ∀ g, createHyperGrid q.2 [] = .ok g → ∀ tm ∈ hypotheses q.2 g, Linear c.E tm ∧ ResetFree tm ∧ ∃ k ns vs pr, tm = .leaf k ns vs pr) :
    ∃ (r : ℕ) (n : Fin r → ℕ) (post : (i : Fin r) → Fin (n i) → Idx gs → ℝ) (norms : (i : Fin r) → Fin (n i) → List ℝ) (le hp : (i : Fin r) → Fin (n i) → ℝ) (c' πr : Fin r → ℝ),
      (∀ (i : Fin r) (j : Fin (n i)) q m tm, ms[i.val]? = some q → S'.models[i.val]? = some m → (hypotheses q.2 m.grid)[j.val]? = some tm → ∀ u, 0 ≤ u →
        ROHyp { c.E with prior := prior } tm u 0 (fun x => π x / c.E.cell) c.E.cell (segLiks c xs) (post i j) (norms i j) (le i j)) ∧
      ∀ ε, 0 < ε → ∃ t, 0 < t ∧ ∃ (D₁ : (i : Fin r) → Fin (n i) → ℝ) (L : Fin r → ℝ) (Q : Fin r → Idx gs → ℝ) (w : Fin r → ℝ) (P : Idx gs → ℝ) (Λ : ℝ),
        (∀ i, ROModel t t (le i) (hp i) (post i) (c' i) (D₁ i) (L i) (Q i)) ∧ ROCombine t t L πr Q w P Λ ∧ ∃ l, S'.logEv = some l ∧ |Λ - Real.log l.exp| ≤ ε := by
  have hne' := hE.nonempty
  have hcell : 0 < c.E.cell := cell_pos hE.lattice_pos
  obtain ⟨a1, a2, -⟩ := online_facts h1 hcell.le hg.good hg.nonneg hne hs hr hx
  obtain ⟨i1, i2, -⟩ := setup_inv h1 hs
  have hi := runSteps_inv h1 hg.good hne xs [] S S' i1 hr
  rw [List.nil_append] at hi
  obtain ⟨-, a0, -, -, -, b2, -⟩ := hi.after hx
  obtain ⟨hlen, hlive⟩ := models_live hE.lattice_pos hX h1 hg hne hs hpr hL hr hx
  have htp := tmPrior_pos h1 hne hs hp
  have hLne : segLiks c xs ≠ [] := by
    intro h0
    have := congrArg List.length h0
    simp only [segLiks, List.length_map, movingWindow_len, List.length_nil] at this
    omega
  -- the prior is positive
  have hπ : ∀ x, 0 < π x / c.E.cell := by
    obtain ⟨b, pr, k1, ⟨b', rfl, k2⟩, -⟩ := computePrior_full (E := { c.E with prior := prior }) hE.lattice_pos hpr
    obtain ⟨pr', k3, -⟩ := computePrior_mass (E := { c.E with prior := prior }) hcell hprior
    rw [k1, Except.ok.injEq, Prod.mk.injEq, Option.some.injEq] at k3
    intro x
    have := k2 x
    rw [k3.1] at this
    change 0 < 1 / c.E.cell * π x at this
    rwa [one_div_mul_eq_div] at this
  -- the models
  obtain ⟨r, hrl⟩ : ∃ r, r = S'.models.length := ⟨_, rfl⟩
  have hr0 : 0 < r := by rw [hrl, hlen]; exact List.length_pos_iff.2 hne
  have hmod : ∀ i : Fin r, ∃ m q ps, S'.models[i.val]? = some m ∧ ms[i.val]? = some q ∧ createHyperGrid q.2 [] = .ok m.grid ∧ m.hyps.length = (hypotheses q.2 m.grid).length ∧ m.grid.priors = some ps ∧
      (∀ p ∈ ps, 0 < p) ∧ 0 < m.hyps.length ∧ 0 < m.grid.hgc.prod ∧ ∀ tm ∈ hypotheses q.2 m.grid, Spreading c.E tm := by
    intro i
    have him : i.val < S'.models.length := by rw [← hrl]; exact i.isLt
    have hiq : i.val < ms.length := by rw [← hlen]; exact him
    obtain ⟨-, f0, f1⟩ := (List.forall₂_iff_get.1 a1).2 i.val hiq him
    have f2 := ((List.forall₂_iff_get.1 b2).2 i.val hiq him).1
    simp only [List.get_eq_getElem] at f0 f1 f2
    obtain ⟨-, -, g3⟩ := hg _ (List.getElem_mem hiq)
    obtain ⟨g4, ⟨ps, p1, p2, p3⟩, g5⟩ := g3 _ f0
    obtain ⟨ps', q1, q2, -⟩ := f1.priors
    rw [p1] at q1
    cases q1
    exact ⟨_, _, ps, List.getElem?_eq_getElem him, List.getElem?_eq_getElem hiq, f0, f2.hyps.length_eq.symm, p1, p3, by rw [← q2]; exact List.length_pos_iff.2 p2, g4, g5⟩
  choose m q ps m1 m2 m3 m4 m5 m6 m7 m8 m9 using hmod
  have mem : ∀ i, m i ∈ S'.models := fun i => List.mem_of_getElem? (m1 i)
  have htm : ∀ (i : Fin r) (j : Fin (m i).hyps.length), ∃ tm, (hypotheses (q i).2 (m i).grid)[j.val]? = some tm ∧ Linear c.E tm ∧ ResetFree tm ∧ elements tm = 1 ∧ ∃ post norms le, (∀ x, 0 < post x) ∧
      ∀ u, 0 ≤ u → ROHyp { c.E with prior := prior } tm u 0 (fun x => π x / c.E.cell) c.E.cell (segLiks c xs) post norms le := by
    intro i j
    have hj : j.val < (hypotheses (q i).2 (m i).grid).length := by rw [← m4]; exact j.isLt
    obtain ⟨l1, l2, k, ns, vs, pr, l3⟩ := hleaf _ (List.mem_of_getElem? (m2 i)) _ (m3 i) _ (List.getElem_mem hj)
    have l4 := spreading_prior prior _ (m9 i _ (List.getElem_mem hj))
    refine ⟨_, List.getElem?_eq_getElem hj, l1, l2, ?_⟩
    rw [l3] at l4 ⊢
    exact ⟨by rw [elements], rohyp_exists (E := { c.E with prior := prior }) hE.lattice_pos hX hpr l4 hπ c.E.cell _ hLne hL⟩
  choose tm t1 t2 t3 t4 post norms le t5 t6 using htm
  refine ⟨r, fun i => (m i).hyps.length, post, norms, le, fun i j => (ps i)[j.val]?.getD 1, fun i => (m i).grid.hgc.prod, fun i => (S'.tmPrior.getD [])[i.val]?.getD 1, ?_, fun ε hε => ?_⟩
  · intro i j q' m' tm' e1 e2 e3 u hu
    rw [m1] at e2
    rw [m2] at e1
    cases e1
    cases e2
    rw [t1] at e3
    cases e3
    exact t6 i j u hu
  -- bounds of the exact quantities
  obtain ⟨nm, hnm⟩ := bounded fun i => ((m i).hyps.length : ℝ)
  obtain ⟨V, hV⟩ := bounded fun i => (m i).grid.hgc.prod
  obtain ⟨B, hB⟩ := bounded fun z : (i : Fin r) × Fin (m i).hyps.length => ((norms z.1 z.2).map fun n => |Real.log n|).sum + |Real.log c.E.cell|
  obtain ⟨M1, hM1⟩ := bounded fun z : (i : Fin r) × Fin (m i).hyps.length => 2 + |Real.log (((m z.1).hyps[z.2.val]?.bind fun h => h.ev.map LogV.exp).getD 1)| + |Real.log ((ps z.1)[z.2.val]?.getD 1)|
  obtain ⟨M2, hM2⟩ := bounded fun i => 2 + Real.log ((m i).hyps.length : ℝ)
  obtain ⟨M3, hM3⟩ := bounded fun i => 2 + |Real.log (((m i).hyperEv.map LogV.exp).getD 1)|
  obtain ⟨M4, hM4⟩ := bounded fun i : Fin r => 2 + |Real.log (((m i).hyperEv.map LogV.exp).getD 1)| + |Real.log ((S'.tmPrior.getD [])[i.val]?.getD 1)|
  obtain ⟨M, hM⟩ : ∃ M, M = max (2 + Real.log r) (max M1 (max M2 (max M3 M4))) := ⟨_, rfl⟩
  have hMr : 2 + Real.log r ≤ M := by rw [hM]; exact le_max_left _ _
  have hMM1 : M1 ≤ M := by rw [hM]; exact (le_max_left _ _).trans (le_max_right _ _)
  have hMM2 : M2 ≤ M := by rw [hM]; exact (le_max_left _ _).trans ((le_max_right _ _).trans (le_max_right _ _))
  have hMM3 : M3 ≤ M := by rw [hM]; exact (le_max_left _ _).trans ((le_max_right _ _).trans ((le_max_right _ _).trans (le_max_right _ _)))
  have hMM4 : M4 ≤ M := by rw [hM]; exact (le_max_right _ _).trans ((le_max_right _ _).trans ((le_max_right _ _).trans (le_max_right _ _)))
  have hM0 : 0 ≤ M := by linarith [Real.log_natCast_nonneg r]
  have hnm0 : 0 ≤ nm := (Nat.cast_nonneg _).trans (hnm ⟨0, hr0⟩)
  have hV0 : 0 ≤ V := (m8 ⟨0, hr0⟩).le.trans (hV ⟨0, hr0⟩)
  have hB0 : 0 ≤ B := by
    refine le_trans ?_ (hB ⟨⟨0, hr0⟩, ⟨0, m7 _⟩⟩)
    refine add_nonneg (List.sum_nonneg fun y hy => ?_) (abs_nonneg _)
    obtain ⟨b, -, rfl⟩ := List.mem_map.1 hy
    exact abs_nonneg _
  -- accuracy of the arithmetic
  obtain ⟨T, hT⟩ : ∃ T, T = (segLiks c xs).length := ⟨_, rfl⟩
  obtain ⟨N, hN⟩ : ∃ N, N = Fintype.card (Idx gs) := ⟨_, rfl⟩
  obtain ⟨N₁, hN₁⟩ : ∃ N₁, N₁ = roundings T N 1 0 0 0 := ⟨_, rfl⟩
  obtain ⟨δ, hδ0, hδ1, hδ2⟩ : ∃ δ : ℝ, 0 < δ ∧ δ ≤ 1 / 300 ∧ 93 * δ ≤ ε := ⟨min (1 / 300) (ε / 93), by positivity, min_le_left _ _, by have := min_le_right (1 / 300) (ε / 93); linarith⟩
  obtain ⟨C, hC⟩ : ∃ C : ℝ, C = 1 + nm + r + (2 * nm + 10) * M + (2 * r + 10) * M + nm * (68 + 6 * V) + 2 * (N₁ + (T + 1) * B) + (T + 1) + (1 + N) + N₁ := ⟨_, rfl⟩
  have z1 : 0 ≤ (2 * nm + 10) * M := by positivity
  have z2 : 0 ≤ (2 * (r : ℝ) + 10) * M := by positivity
  have z3 : 0 ≤ nm * (68 + 6 * V) := by positivity
  have z4 : 0 ≤ 2 * (N₁ + ((T : ℝ) + 1) * B) := by positivity
  have z5 : (0 : ℝ) ≤ T := Nat.cast_nonneg _
  have z6 : (0 : ℝ) ≤ N := Nat.cast_nonneg _
  have z7 : (0 : ℝ) ≤ N₁ := Nat.cast_nonneg _
  have z8 : (0 : ℝ) ≤ r := Nat.cast_nonneg _
  have hC0 : 0 < C := by linarith
  obtain ⟨t, ht0, ht⟩ : ∃ t, 0 < t ∧ ∀ X, X ≤ C → t * X ≤ δ := by
    refine ⟨δ / C, div_pos hδ0 hC0, fun X hX => ?_⟩
    rw [div_mul_eq_mul_div, div_le_iff₀ hC0]
    exact mul_le_mul_of_nonneg_left hX hδ0.le
  have y1 := ht 1 (by linarith)
  have y2 := ht nm (by linarith)
  have y3 := ht r (by linarith)
  have y4 := ht _ (show (2 * nm + 10) * M ≤ C by linarith)
  have y5 := ht _ (show (2 * (r : ℝ) + 10) * M ≤ C by linarith)
  have y6 := ht _ (show nm * (68 + 6 * V) ≤ C by linarith)
  have y7 := ht _ (show 2 * (N₁ + ((T : ℝ) + 1) * B) ≤ C by linarith)
  have y8 := ht (T + 1) (by linarith)
  have y9 := ht (1 + N) (by linarith)
  have y10 := ht N₁ (by linarith)
  have y11 := ht M (by nlinarith)
  have yn : ∀ i, t * ((m i).hyps.length : ℝ) ≤ δ := fun i => (mul_le_mul_of_nonneg_left (hnm i) ht0.le).trans y2
  have yn0 : ∀ i, 0 ≤ t * ((m i).hyps.length : ℝ) := fun i => by positivity
  have yl : ∀ i, logAcc t δ M (m i).hyps.length ≤ 4 * δ := by
    intro i
    have : t * ((2 * ((m i).hyps.length : ℝ) + 10) * M) ≤ t * ((2 * nm + 10) * M) :=
      mul_le_mul_of_nonneg_left (mul_le_mul_of_nonneg_right (by linarith [hnm i]) hM0) ht0.le
    rw [logAcc]
    linarith
  have ys : ∀ i, sumAcc t t (logAcc t δ M (m i).hyps.length) (m i).hyps.length ≤ 18 * δ := by
    intro i
    have h2 := yl i
    have h3 := yn i
    rw [sumAcc]
    linarith
  have yr : logAcc t (24 * δ) M r ≤ 73 * δ := by
    rw [logAcc]
    linarith
  have ysr : sumAcc t t (logAcc t (24 * δ) M r) r ≤ 87 * δ := by
    rw [sumAcc]
    linarith
  choose D₁ L Q d1 d2 using fun i => romodel_exists (κ := t) (τ := t) ht0.le ht0.le (m7 i) (le i) (fun j => (ps i)[j.val]?.getD 1)
    (fun j => by cases h : (ps i)[j.val]? with | none => exact one_pos | some y => exact m6 i y (List.mem_of_getElem? h)) (fun j x => (t5 i j x).le) (m8 i)
  have hpos : ∀ i : Fin r, 0 < (S'.tmPrior.getD [])[i.val]?.getD 1 := by
    intro i
    rw [a2, Option.getD_some]
    cases h : (S.tmPrior.getD (ms.map fun _ => 1 / (ms.length : ℝ)))[i.val]? with
    | none => exact one_pos
    | some y => exact htp y (List.mem_of_getElem? h)
  obtain ⟨w, P, Λ, hcomb⟩ := rocombine_exists (κ := t) (τ := t) ht0.le ht0.le hr0 L (fun i => (S'.tmPrior.getD [])[i.val]?.getD 1) hpos d2
  refine ⟨t, ht0, D₁, L, Q, w, P, Λ, d1, hcomb, ?_⟩
  have get : ∀ {i : Fin r} {m'}, S'.models[i.val]? = some m' → m' = m i := fun {i m'} h => by rw [m1] at h; cases h; rfl
  obtain ⟨-, w₀, P₀, l, -, -, q1, -, -, -, -, -, q2⟩ := C109_partial (M := M) (κ := t) (τ := t) (η := δ) (η₂ := 24 * δ) (Ω := 33 * δ) (ϑ := δ) (u := t) (eP := 0) (eL := 0) (e := 0) (N₁ := N₁) (N := N) (n := fun i => (m i).hyps.length)
    h1 hE hg.good hg.nonneg hne hs hr hx (fun m' hm' => (hlive m' hm').1) hprior ht0.le
    (fun x => acc_self (hπ x).le) (acc_self hcell.le) (List.forall₂_same.2 fun L' hL' x => acc_self (hL L' hL' x).le) hrl (fun i m' h => by rw [get h]) (by linarith) hδ0.le
    (by
      intro i j q' m' tm' e1 e2 e3
      rw [m1] at e2
      rw [m2] at e1
      cases e1
      cases e2
      rw [t1] at e3
      cases e3
      refine ⟨t2 i j, .inl (t3 i j), t6 i j t ht0.le, by rw [t4, hN₁, hT, hN], ?_⟩
      rw [← hT]
      have hb := hB ⟨i, j⟩
      refine le_trans (add_le_add_right (mul_le_mul_of_nonneg_left hb ?_) _) (eta_small ht0.le hB0 (by linarith) (by linarith) y7)
      rw [gam]
      push_cast
      exact div_nonneg (by positivity) (by linarith))
    ht0.le (by linarith) ht0.le (fun i => by linarith [yn i]) (fun i => by linarith [yn i, mul_comm t ((m i).hyps.length : ℝ)]) (fun i => by linarith [yl i]) (fun i => (hM2 i).trans hMM2)
    (hp := fun i j => (ps i)[j.val]?.getD 1)
    (by
      intro i j m' ps' p' e1 e2 e3
      rw [get e1, m5] at e2
      cases e2
      rw [e3]
      exact val_self hδ0.le (m6 i _ (List.mem_of_getElem? e3)))
    (by
      intro i j m' h l ps' p' e1 e2 e3 e4 e5 _
      rw [get e1, m5] at e4
      cases e4
      rw [get e1] at e2
      have := hM1 ⟨i, j⟩
      simp only [e2, e3, e5, Option.bind_some, Option.map_some, Option.getD_some] at this
      exact this.trans hMM1)
    (fun i => m8 i) (by intro i m' e1; rw [get e1]; simpa using hδ0.le) d1 hN (fun i => by linarith [ys i])
    (fun i => by
      have h2 := yl i
      have h3 := yn i
      have h4 := ys i
      rw [quotAcc]
      linarith)
    (by
      intro i m' e1
      rw [get e1]
      have h2 : ((m i).hyps.length : ℝ) * (68 + 6 * (m i).grid.hgc.prod) ≤ nm * (68 + 6 * V) := mul_le_mul (hnm i) (by linarith [hV i]) (by linarith [m8 i]) hnm0
      have h3 := mul_le_mul_of_nonneg_left h2 ht0.le
      linarith)
    (by linarith) (by linarith) (by linarith) (by linarith) (by linarith) (by linarith)
    (by
      rw [quotAcc]
      linarith)
    (πr := fun i => (S'.tmPrior.getD [])[i.val]?.getD 1)
    (by
      intro i πs a e1 e2
      have := hpos i
      rw [e1, Option.getD_some, e2] at this ⊢
      exact val_self (by linarith) this)
    hMr
    (by
      intro i m' l e1 e2
      rw [get e1] at e2
      have := hM3 i
      simp only [e2, Option.map_some, Option.getD_some] at this
      exact this.trans hMM3)
    (by
      intro i m' l πs a e1 e2 e3 e4 _
      rw [get e1] at e2
      have := hM4 i
      simp only [e2, e3, e4, Option.map_some, Option.getD_some] at this
      exact this.trans hMM4)
    hcomb
  exact ⟨l, q1, q2.trans (by linarith)⟩

/-- Runs of the local distribution exist as well. -/
theorem rolocal_exists {κ τ : ℝ} (h0 : 0 ≤ κ) (hτ : 0 ≤ τ) {r : ℕ} (hr : 0 < r) (Lo L π : Fin r → ℝ) (hπ : ∀ i, 0 < π i) : ∃ w, ROLocal κ τ Lo L π w := by
  have : Nonempty (Fin r) := ⟨⟨0, hr⟩⟩
  obtain ⟨l, l1, m, hm⟩ := logs_exist h0 hr (fun i => L i - Lo i) π hπ
  obtain ⟨v, s, q, hs, -⟩ := soft_exists h0 hτ m l
  exact ⟨q, _, l, fun i => near_self h0 _, l1, m, v, s, hm, hs⟩

/-- normally distributed data of mean zero, standard deviation 1, 2 or 3 -/
noncomputable def _root_.Ex.onlineConf : OConf ℝ ℝ Ex.gs3 := ⟨Ex.realEnv, fun _ (i : Fin 3) => (i.val : ℝ) + 1, fun ys x => normalDensity 0 ((x 0 : Fin 3).val + 1) (ys.headD 0), 1⟩

/-- a static model and a random walk with two possible step sizes -/
noncomputable def _root_.Ex.onlineModels : List (String × TM ℝ) := [("S", mkStatic), ("W", .leaf (.grw "x") ["sigma"] [.array [1, 2]] (some (.item .none)))]

theorem _root_.Ex.static_grid : createHyperGrid (mkStatic : TM ℝ) [] = .ok ⟨[], [], [], [], some [1]⟩ := rfl

theorem _root_.Ex.onlineModels_grid : ∀ q ∈ Ex.onlineModels, ∀ g, createHyperGrid q.2 [] = .ok g → (q.2 = mkStatic ∧ g = ⟨[], [], [], [], some [1]⟩) ∨
    (q.2 = Ex.twoWalks.tm ∧ g = ⟨[.array [1, 2]], ["sigma"], [[1], [2]], [1], some [1 / 2, 1 / 2]⟩) := by
  intro q hq g hg
  simp only [Ex.onlineModels, List.mem_cons, List.not_mem_nil, or_false] at hq
  rcases hq with rfl | rfl
  · left
    rw [Ex.static_grid] at hg
    cases hg
    exact ⟨rfl, rfl⟩
  · right
    have := Ex.twoWalks_grid []
    change createHyperGrid Ex.twoWalks.tm [] = .ok g at hg
    rw [this] at hg
    cases hg
    exact ⟨rfl, rfl⟩

theorem _root_.Ex.onlineModels_hyps : ∀ q ∈ Ex.onlineModels, ∀ g, createHyperGrid q.2 [] = .ok g → ∀ tm ∈ hypotheses q.2 g,
    tm = mkStatic ∨ tm = .leaf (.grw "x") ["sigma"] [.scalar 1] (some (.item .none)) ∨ tm = .leaf (.grw "x") ["sigma"] [.scalar 2] (some (.item .none)) := by
  intro q hq g hg tm htm
  rcases Ex.onlineModels_grid q hq g hg with ⟨h1, rfl⟩ | ⟨h1, rfl⟩
  · rw [h1] at htm
    simp only [hypotheses, List.length_nil, if_true, List.mem_singleton] at htm
    subst htm
    left
    rfl
  · rw [h1] at htm
    simp only [hypotheses, List.length_cons, List.length_nil, Nat.add_eq_zero_iff, one_ne_zero, and_false, if_false, List.map_cons, List.map_nil, List.mem_cons, List.not_mem_nil, or_false] at htm
    rcases htm with rfl | rfl
    · right; left; rfl
    · right; right; rfl

theorem _root_.Ex.onlineModels_live : LiveModels Ex.onlineConf.E Ex.onlineModels := by
  have hax : Ex.realEnv.axis "x" = .ok 0 := by simp [Env.axis, Ex.realEnv, List.finRange_succ]
  intro q hq
  have hh := Ex.onlineModels_hyps q hq
  have hgr := Ex.onlineModels_grid q hq
  have hq' := hq
  simp only [Ex.onlineModels, List.mem_cons, List.not_mem_nil, or_false] at hq'
  refine ⟨?_, ?_, fun g hg => ⟨?_, ?_, fun tm htm => ?_⟩⟩
  · rcases hq' with rfl | rfl
    · exact .static
    · exact .grw (name := "sigma") (value := .val (.array [1, 2])) (target := some "x") (prior := .item .none) rfl trivial rfl
  · rcases hq' with rfl | rfl <;> simp [entries, mkStatic]
  · rcases hgr g hg with ⟨-, rfl⟩ | ⟨-, rfl⟩ <;> simp
  · rcases hgr g hg with ⟨-, rfl⟩ | ⟨-, rfl⟩
    · exact ⟨_, rfl, by simp, by simp⟩
    · exact ⟨_, rfl, by simp, by simp⟩
  · change Spreading Ex.realEnv tm
    rcases hh g hg tm htm with rfl | rfl | rfl <;> simp [mkStatic, Spreading, hax]

theorem _root_.Ex.onlineSetup : ∃ S : OState ℝ ℝ Ex.gs3, setup true .none Ex.onlineModels (some [1, 2]) = .ok S := by
  have f1 : (.leaf .static [] [] (some (.item .none)) : TM ℝ).flatValues = [] := rfl
  have f2 : (.leaf (.grw "x") ["sigma"] [.array [1, 2]] (some (.item .none)) : TM ℝ).flatValues = [.array [1, 2]] := rfl
  have e1 : createHyperGrid (.leaf .static [] [] (some (.item .none)) : TM ℝ) [] = .ok ⟨[], [], [], [], some [1]⟩ := Ex.static_grid
  have e2 : createHyperGrid (.leaf (.grw "x") ["sigma"] [.array [1, 2]] (some (.item .none)) : TM ℝ) [] = .ok ⟨[.array [1, 2]], ["sigma"], [[1], [2]], [1], some [1 / 2, 1 / 2]⟩ := Ex.twoWalks_grid []
  simp [setup, Ex.onlineModels, addAll, OState.add, OState.new, OState.setTM, e1, e2, f1, f2, OState.setTMPrior, mkStatic]
  norm_num

theorem _root_.Ex.onlineLik (ys : List ℝ) : ∀ L ∈ segLiks Ex.onlineConf ys, ∀ x, 0 < L x := by
  intro L hL x
  obtain ⟨s, -, rfl⟩ := List.mem_map.1 hL
  change 0 < normalDensity 0 ((x 0 : Fin 3).val + 1) (s.headD 0)
  rw [normalDensity]
  positivity

/-- The hypotheses of `C109_partial` are met (see `C109_exists`): an online study with normally distributed data of mean zero, three possible standard deviations, a static model and a random walk with two
possible step sizes, for every data set. -/
example (ys : List ℝ) (hy : ys ≠ []) : ∃ S S' : OState ℝ ℝ Ex.gs3, setup true .none Ex.onlineModels (some [1, 2]) = .ok S ∧ runSteps Ex.onlineConf S ys = .ok S' ∧
    ∃ (r : ℕ) (n : Fin r → ℕ) (post : (i : Fin r) → Fin (n i) → Idx Ex.gs3 → ℝ) (le hp : (i : Fin r) → Fin (n i) → ℝ) (c' πr : Fin r → ℝ), ∀ ε, 0 < ε → ∃ t, 0 < t ∧
      ∃ (D₁ : (i : Fin r) → Fin (n i) → ℝ) (L : Fin r → ℝ) (Q : Fin r → Idx Ex.gs3 → ℝ) (w : Fin r → ℝ) (P : Idx Ex.gs3 → ℝ) (Λ : ℝ),
        (∀ i, ROModel t t (le i) (hp i) (post i) (c' i) (D₁ i) (L i) (Q i)) ∧ ROCombine t t L πr Q w P Λ ∧ ∃ l, S'.logEv = some l ∧ |Λ - Real.log l.exp| ≤ ε := by
  have hax : Ex.realEnv.axis "x" = .ok 0 := by simp [Env.axis, Ex.realEnv, List.finRange_succ]
  have hX : ProperExt Ex.onlineConf.E.ext := realExt_proper _ _
  have hpos := Ex.onlineLik ys
  obtain ⟨S, hs⟩ := Ex.onlineSetup
  have hp : ∀ l, some [(1 : ℝ), 2] = some l → ∀ x ∈ l, 0 < x := by rintro l ⟨⟩; simp
  have hne : Ex.onlineModels ≠ [] := by simp [Ex.onlineModels]
  obtain ⟨S', hr, -⟩ := C110_partial Ex.onlineConf le_rfl Ex.realEnv_regular.nonempty Ex.realEnv_regular.lattice_pos hX Ex.onlineModels hne Ex.onlineModels_live (by simp [Ex.onlineModels, entries, mkStatic]) true
    .none trivial (some [1, 2]) hp S hs ys hpos
  obtain ⟨r, n, post, norms, le, hp', c', πr, -, h⟩ := C109_exists (c := Ex.onlineConf) le_rfl Ex.realEnv_regular hX Ex.onlineModels_live hne (prior := .none) trivial hp hs hpos hr (List.length_pos_iff.2 hy) .flat (by
    intro q hq g hg tm htm
    change Linear Ex.realEnv tm ∧ _
    rcases Ex.onlineModels_hyps q hq g hg tm htm with rfl | rfl | rfl
    · exact ⟨by simp [mkStatic, Linear], by simp [mkStatic, ResetFree], _, _, _, _, rfl⟩
    · exact ⟨by simp [Linear, hax], by simp [ResetFree], _, _, _, _, rfl⟩
    · exact ⟨by simp [Linear, hax], by simp [ResetFree], _, _, _, _, rfl⟩)
  exact ⟨S, S', hs, hr, r, n, post, le, hp', c', πr, h⟩

/-- The hypotheses of `C109_local` and `C109_local_first` are met in the same study, for all pairs of data points. -/
example (y₁ y₂ : ℝ) : ∃ (S S1 S2 : OState ℝ ℝ Ex.gs3) (u₁ u₂ : List ℝ) (Λ₁ Λ₂ π w₁ w₂ : Fin 2 → ℝ) (t M : ℝ), setup true .none Ex.onlineModels (some [1, 2]) = .ok S ∧ runSteps Ex.onlineConf S [y₁] = .ok S1 ∧
    S1.step (some Ex.onlineConf) y₂ = (S2, none) ∧ S1.ltmd = some u₁ ∧ S2.ltmd = some u₂ ∧ 0 < t ∧ ROLocal t t (fun _ => 0) Λ₁ π w₁ ∧ ROLocal t t Λ₁ Λ₂ π w₂ ∧
    (∀ (i : Fin 2) y, u₁[i.val]? = some y → Off (quotAcc t t (logAcc t (2 * 0 + t * M) M 2) 2) (16 * t) y (w₁ i)) ∧
    ∀ (i : Fin 2) y, u₂[i.val]? = some y → Off (quotAcc t t (logAcc t (2 * 0 + t * M) M 2) 2) (16 * t) y (w₂ i) := by
  have hX : ProperExt Ex.onlineConf.E.ext := realExt_proper _ _
  obtain ⟨S, hs⟩ := Ex.onlineSetup
  have hp : ∀ l, some [(1 : ℝ), 2] = some l → ∀ x ∈ l, 0 < x := by rintro l ⟨⟩; simp
  have hne : Ex.onlineModels ≠ [] := by simp [Ex.onlineModels]
  have hreg := Ex.realEnv_regular
  have hnon := hreg.nonempty
  have hrun := fun ys => C110_partial Ex.onlineConf le_rfl hreg.nonempty hreg.lattice_pos hX Ex.onlineModels hne Ex.onlineModels_live (by simp [Ex.onlineModels, entries, mkStatic]) true
    .none trivial (some [1, 2]) hp S hs ys (Ex.onlineLik ys)
  obtain ⟨S1, hr1, -⟩ := hrun [y₁]
  obtain ⟨S2, hr2, -⟩ := hrun [y₁, y₂]
  have hst1 : S.step (some Ex.onlineConf) y₁ = (S1, none) := by
    rw [runSteps] at hr1
    split at hr1
    · cases hr1
    · next h => rw [runSteps] at hr1; cases hr1; exact h
  have hst2 : S1.step (some Ex.onlineConf) y₂ = (S2, none) := by
    rw [runSteps, hst1] at hr2
    simp only at hr2
    rw [runSteps] at hr2
    split at hr2
    · cases hr2
    · next h => rw [runSteps] at hr2; cases hr2; exact h
  have hcell : 0 ≤ Ex.onlineConf.E.cell := (cell_pos hreg.lattice_pos).le
  obtain ⟨n1, k1⟩ := models_live (c := Ex.onlineConf) hreg.lattice_pos hX le_rfl Ex.onlineModels_live hne hs trivial (Ex.onlineLik _) hr1 (by simp [Ex.onlineConf])
  obtain ⟨n2, k2⟩ := models_live (c := Ex.onlineConf) hreg.lattice_pos hX le_rfl Ex.onlineModels_live hne hs trivial (Ex.onlineLik _) hr2 (by simp [Ex.onlineConf])
  obtain ⟨-, p1, -⟩ := online_facts (c := Ex.onlineConf) le_rfl hcell Ex.onlineModels_live.good Ex.onlineModels_live.nonneg hne hs hr1 (by simp [Ex.onlineConf])
  obtain ⟨-, p2, -⟩ := online_facts (c := Ex.onlineConf) le_rfl hcell Ex.onlineModels_live.good Ex.onlineModels_live.nonneg hne hs hr2 (by simp [Ex.onlineConf])
  have htp := tmPrior_pos (c := Ex.onlineConf) le_rfl hne hs hp
  obtain ⟨πs, hπs⟩ : ∃ πs, πs = S.tmPrior.getD (Ex.onlineModels.map fun _ => 1 / (Ex.onlineModels.length : ℝ)) := ⟨_, rfl⟩
  rw [← hπs] at p1 p2 htp
  have hlen : Ex.onlineModels.length = 2 := rfl
  have ex : ∀ {T : OState ℝ ℝ Ex.gs3}, (∀ m ∈ T.models, ∃ l : LogV ℝ, m.hyperEv = some l ∧ 0 < l.exp) → T.models.length = 2 → ∃ e : Fin 2 → LogV ℝ, ∀ i : Fin 2, ∀ m, T.models[i.val]? = some m →
      m.hyperEv = some (e i) ∧ 0 < (e i).exp := by
    intro T h hl
    choose e he using fun i : Fin 2 => h _ (List.getElem_mem (show i.val < T.models.length by rw [hl]; exact i.isLt))
    refine ⟨e, fun i m hm => ?_⟩
    obtain ⟨hi, rfl⟩ := List.getElem?_eq_some_iff.1 hm
    exact he i
  obtain ⟨e1, he1⟩ := ex (T := S1) (fun m hm => by obtain ⟨-, -, D, l, Q, -, -, -, a, b, -⟩ := k1 m hm; exact ⟨l, a, b⟩) (n1.trans hlen)
  obtain ⟨e2, he2⟩ := ex (T := S2) (fun m hm => by obtain ⟨-, -, D, l, Q, -, -, -, a, b, -⟩ := k2 m hm; exact ⟨l, a, b⟩) (n2.trans hlen)
  obtain ⟨M1, hM1⟩ := bounded fun i : Fin 2 => 2 + |Real.log (e1 i).exp| + |Real.log (πs[i.val]?.getD 1)|
  obtain ⟨M2, hM2⟩ := bounded fun i : Fin 2 => 2 + |Real.log ((e2 i).exp / (e1 i).exp)| + |Real.log (πs[i.val]?.getD 1)|
  obtain ⟨M, hM⟩ : ∃ M, M = max (2 + Real.log (2 : ℕ)) (max M1 M2) := ⟨_, rfl⟩
  have hMr : 2 + Real.log (2 : ℕ) ≤ M := by rw [hM]; exact le_max_left _ _
  have hMM1 : M1 ≤ M := by rw [hM]; exact (le_max_left _ _).trans (le_max_right _ _)
  have hMM2 : M2 ≤ M := by rw [hM]; exact (le_max_right _ _).trans (le_max_right _ _)
  have hM0 : 2 ≤ M := by linarith [Real.log_natCast_nonneg 2]
  obtain ⟨t, ht, htM, ht2⟩ : ∃ t : ℝ, 0 < t ∧ t * M ≤ 1 / 100 ∧ t ≤ 1 / 200 := by
    refine ⟨1 / (100 * M), by positivity, ?_, ?_⟩
    · field_simp
      linarith
    · rw [div_le_div_iff₀ (by positivity) (by norm_num)]
      linarith
  have hΔ : logAcc t (2 * 0 + t * M) M 2 ≤ 1 / 4 := by
    rw [logAcc]
    push_cast
    linarith
  have hpos : ∀ i : Fin 2, 0 < πs[i.val]?.getD 1 := by
    intro i
    cases h : πs[i.val]? with
    | none => exact one_pos
    | some y => exact htp y (List.mem_of_getElem? h)
  have hval : ∀ (T : OState ℝ ℝ Ex.gs3), T.tmPrior = some πs → ∀ (i : Fin 2) πs' a, T.tmPrior = some πs' → πs'[i.val]? = some a → ValApprox 0 a (πs[i.val]?.getD 1) := by
    intro T hT i πs' a h1 h2
    rw [hT] at h1
    cases h1
    have := hpos i
    rw [h2] at this ⊢
    exact val_self le_rfl this
  obtain ⟨w₁, hw₁⟩ := rolocal_exists (κ := t) (τ := t) ht.le ht.le two_pos (fun _ => 0) (fun i => Real.log (e1 i).exp) (fun i => πs[i.val]?.getD 1) hpos
  obtain ⟨w₂, hw₂⟩ := rolocal_exists (κ := t) (τ := t) ht.le ht.le two_pos (fun i => Real.log (e1 i).exp) (fun i => Real.log (e2 i).exp) (fun i => πs[i.val]?.getD 1) hpos
  obtain ⟨u₁, a1, -, a2⟩ := C109_local_first (c := Ex.onlineConf) (xs := []) (M := M) (η := 0) le_rfl hcell Ex.onlineModels_live.good Ex.onlineModels_live.nonneg hne hs rfl rfl hst1 (n1.trans hlen).symm ht.le
    (by push_cast; linarith) (by linarith) ht.le (by push_cast; linarith) le_rfl hΔ hMr (fun i m hm => ⟨_, (he1 i m hm).1, (he1 i m hm).2, by simp⟩) (hval S1 p1)
    (by
      intro i m l πs' a h1 h2 h3 h4
      rw [(he1 i m h1).1] at h2
      cases h2
      rw [p1] at h3
      cases h3
      have := hM1 i
      rw [h4] at this
      exact this.trans hMM1) hw₁
  obtain ⟨u₂, b1, -, b2⟩ := C109_local (c := Ex.onlineConf) (M := M) (η := 0) le_rfl hcell Ex.onlineModels_live.good Ex.onlineModels_live.nonneg hne hs hr1 (by simp [Ex.onlineConf]) hst2 (n2.trans hlen).symm ht.le
    (by push_cast; linarith) (by linarith) ht.le (by push_cast; linarith) le_rfl hΔ hMr (fun i m hm => ⟨_, (he1 i m hm).1, (he1 i m hm).2, by simp⟩) (fun i m hm => ⟨_, (he2 i m hm).1, (he2 i m hm).2, by simp⟩) (hval S2 p2)
    (by
      intro i m m' l l' πs' a h1 h2 h3 h4 h5 h6
      rw [(he1 i m h1).1] at h2
      cases h2
      rw [(he2 i m' h3).1] at h4
      cases h4
      rw [p2] at h5
      cases h5
      have := hM2 i
      rw [h6] at this
      exact this.trans hMM2) hw₂
  exact ⟨S, S1, S2, u₁, u₂, _, _, _, w₁, w₂, t, M, hs, hr1, hst2, a1, b1, ht, hw₁, hw₂, a2, b2⟩

end Props
