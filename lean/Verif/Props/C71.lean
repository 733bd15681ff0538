import Verif.Props.C30
import Verif.Props.C41

/-! # C71: an online study is a hyper-study that is fed step by step -/

set_option linter.unusedSectionVars false

namespace Props
open BL Spec

variable {K D : Type} [Field K] [LinearOrder K] [IsStrictOrderedRing K] {d : ℕ} {gs : Fin d → ℕ}

theorem listMax_scale {κ : K} (hκ : 0 < κ) (w : List K) : listMax (w.map (· * κ)) = (listMax w).map (· * κ) := by
  unfold listMax
  cases w with
  | nil => rfl
  | cons x l =>
      simp only [List.map_cons, List.max?_cons', Option.map_some]
      congr 1
      induction l generalizing x with
      | nil => rfl
      | cons y l ih =>
          simp only [List.map_cons, List.foldl_cons]
          rw [← max_mul_of_nonneg _ _ hκ.le, ih]

theorem sum_map_mul_right' (l : List K) (κ : K) : (l.map (· * κ)).sum = l.sum * κ := by
  induction l with
  | nil => simp
  | cons x l ih => simp [ih, add_mul]

/-- the distributions of the two kinds of studies -/
theorem hyperDist_normWeights {evs : List (LogV K)} {ps hgc : List K} (h0 : 0 ≤ hgc.prod) :
    hyperDist evs ps hgc = (normWeights (List.zipWith (fun e p => (e + LogV.log p).exp) evs ps)).bind fun l => if hgc.prod = 0 then none else some (l.map (· / hgc.prod)) := by
  have hj : (logHPD evs ps hgc).map LogV.exp = (List.zipWith (fun e p => (e + LogV.log p).exp) evs ps).map (· * hgc.prod) := by
    rw [logHPD, List.map_zipWith, List.map_zipWith]; rfl
  unfold hyperDist
  simp only [hj]
  generalize List.zipWith (fun e p => (e + LogV.log p).exp) evs ps = w
  rcases h0.lt_or_eq with hκ | hκ
  · rw [listMax_scale hκ, normWeights]
    cases hM : listMax w with
    | none => rfl
    | some M =>
        simp only [Option.map_some, mul_eq_zero, hκ.ne', or_false]
        by_cases h : M = 0
        · simp [h]
        · simp only [h, if_false, Option.bind_some, List.map_map]
          have hx : ((fun x => x / (M * hgc.prod)) ∘ fun x => x * hgc.prod) = fun x : K => x / M := by
            funext x; simp only [Function.comp]; rw [mul_div_mul_right _ _ hκ.ne']
          rw [hx]
          rfl
  · have : ∀ M, listMax (w.map (· * hgc.prod)) = some M → M = 0 := by
      intro M hM
      have := List.max?_mem hM
      obtain ⟨x, -, rfl⟩ := List.mem_map.1 this
      rw [← hκ, mul_zero]
    cases hM : listMax (w.map (· * hgc.prod)) with
    | none => cases hN : normWeights w <;> simp [hκ.symm]
    | some M => rw [this M hM]; cases hN : normWeights w <;> simp [hκ.symm]

theorem noAll_setup : ∀ (ms : List (String × TM K)) (S S' : OState K D gs), S.rawTs = none → addAll S ms = .ok S' → ∀ q ∈ ms, ∀ v ∈ q.2.flatValues, v ≠ .all
  | [], _, _, _, _ => by simp
  | q :: qs, S, S', h0, h => by
      rw [addAll] at h
      split at h
      · cases h
      · rename_i S1 hS1
        have hadd : S1.rawTs = none ∧ ∀ v ∈ q.2.flatValues, v ≠ .all := by
          unfold OState.add at hS1
          have hset : ∀ S2, S.setTM q.2 = (S2, none) → S2.rawTs = none := by
            intro S2 h2
            unfold OState.setTM at h2
            split at h2
            · cases h2
            · cases h2; exact h0
          split at hS1
          · cases hS1
          · rename_i S2 h2
            have h2' := hset S2 h2
            split at hS1
            · cases hS1
            · rename_i hall
              split at hS1
              · cases hS1
              · cases hS1
                refine ⟨h2', ?_⟩
                intro v hv hva
                apply hall
                simp only [h2', Option.isNone_none, Bool.true_and, List.any_eq_true]
                exact ⟨v, hv, by rw [hva]⟩
        intro q' hq'
        rcases List.mem_cons.1 hq' with rfl | hq'
        · exact hadd.2
        · exact noAll_setup qs S1 S' hadd.1 h q' hq'

theorem createHyperGrid_stamps {tm : TM K} (h : ∀ v ∈ tm.flatValues, v ≠ .all) (ts ts' : List K) : createHyperGrid tm ts = createHyperGrid tm ts' := by
  have : tm.flatValues.map (expandAll ts) = tm.flatValues.map (expandAll ts') := by
    apply List.map_congr_left
    intro v hv
    cases v with
    | all => exact absurd rfl (h _ hv)
    | _ => rfl
  unfold createHyperGrid
  rw [this]

theorem forall₂_evs {xs : List (TM K)} {hs : List (OHyp K gs)} {As : List (FitState K gs)} {P : TM K → OHyp K gs → Prop} {Q : TM K → FitState K gs → Prop}
    (h1 : List.Forall₂ P xs hs) (h2 : List.Forall₂ Q xs As) (h : ∀ M h A, A ∈ As → P M h → Q M A → h.ev = some A.logEv ∧ ∃ post, A.posts.getLast? = some (.val post) ∧ h.post = some post) :
    hs.map OHyp.ev = As.map (fun A => some A.logEv) ∧ List.Forall₂ (fun h A => ∃ post, A.posts.getLast? = some (.val post) ∧ h.post = some post) hs As := by
  induction h1 generalizing As with
  | nil => cases h2; exact ⟨rfl, .nil⟩
  | cons a _ ih =>
      cases h2 with
      | cons b c =>
          obtain ⟨i1, i2⟩ := ih c fun M h' A hA => h M h' A (by simp [hA])
          obtain ⟨j1, j2⟩ := h _ _ _ (by simp) a b
          exact ⟨by simp [i1, j1], .cons j2 i2⟩

theorem allSome_map_some {α : Type} : ∀ l : List α, allSome (l.map some) = some l
  | [] => rfl
  | a :: l => by simp [allSome, allSome_map_some l]

theorem singles_unique {α β : Type} {f : α → Except PyErr β} {xs : List α} {ys ys' : List β} (h1 : List.Forall₂ (fun a b => f a = .ok b) xs ys) (h2 : List.Forall₂ (fun a b => f a = .ok b) xs ys') : ys = ys' := by
  induction h1 generalizing ys' with
  | nil => cases h2; rfl
  | cons a _ ih =>
      cases h2 with
      | cons b c =>
          rw [a] at b
          cases b
          rw [ih c]

theorem forall₂_both {α β : Type} {P Q : α → β → Prop} {xs : List α} {ys : List β} (h1 : List.Forall₂ P xs ys) (h2 : List.Forall₂ Q xs ys) : List.Forall₂ (fun a b => P a b ∧ Q a b) xs ys := by
  induction h1 with
  | nil => exact .nil
  | cons a _ ih =>
      cases h2 with
      | cons b c => exact .cons ⟨a, b⟩ (ih c)

theorem mixture_lists {hs : List (OHyp K gs)} {As : List (FitState K gs)} (h : List.Forall₂ (fun h A => ∃ post, A.posts.getLast? = some (.val post) ∧ h.post = some post) hs As) (W : List K) :
    BL.mixture (hs.map OHyp.post) (some W) = some fun x => Spec.mixture As W fun A => match A.posts.getLast? with | some (.val p) => p x | _ => 0 := by
  have hall : ∃ ps, allSome (hs.map OHyp.post) = some ps ∧ List.Forall₂ (fun p A => A.posts.getLast? = some (.val p)) ps As := by
    induction h with
    | nil => exact ⟨[], rfl, .nil⟩
    | cons a _ ih =>
        obtain ⟨ps, h1, h2⟩ := ih
        obtain ⟨p, a1, a2⟩ := a
        exact ⟨p :: ps, by simp [allSome, a2, h1], .cons a1 h2⟩
  obtain ⟨ps, h1, h2⟩ := hall
  simp only [BL.mixture, h1, Option.some.injEq]
  funext x
  simp only [Spec.mixture]
  clear h1 h
  induction h2 generalizing W with
  | nil => simp
  | cons a _ ih =>
      cases W with
      | nil => simp
      | cons w W => simp only [List.zipWith_cons_cons, List.zip_cons_cons, List.map_cons, List.sum_cons, a, ih]; rw [mul_comm]

/-- **C71 (part that holds).** Online study with any number of transition models, hyper-study with one of them: the model does not depend on time, has at least two combinations of hyper-parameter values,
the prior of the parameters is not a numpy array, hyper-priors are not negative, and no combination has evidence zero.  After the data points have been fed one by one, the distribution of the
hyper-parameters is the one that `HyperStudy.fit(forwardOnly=True)` computes from the same data; the evidences of all combinations agree; the posterior of the model differs from
the last posterior of the hyper-study by at most the number of grid points times `10^-300` (the floor of the hyper-study).  The evidence of the model times the hyper-grid cell is the evidence of the
hyper-study. -/
theorem C71_partial (c : OConf K D gs) (h1 : 1 ≤ c.seg) (hne : Nonempty (Idx gs)) (hX : ExtNN c.E.ext) (hl : ∀ a, 0 ≤ c.E.lattice a) (hlik : ∀ s x, 0 ≤ c.pdf s x)
    (ms : List (String × TM K)) (hg : GoodModels ms) (hnn : NonnegPriors ms) (hms : ms ≠ []) (store : Bool) (prior : PriorSpec K gs) (hpr : PriorNN prior) (hn : prior.isArray = false)
    (p : Option (List K)) (S S' : OState K D gs) (hs : setup store prior ms p = .ok S) (xs : List D) (hr : runSteps c S xs = .ok S') (hx : c.seg ≤ xs.length) :
    List.Forall₂ (fun q m => m.name = q.1 ∧ ∀ (nJobs : ℕ) (ts : List K) (ε : K) (H R : HState K gs), H.tm = q.2 → H.S.prior = prior → 0 < ε → Timeless q.2 → 1 < m.grid.rows.length →
        hyperFit ⟨c.E, c.grid, segLiks c xs, ts, true, false, ε⟩ nJobs H = .ok (some R) → (∀ e ∈ R.evs, e ≠ LogV.ninf) → R.S.logEv ≠ LogV.ninf →
        m.hpd = R.hpd ∧ m.hyps.map OHyp.ev = R.evs.map some ∧ (∃ l, m.hyperEv = some l ∧ l.exp * m.grid.hgc.prod = R.S.logEv.exp) ∧
        ∃ P Q, R.S.posts.getLast? = some (.val P) ∧ m.post = some Q ∧ ∀ x, |P x - Q x| ≤ (Fintype.card (Idx gs) : K) * ε) ms S'.models := by
  have hcell : 0 ≤ c.E.cell := Finset.prod_nonneg fun a _ => hl a
  obtain ⟨a1, -⟩ := online_facts h1 hcell hg hnn hms hs hr hx
  have a2 := C40_partial c h1 ms hg hms store prior hn p S S' hs xs hr hx
  have hall : ∀ q ∈ ms, ∀ v ∈ q.2.flatValues, v ≠ .all := by
    unfold setup at hs
    split at hs
    · cases hs
    · rename_i S1 hS1
      exact noAll_setup ms _ S1 rfl hS1
  have hlen : (segLiks c xs).length = xs.length + 1 - c.seg := by simp [segLiks, movingWindow_len]
  have hL : 0 < (segLiks c xs).length := by omega
  have hcomb := forall₂_and_mem (forall₂_both a1 a2)
  refine hcomb.imp ?_
  rintro q m ⟨hq, ⟨hname, hgrid, hfin⟩, -, -, hyps⟩
  refine ⟨hname, ?_⟩
  intro nJobs ts ε H R htm hHp hε htl hrows hR hpos hpos'
  obtain ⟨g1, g2, g3⟩ := hg q hq
  have hgr : createHyperGrid H.tm ts = .ok m.grid := by rw [htm, createHyperGrid_stamps (hall q hq) ts []]; exact hgrid
  obtain ⟨ps, hps, hpl, hp0⟩ := hfin.priors
  have hκ : 0 ≤ m.grid.hgc.prod := hgc_nonneg (Built.matched g1).proper hgrid
  rcases hyperFit_spec ⟨c.E, c.grid, segLiks c xs, ts, true, false, ε⟩ nJobs H m.grid ps (by rw [htm]; exact g1) (by rw [htm]; exact g2) (by rw [hHp]; exact hn) hgr hps hrows with
    ⟨e, he⟩ | ⟨As, s1, s2, -, R', r0, r1, r2, r3, -⟩
  · rw [he] at hR; cases hR
  · rw [hR] at r0
    cases r0
    have hhyp : hypotheses q.2 m.grid = m.grid.rows.map (modelAt q.2) := by
      unfold hypotheses
      rw [if_neg (by omega)]
    rw [hhyp] at hyps
    have s1' : List.Forall₂ (fun M A => fit c.E c.grid M (segLiks c xs) ts true false H.S = .ok A) (m.grid.rows.map (modelAt q.2)) As := by
      rw [List.forall₂_map_left_iff]
      refine s1.imp ?_
      intro row A h
      rw [← htm]; exact h
    obtain ⟨e1, e2⟩ := forall₂_evs hyps s1' fun M h A hA hP hQ => hP ts H.S A hHp htl hQ (hpos _ (by rw [r1]; exact List.mem_map_of_mem hA))
    have hev : m.hyps.map OHyp.ev = R.evs.map some := by rw [e1, r1, List.map_map]; rfl
    have hw : hypWeights m.hyps m.grid.priors = some (List.zipWith (fun e p => (e + LogV.log p).exp) R.evs ps) := by
      simp only [hypWeights, hev, allSome_map_some, hps]
    have hhpd : m.hpd = R.hpd := by
      rw [r2, ← r1, hyperDist_normWeights hκ, hfin.eq]
      simp only [OModelSt.finish, hw, Option.bind_some]
    refine ⟨hhpd, hev, ⟨_, by rw [hfin.eq]; simp only [OModelSt.finish, hw, Option.map_some]; rfl, ?_⟩, ?_⟩
    · rw [r3, hyperEvidence_eq, joint, ← r1]
      simp only [LogV.exp]
      rw [← sum_map_mul_right', List.map_zipWith]
      rfl
    · obtain ⟨As', W, Dn, c1, c2, c3, P, p1, p2⟩ := C30_error_partial ⟨c.E, c.grid, segLiks c xs, ts, true, false, ε⟩ nJobs H R m.grid ps (by rw [htm]; exact g1) (by rw [htm]; exact g2)
        (by rw [hHp]; exact hn) hgr hps hrows hp0 hR hpos' rfl hε hne hX hl (by rw [hHp]; exact hpr) (by
          intro L hL' x
          obtain ⟨s, -, rfl⟩ := List.mem_map.1 hL'
          exact hlik s x)
      have hAs : As' = As := singles_unique c1 s1
      subst hAs
      have hm := mixture_lists e2 W
      refine ⟨P ((segLiks c xs).length - 1), fun x => Spec.mixture As' W fun A => match A.posts.getLast? with | some (.val p) => p x | _ => 0, ?_, ?_, ?_⟩
      · rw [p1, List.getLast?_map, List.getLast?_range]
        simp only
        rw [if_neg (by omega)]
        rfl
      · have f1 := congrArg OModelSt.post hfin.eq
        have f2 := congrArg OModelSt.hpd hfin.eq
        simp only [OModelSt.finish] at f1 f2
        rw [← f2, hhpd, c2, Option.map_some, c3, hm] at f1
        exact f1
      · intro x
        refine le_of_eq_of_le ?_ (p2 ((segLiks c xs).length - 1) (Nat.sub_lt hL one_pos) x)
        congr 2
        refine mixture_congr fun k A w hA _ _ => ?_
        obtain ⟨row, -, hsf⟩ := Singles.mem c1 (List.mem_of_getElem? hA)
        obtain ⟨l1, -⟩ := C07_normalised _ _ _ _ _ _ _ _ hsf (hpos _ (by rw [r1]; exact List.mem_map_of_mem (List.mem_of_getElem? hA)))
        have l1' : A.posts.length = (segLiks c xs).length := l1
        simp only [postOf, ← l1', List.getLast?_eq_getElem?]
        generalize A.posts[A.posts.length - 1]? = o
        match o with
        | none => rfl
        | some .uninit => rfl
        | some .nan => rfl
        | some (.val p) => rfl

end Props

namespace Ex
open BL Spec

/-- hyper-study with the random walk of `two`, same data -/
def ohIn : FitIn ℚ gs2 := ⟨oc.E, oc.grid, segLiks oc [(1 / 4, 3 / 4), (1 / 2, 1 / 4)], [3, 7], true, false, 1 / 1000⟩
def ohH : HState ℚ gs2 := ⟨ogrw [0, 1 / 2], S0 .none, [], none⟩

/-- evidences of a hyper-study are finite, and its model evidence is `v` -/
def ohTest (v : ℚ) (R : Option (HState ℚ gs2)) : Bool :=
  match R with
  | some R => R.evs.all (fun e => decide (e.exp ≠ 0)) && decide (R.S.logEv.exp = v)
  | none => false

end Ex

namespace Props
open BL Spec Ex

/-- **Refutation of C71.** The model evidences differ: the random walk with standard deviations 0 and 1/2 has online twice the evidence that the hyper-study reports, because the online study does not multiply by the
hyper-grid cell (here 1/2). -/
theorem C71_refuted : ∃ (S S' : OState ℚ (ℚ × ℚ) gs2) (m1 m2 : OModelSt ℚ gs2) (R : HState ℚ gs2),
    GoodModels two ∧ setup true .none two none = .ok S ∧ runSteps oc S [(1 / 4, 3 / 4), (1 / 2, 1 / 4)] = .ok S' ∧ S'.models = [m1, m2] ∧
    hyperFit ohIn 1 ohH = .ok (some R) ∧ m2.hyperEv.map LogV.exp ≠ some R.S.logEv.exp ∧ m2.hyperEv.map LogV.exp = some (2 * R.S.logEv.exp) ∧ R.S.logEv.exp ≠ 0 := by
  have h1 : holds (orun true .none two none [(1 / 4, 3 / 4), (1 / 2, 1 / 4)]) (fun S' => match S'.models with
    | [_, m] => decide (m.hyperEv.map LogV.exp = some (21 / 64))
    | _ => false) = true := by decide +kernel
  have h2 : holds (hyperFit ohIn 1 ohH) (ohTest (21 / 128)) = true := by decide +kernel
  obtain ⟨S', a1, a2⟩ := holds_iff.1 h1
  obtain ⟨R, f1, f2⟩ := holds_iff.1 h2
  obtain ⟨S, b1, b2⟩ := orun_ok a1
  split at a2
  · rename_i m1 m2 hm
    cases R with
    | none => cases f2
    | some R =>
        simp only [ohTest, Bool.and_eq_true, decide_eq_true_eq] at f2 a2
        refine ⟨S, S', m1, m2, R, good_two, b1, b2, hm, f1, ?_, ?_, ?_⟩ <;> rw [f2.2] <;> try rw [a2]
        all_goals norm_num
  · cases a2

theorem nonneg_two : NonnegPriors two := by
  have key : ∀ q ∈ two, (match createHyperGrid q.2 [] with | .ok g => (match g.priors with | some ps => ps.all fun p => decide (0 ≤ p) | none => true) | .error _ => true) = true := by
    decide +kernel
  intro q hq g ps hg hps p hp
  have := key q hq
  rw [hg] at this
  simp only [hps, List.all_eq_true, decide_eq_true_eq] at this
  exact this p hp

/-- all assumptions of `C71_partial` can be met: two models, one of them with two values of its hyper-parameter -/
example : ∃ (S S' : OState ℚ (ℚ × ℚ) gs2) (m1 m2 : OModelSt ℚ gs2) (R : HState ℚ gs2),
    GoodModels two ∧ NonnegPriors two ∧ Timeless (ogrw [0, 1 / 2]) ∧ setup true .none two none = .ok S ∧ runSteps oc S [(1 / 4, 3 / 4), (1 / 2, 1 / 4)] = .ok S' ∧ S'.models = [m1, m2] ∧
    1 < m2.grid.rows.length ∧ hyperFit ohIn 1 ohH = .ok (some R) ∧ (∀ e ∈ R.evs, e ≠ LogV.ninf) ∧ R.S.logEv ≠ LogV.ninf := by
  have h1 : holds (orun true .none two none [(1 / 4, 3 / 4), (1 / 2, 1 / 4)]) (fun S' => match S'.models with
    | [_, m] => decide (1 < m.grid.rows.length)
    | _ => false) = true := by decide +kernel
  have h2 : holds (hyperFit ohIn 1 ohH) (ohTest (21 / 128)) = true := by decide +kernel
  obtain ⟨S', a1, a2⟩ := holds_iff.1 h1
  obtain ⟨R, f1, f2⟩ := holds_iff.1 h2
  obtain ⟨S, b1, b2⟩ := orun_ok a1
  split at a2
  · rename_i m1 m2 hm
    cases R with
    | none => cases f2
    | some R =>
        simp only [ohTest, Bool.and_eq_true, decide_eq_true_eq, List.all_eq_true] at f2 a2
        refine ⟨S, S', m1, m2, R, good_two, nonneg_two, trivial, b1, b2, hm, a2, f1, ?_, ?_⟩
        · rintro e he rfl
          exact f2.1 _ he rfl
        · intro h0
          rw [h0] at f2
          exact absurd f2.2 (by norm_num [LogV.exp, LogV.ninf])
  · cases a2

end Props
