import Verif.Props.C63
import Verif.Lemmas.Positive
import Verif.Spec.OnlineLive

/-! # Online studies with possible data: no exceptions, no undefined results -/

set_option linter.unusedSectionVars false

namespace Props
open BL Spec
variable {K D : Type} [Field K] [LinearOrder K] [IsStrictOrderedRing K] {d : ℕ} {gs : Fin d → ℕ}

theorem normWeights_pos {w : List K} (h0 : ∀ x ∈ w, 0 ≤ x) (h : 0 < w.sum) : normWeights w = some (normalised w) := by
  cases hn : normWeights w with
  | some r => rw [(normWeights_eq h0 hn).1]
  | none =>
      exfalso
      have hne : w ≠ [] := by rintro rfl; simp at h
      obtain ⟨M, m1, m2, m3⟩ := listMax_some hne
      have hM : M ≠ 0 := by
        rintro rfl
        exact h.ne' (List.sum_eq_zero fun x hx => le_antisymm (m3 x hx) (h0 x hx))
      simp [normWeights, m1, hM] at hn

theorem allSome_ofFn {α : Type} {n : ℕ} (f : Fin n → α) : allSome (List.ofFn fun i => some (f i)) = some (List.ofFn f) := by
  have := allSome_map (id : α → α) (List.ofFn f)
  rw [List.map_id, List.map_ofFn] at this
  exact this

theorem map_eq_ofFn {α β : Type} (l : List α) (f : α → β) {g : Fin l.length → β} (h : ∀ i, f l[i] = g i) : l.map f = List.ofFn g := by
  apply List.ext_getElem
  · simp
  · intro i h1 h2
    rw [List.getElem_map, List.getElem_ofFn, ← h]
    rfl

theorem zipWith_ofFn {α β γ : Type} {n : ℕ} (h : α → β → γ) (f : Fin n → α) (g : Fin n → β) : List.zipWith h (List.ofFn f) (List.ofFn g) = List.ofFn fun i => h (f i) (g i) := by
  apply List.ext_getElem
  · simp
  · intro i h1 h2
    simp

theorem normalised_ofFn {n : ℕ} (f : Fin n → K) : normalised (List.ofFn f) = List.ofFn fun i => f i / ∑ i, f i := by
  rw [normalised, List.sum_ofFn, List.map_ofFn]
  rfl

theorem eq_ofFn {α : Type} {n : ℕ} {l : List α} (h : l.length = n) : ∃ f : Fin n → α, l = List.ofFn f := by
  subst h
  exact ⟨fun i => l[i], by simp⟩

/-- attributes of a finished model -/
theorem Finished.exact {m : OModelSt K gs} (hf : Finished m) {lv : Fin m.hyps.length → LogV K} {P : Fin m.hyps.length → Idx gs → K} (h : ∀ j : Fin m.hyps.length, m.hyps[j] = (⟨some (P j), some (lv j)⟩ : OHyp K gs))
    (hc : m.grid.hgc.prod ≠ 0) : ∃ pr : Fin m.hyps.length → K, m.grid.priors = some (List.ofFn pr) ∧ (∀ j, 0 ≤ pr j) ∧ m.hyperEv = some ⟨∑ j, (lv j).exp * pr j⟩ ∧
      (0 < ∑ j, (lv j).exp * pr j → m.hpd = some (List.ofFn fun j => (lv j).exp * pr j / (∑ j, (lv j).exp * pr j) / m.grid.hgc.prod) ∧
        m.post = some fun x => ∑ j, (lv j).exp * pr j / (∑ j, (lv j).exp * pr j) * P j x) := by
  obtain ⟨ps, p1, p2, p3⟩ := hf.priors
  obtain ⟨pr, rfl⟩ := eq_ofFn p2
  have hpr : ∀ j, 0 ≤ pr j := fun j => p3 _ (List.mem_ofFn.2 ⟨j, rfl⟩)
  have hev0 : ∀ j, 0 ≤ (lv j).exp := fun j => hf.evs m.hyps[j] (List.getElem_mem _) _ (by rw [h j])
  have e1 : m.hyps.map OHyp.ev = List.ofFn fun j => some (lv j) := map_eq_ofFn _ _ fun j => by rw [h j]
  have e2 : m.hyps.map OHyp.post = List.ofFn fun j => some (P j) := map_eq_ofFn _ _ fun j => by rw [h j]
  have hw : hypWeights m.hyps m.grid.priors = some (List.ofFn fun j => (lv j).exp * pr j) := by
    simp only [hypWeights, e1, allSome_ofFn, p1, zipWith_ofFn]
    rfl
  refine ⟨pr, p1, hpr, ?_, fun hG => ?_⟩
  · refine (congrArg OModelSt.hyperEv hf.eq).trans ?_
    simp only [OModelSt.finish, hw, Option.map_some, List.sum_ofFn]
  · have hn : normWeights (List.ofFn fun j => (lv j).exp * pr j) = some (List.ofFn fun j => (lv j).exp * pr j / ∑ j, (lv j).exp * pr j) := by
      rw [normWeights_pos _ (by rw [List.sum_ofFn]; exact hG), normalised_ofFn]
      intro x hx
      obtain ⟨j, rfl⟩ := List.mem_ofFn.1 hx
      exact mul_nonneg (hev0 j) (hpr j)
    constructor
    · refine (congrArg OModelSt.hpd hf.eq).trans ?_
      simp only [OModelSt.finish, hw, Option.bind_some, hn, if_neg hc, List.map_ofFn]
      rfl
    · refine (congrArg OModelSt.post hf.eq).trans ?_
      simp only [OModelSt.finish, hw, Option.bind_some, hn, if_neg hc, Option.map_some, e2, BL.mixture, allSome_ofFn, List.map_map, List.map_ofFn]
      congr 1
      funext x
      rw [zipWith_ofFn, List.sum_ofFn]
      refine Finset.sum_congr rfl fun j _ => ?_
      simp only [Function.comp]
      rw [div_mul_cancel₀ _ hc, mul_comm]


/-! ## one hypothesis -/

/-- a hypothesis with defined, positive results -/
def LiveHyp (h : OHyp K gs) : Prop := ∃ p l, h = ⟨some p, some l⟩ ∧ (∀ x, 0 < p x) ∧ 0 < l.exp

theorem update_live {E : Env K gs} [Nonempty (Idx gs)] {tm : TM K} {f : Option (Arr K gs)} {h : OHyp K gs} {L : Idx gs → K} (hL : ∀ x, 0 < L x) {l : LogV K} (hev : h.ev = some l) (hl : 0 < l.exp)
    (hf : ∃ a, predictive E tm f h.post = .ok a ∧ Full a) : ∃ h', h.update E tm f L = .ok h' ∧ LiveHyp h' := by
  obtain ⟨a, h1, q, rfl, hq⟩ := hf
  have hp : ∀ x, 0 < q x * L x := fun x => mul_pos (hq x) (hL x)
  have hs := full_sum hp
  refine ⟨_, by rw [OHyp.update, h1]; rfl, fun x => q x * L x / ∑ y, q y * L y, l + LogV.log (∑ y, q y * L y), ?_, fun x => div_pos (hp x) hs, mul_pos hl hs⟩
  simp only [OHyp.absorb, divScalar, if_neg hs.ne', if_neg (not_lt.2 hs.le), hev, Option.map_some]

theorem chain_live {E : Env K gs} [Nonempty (Idx gs)] (hl : ∀ a, 0 < E.lattice a) (hX : ProperExt E.ext) (hpr : FullPrior E.prior) {tm : TM K} (hc : Spreading E tm) {a0 : Arr K gs} (ha : Full a0) :
    ∀ (Ls : List (Idx gs → K)), (∀ L ∈ Ls, ∀ x, 0 < L x) → ∃ h, chain E tm (some a0) (OHyp.start E) Ls = .ok h ∧ (Ls ≠ [] → LiveHyp h) := by
  intro Ls
  induction Ls using List.reverseRecOn with
  | nil => exact fun _ => ⟨_, rfl, fun h => absurd rfl h⟩
  | append_singleton Ls L ih =>
      intro hL
      obtain ⟨h, h1, h2⟩ := ih fun L' hL' => hL L' (by simp [hL'])
      rw [chain_snoc, h1]
      have key : ∃ h', h.update E tm (if Ls = [] then some a0 else none) L = .ok h' ∧ LiveHyp h' := by
        by_cases h0 : Ls = []
        · subst h0
          cases h1
          exact update_live (hL L (by simp)) rfl (env_cell_pos hl) ⟨a0, rfl, ha⟩
        · obtain ⟨p, l, rfl, hp, hl'⟩ := h2 h0
          rw [if_neg h0]
          obtain ⟨q, k1, k2⟩ := fwd_full hl hX hpr tm hc 0 (some p) (-1) ⟨p, rfl, hp⟩
          exact update_live (hL L (by simp)) rfl hl' ⟨q, k1, k2⟩
      obtain ⟨h', k1, k2⟩ := key
      exact ⟨h', k1, fun _ => k2⟩

/-! ## one transition model -/

theorem hypLoop_total {E : Env K gs} {first : Option (Arr K gs)} {lik : Idx gs → K} {tm : TM K} (hw : WellNamed tm) :
    ∀ (rows : List (List K)) (hs : List (OHyp K gs)) (tm' : TM K), SameShape tm tm' → (∀ r ∈ rows, r.length = (entries tm).length) →
      List.Forall₂ (fun M (h : OHyp K gs) => ∃ h', h.update E M first lik = .ok h') (rows.map (modelAt tm)) hs → ∃ r, hypLoop E first lik tm' (rows.map some) hs = .ok r
  | [], hs, tm', _, _, _ => ⟨_, rfl⟩
  | r :: rows, [], tm', _, _, hf => by cases hf
  | r :: rows, h0 :: hs, tm', hsh, hlen, hf => by
      obtain ⟨h1, h2⟩ := setAll_shape hw hsh (xs := r.map .scalar) (by rw [List.length_map]; exact hlen r (by simp))
        (by intro x hx; obtain ⟨y, -, rfl⟩ := List.mem_map.1 hx; trivial)
      rw [List.map_cons] at hf
      cases hf with
      | cons hp hf =>
        obtain ⟨h', hh⟩ := hp
        obtain ⟨q, hq⟩ := hypLoop_total hw rows hs _ h2 (fun r hr => hlen r (by simp [hr])) hf
        simp only [List.map_cons, hypLoop, setRow, h1, bind, Except.bind]
        unfold modelAt at hh
        simp only [hh, hq]
        exact ⟨_, rfl⟩

theorem update_total {E : Env K gs} {a0 : Arr K gs} {liks : List (Idx gs → K)} {lik : Idx gs → K} {q : String × TM K} {m : OModelSt K gs}
    (hb : OnePrior q.2) (hw : WellNamed q.2) (hps : m.grid.priors ≠ none) (ht : Tracked E a0 liks q m) (hsh : priorsShort m.grid = false)
    (hall : ∀ M ∈ hypotheses q.2 m.grid, ∃ h, chain E M (some a0) (OHyp.start E) (liks ++ [lik]) = .ok h) :
    ∃ m', m.update E (if liks = [] then some a0 else none) lik = .ok m' := by
  unfold OModelSt.update
  rw [hsh]
  simp only [Bool.false_eq_true, if_false]
  have hh : List.Forall₂ (fun M (h : OHyp K gs) => ∃ h', h.update E M (if liks = [] then some a0 else none) lik = .ok h') (hypotheses q.2 m.grid) m.hyps := by
    refine (forall₂_and_mem ht.hyps).imp ?_
    rintro M h ⟨hM, hc⟩
    obtain ⟨h', k⟩ := hall M hM
    rw [chain_snoc, hc] at k
    exact ⟨h', k⟩
  have key : ∃ r, hypLoop E (if liks = [] then some a0 else none) lik m.tm (rowsOf m.grid) m.hyps = .ok r := by
    unfold hypotheses at hh
    unfold rowsOf
    by_cases h0 : m.grid.rows.length = 0
    · rw [if_pos h0] at hh ⊢
      have htm := sameShape_noEntries hw.1 (rows_short hb ht.grid hsh hps h0) ht.shape
      generalize m.hyps = hs at hh
      cases hh with
      | @cons _ h1 _ hs a b =>
          cases b
          obtain ⟨h', a⟩ := a
          rw [htm]
          simp only [hypLoop, setRow, bind, Except.bind, a]
          exact ⟨_, rfl⟩
    · rw [if_neg h0] at hh ⊢
      refine hypLoop_total hw m.grid.rows m.hyps m.tm ht.shape ?_ hh
      intro row hr
      have e4 := (Props.createHyperGrid_eq hw.1 ht.grid).2.2.2
      split at e4
      · rw [e4] at hr; simp at hr
      · rw [e4, cart_mem] at hr
        rw [hr.length_eq, axes, List.length_map]
  obtain ⟨r, hr⟩ := key
  exact ⟨_, by rw [hr]; rfl⟩

theorem mapE_succeeds {α β : Type} {f : α → Except PyErr β} : ∀ {l : List α}, (∀ a ∈ l, ∃ b, f a = .ok b) → ∃ r, mapE f l = .ok r
  | [], _ => ⟨_, rfl⟩
  | a :: l, h => by
      obtain ⟨b, hb⟩ := h a (by simp)
      obtain ⟨r, hr⟩ := mapE_succeeds fun a ha => h a (List.mem_cons_of_mem _ ha)
      exact ⟨b :: r, by simp only [mapE, hb, hr, bind, Except.bind]⟩

/-! ## the study -/

theorem _root_.Spec.LiveModels.good {E : Env K gs} {ms : List (String × TM K)} (h : LiveModels E ms) : GoodModels ms := fun q hq => by
  obtain ⟨a, b, c⟩ := h q hq
  refine ⟨a, b, fun g hg => ?_⟩
  obtain ⟨-, ⟨ps, h1, -⟩, -⟩ := c g hg
  rw [h1]; simp

theorem _root_.Spec.LiveModels.nonneg {E : Env K gs} {ms : List (String × TM K)} (h : LiveModels E ms) : NonnegPriors ms := fun q hq g ps hg hps p hp => by
  obtain ⟨-, ⟨ps', h1, -, h2⟩, -⟩ := (h q hq).2.2 g hg
  rw [hps] at h1
  cases h1
  exact (h2 p hp).le

theorem not_short {tm : TM K} {g : HyperGrid K} (hb : OnePrior tm) (hg : createHyperGrid tm [] = .ok g) {ps : List K} (hps : g.priors = some ps) (hne : ps ≠ []) : priorsShort g = false := by
  have h0 : 0 < ps.length := List.length_pos_iff.2 hne
  have e4 := (createHyperGrid_eq hb.proper hg).2.2.2
  by_cases he : entries tm = []
  · rw [if_pos he] at e4
    simp only [priorsShort, hps, rowsOf, e4, List.length_nil, if_true, List.length_singleton, decide_eq_false_iff_not]
    omega
  · have hl := weights_len hb he hg hps
    simp only [priorsShort, hps, rowsOf, if_neg (show ¬ g.rows.length = 0 by omega), List.length_map, decide_eq_false_iff_not]
    omega

theorem analyse_lists {c : OConf K D gs} {T S2 : OState K D gs} {L : Idx gs → K} (h : T.analyse c L = .ok S2) : S2.fts = T.fts ∧ S2.posts = T.posts := by
  obtain ⟨S1, first, Ms, i1, i2, i3, rfl⟩ := analyse_ok h
  unfold OState.initialise at i1
  split at i1
  · simp only [bind, Except.bind] at i1
    split at i1
    · cases i1
    · cases i1; exact ⟨rfl, rfl⟩
  · cases i1; exact ⟨rfl, rfl⟩

theorem analyse_of {c : OConf K D gs} {T S1 : OState K D gs} {L : Idx gs → K} {first : Option (Arr K gs)} {Ms : List (OModelSt K gs)} (i1 : T.initialise c = .ok (S1, first))
    (i2 : S1.models.length ≤ (S1.tmPrior.getD []).length) (i3 : mapE (OModelSt.update { c.E with prior := S1.prior } first L) S1.models = .ok Ms) :
    T.analyse c L = .ok (S1.combine (S1.tmPrior.getD []) Ms) := by
  simp only [OState.analyse, i1, bind, Except.bind]
  rw [if_neg (by omega), i3]

/-- the analysis of a data segment succeeds -/
theorem analyse_total {c : OConf K D gs} [Nonempty (Idx gs)] (hl : ∀ a, 0 < c.E.lattice a) (hX : ProperExt c.E.ext) {ms : List (String × TM K)} {S0 T : OState K D gs} {xs : List D} {x : D} (h1 : 1 ≤ c.seg)
    (hg : LiveModels c.E ms) (hw : ∀ q ∈ ms, WellNamed q.2) (hseg : c.seg ≤ (xs ++ [x]).length) (hpr : FullPrior S0.prior) (htl : (S0.tmPrior.getD (ms.map fun _ => 1 / (ms.length : K))).length = ms.length)
    (hL : ∀ L ∈ segLiks c (xs ++ [x]), ∀ x, 0 < L x)
    (before : xs.length < c.seg → T.firstStep = true ∧ T.prior = S0.prior ∧ T.tmPrior = S0.tmPrior ∧ List.Forall₂ FreshModel ms T.models)
    (after : c.seg ≤ xs.length → T.firstStep = false ∧ ∃ a0, computePrior { c.E with prior := S0.prior } = .ok (a0, T.prior) ∧
      T.tmPrior = some (S0.tmPrior.getD (ms.map fun _ => 1 / (ms.length : K))) ∧
      List.Forall₂ (fun q m => Tracked { c.E with prior := T.prior } a0 (segLiks c xs) q m ∧ m = m.finish m.tm m.hyps) ms T.models) :
    ∃ S2, T.analyse c (c.pdf ((xs ++ [x]).drop ((xs ++ [x]).length - c.seg))) = .ok S2 := by
  have hsn : segLiks c (xs ++ [x]) = segLiks c xs ++ [c.pdf ((xs ++ [x]).drop ((xs ++ [x]).length - c.seg))] := by
    rw [segLiks, movingWindow_snoc xs x h1 hseg, List.map_append]; rfl
  rw [hsn] at hL
  obtain ⟨a0, pr, k1, k2, k3⟩ := computePrior_full (E := { c.E with prior := S0.prior }) hl hpr
  have upd : ∀ (Ms0 : List (OModelSt K gs)), List.Forall₂ (Tracked { c.E with prior := pr } a0 (segLiks c xs)) ms Ms0 →
      ∃ Ms, mapE (OModelSt.update { c.E with prior := pr } (if segLiks c xs = [] then some a0 else none) (c.pdf ((xs ++ [x]).drop ((xs ++ [x]).length - c.seg)))) Ms0 = .ok Ms := by
    intro Ms0 hT
    refine mapE_succeeds fun m hm => ?_
    obtain ⟨i, hi, rfl⟩ := List.mem_iff_getElem.1 hm
    have hi' : i < ms.length := by rw [hT.length_eq]; exact hi
    have ht := (List.forall₂_iff_get.1 hT).2 i hi' hi
    obtain ⟨g1, -, g3⟩ := hg _ (List.getElem_mem hi')
    obtain ⟨-, ⟨ps, p1, p2, -⟩, g4⟩ := g3 _ ht.grid
    refine update_total (Built.matched g1) (hw _ (List.getElem_mem hi')) (by rw [List.get_eq_getElem] at p1; rw [p1]; simp) ht (not_short (Built.matched g1) ht.grid p1 p2) fun M hM => ?_
    obtain ⟨h, e, -⟩ := chain_live (E := { c.E with prior := pr }) hl hX k3 (spreading_prior pr M (g4 M hM)) k2 _ hL
    exact ⟨h, e⟩
  by_cases hlen : xs.length < c.seg
  · obtain ⟨b1, b2, b3, b4⟩ := before hlen
    have hnil : segLiks c xs = [] := by rw [segLiks, movingWindow_short xs hlen]; rfl
    have hml : T.models.length = ms.length := b4.length_eq.symm
    obtain ⟨Ms, hMs⟩ := upd _ (by rw [hnil]; exact fresh_tracked hw b4)
    rw [if_pos hnil] at hMs
    refine ⟨_, analyse_of (by simp only [OState.initialise, b1, if_true, b2, k1, bind, Except.bind]; rfl) ?_ hMs⟩
    simp only [Option.getD_some, List.length_map, hml, b3]
    cases hS : S0.tmPrior with
    | none => simp [hml]
    | some p => rw [hS] at htl; exact htl.ge
  · obtain ⟨b1, a0', b2, b3, b4⟩ := after (by omega)
    rw [b2] at k1
    cases k1
    have hnil : segLiks c xs ≠ [] := by
      intro h0
      have := congrArg List.length h0
      simp only [segLiks, List.length_map, movingWindow_len, List.length_nil] at this
      omega
    obtain ⟨Ms, hMs⟩ := upd _ (b4.imp fun _ _ h => h.1)
    rw [if_neg hnil] at hMs
    refine ⟨_, analyse_of (by simp only [OState.initialise, b1, Bool.false_eq_true, if_false]) ?_ hMs⟩
    rw [b3, Option.getD_some, htl, b4.length_eq]

/-- lists have not been converted to arrays -/
def Lists (S : OState K D gs) : Prop := (S.rawData ≠ [] → ∃ l, S.fts = some (.list l)) ∧ ∃ l, S.posts = .list l

theorem proceed_total {c : OConf K D gs} {T : OState K D gs} (hr : T.rawData ≠ []) (hls : Lists T) {t : K} (ht : T.rawTs.bind List.getLast? = some t)
    (ha : c.seg ≤ T.rawData.length → ∀ f, ∃ S2, ({ T with fts := f } : OState K D gs).analyse c (c.pdf (T.rawData.drop (T.rawData.length - c.seg))) = .ok S2) :
    ∃ S', T.proceed c = (S', none) ∧ (∃ l, S'.fts = some (.list l)) ∧ ∃ l, S'.posts = .list l := by
  obtain ⟨l1, l2, h2⟩ := hls
  obtain ⟨l1, h1⟩ := l1 hr
  unfold OState.proceed
  by_cases hs : T.rawData.length < c.seg
  · rw [if_pos hs]
    exact ⟨T, rfl, ⟨l1, h1⟩, l2, h2⟩
  · rw [if_neg hs]
    obtain ⟨S2, hS2⟩ := ha (by omega) (some (.list (l1 ++ [t])))
    obtain ⟨e1, e2⟩ := analyse_lists hS2
    simp only at e1 e2
    rw [h2] at e2
    simp only [h1, ht, PySeq.append, hS2]
    unfold OState.record
    split
    · simp only [e2, PySeq.append]
      exact ⟨_, rfl, ⟨_, e1⟩, _, rfl⟩
    · exact ⟨_, rfl, ⟨_, e1⟩, _, e2⟩

theorem step_total {c : OConf K D gs} [Nonempty (Idx gs)] (hl : ∀ a, 0 < c.E.lattice a) (hX : ProperExt c.E.ext) {ms : List (String × TM K)} {S0 S : OState K D gs} {xs : List D} {x : D} (h1 : 1 ≤ c.seg)
    (hg : LiveModels c.E ms) (hne : ms ≠ []) (hnd : (ms.flatMap fun q => (entries q.2).map (·.1)).Nodup) (hpr : FullPrior S0.prior)
    (htl : (S0.tmPrior.getD (ms.map fun _ => 1 / (ms.length : K))).length = ms.length)
    (hL : ∀ L ∈ segLiks c (xs ++ [x]), ∀ x, 0 < L x) (hi : OInv c ms S0 xs S) (hls : Lists S) :
    ∃ S', S.step (some c) x = (S', none) ∧ Lists S' := by
  have hml : S.models.length = ms.length := by
    by_cases hl : xs.length < c.seg
    · exact (hi.before hl).2.2.2.length_eq.symm
    · exact (hi.after (by omega)).2.choose_spec.2.2.2.1.length_eq.symm
  have hmne : S.models ≠ [] := by
    intro h0
    rw [h0] at hml
    exact hne (List.length_eq_zero_iff.1 hml.symm)
  rw [step_eq hmne]
  have main : ∀ T : OState K D gs, T.rawData = xs ++ [x] → Lists T → (∃ t, T.rawTs.bind List.getLast? = some t) → (∀ q ∈ ms, WellNamed q.2) → T.firstStep = S.firstStep → T.prior = S.prior →
      T.tmPrior = S.tmPrior → T.models = S.models → ∃ S', T.proceed c = (S', none) ∧ Lists S' := by
    rintro T T1 T2 ⟨t, T3⟩ T4 T7 T8 T9 T10
    obtain ⟨S', e1, e2, e3⟩ := proceed_total (c := c) (by rw [T1]; simp) T2 T3 fun hs f => by
      rw [T1] at hs ⊢
      refine analyse_total (S0 := S0) hl hX h1 hg T4 hs hpr htl hL (fun hl => ?_) fun hl => ?_
      · simp only [T7, T8, T9, T10]; exact hi.before hl
      · obtain ⟨b1, a0, b2, b3, b4, b5, -⟩ := hi.after hl
        simp only [T7, T8, T9, T10]
        exact ⟨b1, a0, b2, b3, b5⟩
    exact ⟨S', e1, fun _ => e2, e3⟩
  unfold OState.stepAdded
  by_cases hx : xs = []
  · have hb := (hi.before (by rw [hx]; exact h1)).2.2.2
    have hnames : (S.models.flatMap fun m => m.grid.names) = ms.flatMap fun q => (entries q.2).map (·.1) := by
      have hgd := hg.good
      clear main hi hml hmne hnd hne htl hL
      revert hb
      generalize S.models = Ms
      intro hb
      induction hb with
      | nil => rfl
      | @cons q m ms Ms a _ ih =>
          rw [List.flatMap_cons, List.flatMap_cons, ih (fun q hq => hg q (by simp [hq])) (fun q hq => hgd q (by simp [hq])), (createHyperGrid_eq (Built.matched (hgd q (by simp)).1).proper a.2.2).2.1]
    have hnd' : (S.models.flatMap fun m => m.grid.names).Nodup := by rw [hnames]; exact hnd
    rw [hi.raw, hx]
    simp only [List.length_nil, if_true]
    rw [if_neg (not_not.2 hnd')]
    refine main _ (by rw [hx]; rfl) ⟨fun _ => ⟨_, rfl⟩, hls.2⟩ ⟨0, rfl⟩ (fresh_names hg.good hb hnd') rfl rfl rfl rfl
  · obtain ⟨t1, f, t2, t3⟩ := hi.times hx
    have hl0 : xs.length ≠ 0 := fun h => hx (List.length_eq_zero_iff.1 h)
    obtain ⟨n, hn⟩ := Nat.exists_eq_succ_of_ne_zero hl0
    rw [hi.raw]
    simp only [hl0, ↓reduceIte, t1, Option.bind_some]
    rw [hn]
    simp only [Nat.succ_eq_add_one, stamps_succ, List.getLast?_append, List.getLast?_singleton, Option.some_or, Option.map_some]
    exact main _ rfl ⟨fun _ => hls.1 (by rw [hi.raw]; exact hx), hls.2⟩ ⟨(n : K) + 1, by simp only [Option.bind_some, List.getLast?_append, List.getLast?_singleton, Option.some_or]⟩ (hi.named hx) rfl rfl rfl rfl

theorem runSteps_total {c : OConf K D gs} [Nonempty (Idx gs)] (hl : ∀ a, 0 < c.E.lattice a) (hX : ProperExt c.E.ext) {ms : List (String × TM K)} (h1 : 1 ≤ c.seg)
    (hg : LiveModels c.E ms) (hne : ms ≠ []) (hnd : (ms.flatMap fun q => (entries q.2).map (·.1)).Nodup) {store : Bool} {prior : PriorSpec K gs} {p : Option (List K)} {S : OState K D gs}
    (hs : setup store prior ms p = .ok S) (hpr : FullPrior prior) : ∀ (xs : List D), (∀ L ∈ segLiks c xs, ∀ x, 0 < L x) → ∃ S', runSteps c S xs = .ok S' ∧ Lists S' := by
  obtain ⟨i1, i2, -, -, -, -, i3, -⟩ := setup_inv h1 hs
  intro xs
  induction xs using List.reverseRecOn with
  | nil => exact fun _ => ⟨S, rfl, fun h => absurd i1.raw h, _, i3⟩
  | append_singleton xs x ih =>
      intro hL
      obtain ⟨S', e1, e2⟩ := ih fun L hL' => hL L (by
        by_cases hlen : c.seg ≤ (xs ++ [x]).length
        · rw [segLiks, movingWindow_snoc xs x h1 hlen, List.map_append]
          exact List.mem_append_left _ hL'
        · rw [segLiks, movingWindow_short xs (by rw [List.length_append] at hlen; omega)] at hL'
          simp at hL')
      have hi := runSteps_inv h1 hg.good hne xs [] S S' i1 e1
      rw [List.nil_append] at hi
      obtain ⟨S2, k1, k2⟩ := step_total hl hX h1 hg hne hnd (by rw [i2]; exact hpr) (tmPrior_len h1 hs) hL hi e2
      exact ⟨S2, runSteps_append e1 k1, k2⟩

/-! ## results -/

/-- results of a transition model -/
theorem model_live [Nonempty (Idx gs)] {m : OModelSt K gs} (hf : Finished m) (hne : m.hyps ≠ []) (hh : ∀ h ∈ m.hyps, LiveHyp h) (hc : 0 < m.grid.hgc.prod) {ps : List K} (hps : m.grid.priors = some ps)
    (hp : ∀ p ∈ ps, 0 < p) : ∃ D l Q, m.hpd = some D ∧ Distribution m.hyps.length (some (D.map (· * m.grid.hgc.prod))) ∧ (∀ x ∈ D, 0 < x) ∧ m.hyperEv = some l ∧ 0 < l.exp ∧ m.post = some Q ∧
      (∀ x, 0 < Q x) ∧ ∑ x, Q x = 1 := by
  choose P lv k1 k2 k3 using fun j : Fin m.hyps.length => hh m.hyps[j] (List.getElem_mem _)
  obtain ⟨pr, p1, -, p3, p4⟩ := hf.exact k1 hc.ne'
  have hpr : ∀ j, 0 < pr j := fun j => hp _ (by rw [p1] at hps; cases hps; exact List.mem_ofFn.2 ⟨j, rfl⟩)
  have hN : (Finset.univ : Finset (Fin m.hyps.length)).Nonempty := ⟨⟨0, List.length_pos_iff.2 hne⟩, Finset.mem_univ _⟩
  have hw : ∀ j, 0 < (lv j).exp * pr j := fun j => mul_pos (k3 j) (hpr j)
  have hs : 0 < ∑ j, (lv j).exp * pr j := Finset.sum_pos (fun j _ => hw j) hN
  obtain ⟨p5, p6⟩ := p4 hs
  have hP1 : ∀ j, ∑ x, P j x = 1 := fun j => hf.posts m.hyps[j] (List.getElem_mem _) _ (by rw [k1 j])
  have h1 : ∑ j, (lv j).exp * pr j / ∑ j, (lv j).exp * pr j = 1 := by rw [← Finset.sum_div, div_self hs.ne']
  refine ⟨_, _, _, p5, ⟨_, rfl, by simp, ?_, ?_⟩, ?_, p3, hs, p6, fun x => Finset.sum_pos (fun j _ => mul_pos (div_pos (hw j) hs) (k2 j x)) hN, ?_⟩
  · intro x hx
    obtain ⟨y, hy, rfl⟩ := List.mem_map.1 hx
    obtain ⟨j, rfl⟩ := List.mem_ofFn.1 hy
    exact mul_pos (div_pos (div_pos (hw j) hs) hc) hc
  · rw [List.map_ofFn, List.sum_ofFn, ← h1]
    exact Finset.sum_congr rfl fun j _ => div_mul_cancel₀ _ hc.ne'
  · intro x hx
    obtain ⟨j, rfl⟩ := List.mem_ofFn.1 hx
    exact div_pos (div_pos (hw j) hs) hc
  · rw [Finset.sum_comm, ← h1]
    exact Finset.sum_congr rfl fun j _ => by rw [← Finset.mul_sum, hP1, mul_one]

theorem normWeights_live {n : ℕ} (h0 : 0 < n) {f : Fin n → K} (hf : ∀ i, 0 < f i) : normWeights (List.ofFn f) = some (List.ofFn fun i => f i / ∑ i, f i) ∧ 0 < ∑ i, f i ∧
    Distribution n (normWeights (List.ofFn f)) := by
  have hs : 0 < ∑ i, f i := Finset.sum_pos (fun j _ => hf j) ⟨⟨0, h0⟩, Finset.mem_univ _⟩
  have h1 : normWeights (List.ofFn f) = some (List.ofFn fun i => f i / ∑ i, f i) := by
    rw [normWeights_pos (fun x hx => by obtain ⟨j, rfl⟩ := List.mem_ofFn.1 hx; exact (hf j).le) (by rw [List.sum_ofFn]; exact hs), normalised_ofFn]
  refine ⟨h1, hs, _, h1, by simp, fun x hx => ?_, ?_⟩
  · obtain ⟨j, rfl⟩ := List.mem_ofFn.1 hx
    exact div_pos (hf j) hs
  · rw [List.sum_ofFn, ← Finset.sum_div, div_self hs.ne']

end Props
