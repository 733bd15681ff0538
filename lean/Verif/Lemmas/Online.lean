import Verif.Spec.Online
import Verif.Lemmas.HyperCore

/-! # Invariants of online studies -/

set_option linter.unusedSectionVars false

namespace BL
open Spec
variable {K D : Type} [Field K] [LinearOrder K] [IsStrictOrderedRing K] {d : ℕ} {gs : Fin d → ℕ}

/-! ## time-independent models -/

theorem leafFwd_timeless (E : Env K gs) {k : Leaf K} {n : List String} {vs : List (HVal K)} {pr : Option (Nest (HPrior K))} (h : Timeless (.leaf k n vs pr))
    (toff toff' : K) (p : Arr K gs) (t t' : K) : leafFwd E toff k vs p t = leafFwd E toff' k vs p t' := by
  cases k <;> first | rfl | (simp [Timeless] at h)

mutual
theorem fwd_timeless (E : Env K gs) : ∀ (tm : TM K), Timeless tm → ∀ (toff toff' : K) (p : Arr K gs) (t t' : K),
    tm.fwd E toff p t = tm.fwd E toff' p t'
  | .leaf k n vs pr, h, toff, toff', p, t, t' => by
      rw [TM.fwd, TM.fwd]; exact leafFwd_timeless E h toff toff' p t t'
  | .combined ms, h, toff, toff', p, t, t' => by
      rw [TM.fwd, TM.fwd]; exact fwdAll_timeless E ms (by simpa [Timeless] using h) toff toff' p t t'
  | .serial n vs pr mask ms, h, _, _, _, _, _ => by simp [Timeless] at h
theorem fwdAll_timeless (E : Env K gs) : ∀ (ms : List (TM K)), TimelessAll ms → ∀ (toff toff' : K) (p : Arr K gs) (t t' : K),
    TM.fwdAll E toff ms p t = TM.fwdAll E toff' ms p t'
  | [], _, _, _, p, _, _ => by rw [TM.fwdAll, TM.fwdAll]
  | m :: ms, h, toff, toff', p, t, t' => by
      rw [TM.fwdAll, TM.fwdAll, fwd_timeless E m h.1 toff toff' p t t']
      congr 1
      funext q
      exact fwdAll_timeless E ms h.2 toff toff' q t t'
end

mutual
theorem timeless_withValues (g : String → HVal K → HVal K) : ∀ (tm : TM K), Timeless tm → Timeless (withValues g tm)
  | .leaf k n vs pr, h => by cases k <;> simp_all [Timeless, withValues]
  | .combined ms, h => by
      simp only [Timeless, withValues] at h ⊢; exact timelessAll_withValues g ms h
  | .serial n vs pr mask ms, h => by simp [Timeless] at h
theorem timelessAll_withValues (g : String → HVal K → HVal K) : ∀ (ms : List (TM K)), TimelessAll ms → TimelessAll (withValuesAll g ms)
  | [], _ => by simp [withValuesAll, TimelessAll]
  | m :: ms, h => by
      simp only [withValuesAll, TimelessAll] at h ⊢
      exact ⟨timeless_withValues g m h.1, timelessAll_withValues g ms h.2⟩
end

theorem timeless_hypotheses {tm : TM K} {g : HyperGrid K} (h : Timeless tm) : ∀ M ∈ hypotheses tm g, Timeless M := by
  intro M hM
  unfold hypotheses at hM
  split at hM
  · simp only [List.mem_singleton] at hM; subst hM; exact h
  · obtain ⟨r, -, rfl⟩ := List.mem_map.1 hM
    exact timeless_withValues _ _ h

/-! ## one hypothesis -/

/-- all updates of one hypothesis -/
def chain (E : Env K gs) (M : TM K) : Option (Arr K gs) → OHyp K gs → List (Idx gs → K) → Except PyErr (OHyp K gs)
  | _, h, [] => .ok h
  | f, h, L :: Ls => do
      let h' ← h.update E M f L
      chain E M none h' Ls

theorem chain_snoc (E : Env K gs) (M : TM K) (L : Idx gs → K) : ∀ (Ls : List (Idx gs → K)) (f : Option (Arr K gs)) (h : OHyp K gs),
    chain E M f h (Ls ++ [L]) = (chain E M f h Ls).bind fun h' => h'.update E M (if Ls = [] then f else none) L
  | [], f, h => by
      simp only [List.nil_append, chain, Except.bind, ↓reduceIte, bind]
      cases h.update E M f L <;> rfl
  | L0 :: Ls, f, h => by
      simp only [List.cons_append, chain, bind]
      cases h.update E M f L0 with
      | error e => rfl
      | ok h' =>
          simp only [Except.bind]
          rw [chain_snoc E M L Ls none h']
          simp [Except.bind]

/-- The chain of a hypothesis against the forward pass of a fit. -/
theorem chain_fwdPass {E : Env K gs} {M : TM K} {pr : PriorSpec K gs} :
    ∀ (Ls : List (Idx gs → K)) (L : Idx gs → K) (ts : List K) (a : Arr K gs) (f : Option (Arr K gs)) (h : OHyp K gs) (r : FwdOut K gs) (l : LogV K),
    predictive { E with prior := pr } M f h.post = .ok a →
    (∀ p, ∀ t ∈ ts, M.fwd { E with prior := pr } 0 p t = M.fwd { E with prior := pr } 0 p (-1)) →
    h.ev = some l → fwdPass E M false pr a (L :: Ls) ts = .ok r → r.stopped = false →
    ∃ s, r.steps.getLast? = some s ∧ chain { E with prior := pr } M f h (L :: Ls) =
      .ok ⟨some s.alpha, some (r.steps.foldl (fun l s => l + LogV.log s.norm) l)⟩ := by
  intro Ls
  induction Ls with
  | nil =>
      intro L ts a f h r l hf ht hl hr hs
      cases a with
      | none =>
          rw [fwdPass] at hr
          cases hr
          simp at hs
      | some a =>
          rw [fwdPass] at hr
          simp only at hr
          by_cases hn : 0 < ∑ x, a x * L x
          · simp only [hn, if_true] at hr
            cases ts with
            | nil => simp at hr
            | cons t ts =>
                simp only [Bool.false_eq_true, ↓reduceIte, bind, Except.bind] at hr
                split at hr
                · cases hr
                · rename_i nx hnx
                  rw [Bool.false_and, fwdPass] at hr
                  cases hr
                  refine ⟨_, rfl, ?_⟩
                  simp only [chain, OHyp.update, hf, bind, Except.bind, Except.map, OHyp.absorb, divScalar, hn.ne', not_lt.2 hn.le, ↓reduceIte, hl,
                    Option.map_some, List.foldl_cons, List.foldl_nil]
                  rfl
          · simp only [hn, if_false] at hr
            cases hr
            simp at hs
  | cons L' Ls ih =>
      intro L ts a f h r l hf ht hl hr hs
      cases a with
      | none =>
          rw [fwdPass] at hr
          cases hr
          simp at hs
      | some a =>
          rw [fwdPass] at hr
          simp only at hr
          by_cases hn : 0 < ∑ x, a x * L x
          · simp only [hn, if_true] at hr
            cases ts with
            | nil => simp at hr
            | cons t ts =>
                simp only [Bool.false_eq_true, ↓reduceIte, bind, Except.bind] at hr
                split at hr
                · cases hr
                · rename_i nx hnx
                  rw [Bool.false_and] at hr
                  split at hr
                  · cases hr
                  · rename_i r' hr'
                    cases hr
                    simp only at hs
                    rw [ht _ t (by simp)] at hnx
                    obtain ⟨s, s1, s2⟩ := ih L' ts nx none ⟨some fun x => a x * L x / ∑ x, a x * L x, some (l + LogV.log (∑ x, a x * L x))⟩ r'
                      (l + LogV.log (∑ x, a x * L x)) hnx (fun p t ht' => ht p t (by simp [ht'])) rfl hr' hs
                    refine ⟨s, ?_, ?_⟩
                    · rw [List.getLast?_cons]
                      simp [s1]
                    · rw [chain]
                      simp only [OHyp.update, hf, bind, Except.bind, Except.map, OHyp.absorb, divScalar, hn.ne', not_lt.2 hn.le, ↓reduceIte, hl,
                        Option.map_some, List.foldl_cons]
                      exact s2
          · simp only [hn, if_false] at hr
            cases hr
            simp at hs

/-! ## one transition model -/

theorem hypLoop_spec {E : Env K gs} {first : Option (Arr K gs)} {lik : Idx gs → K} {tm : TM K} (hw : WellNamed tm) {P Q : TM K → OHyp K gs → Prop}
    (hPQ : ∀ M h h', P M h → h.update E M first lik = .ok h' → Q M h') :
    ∀ (rows : List (List K)) (hs hs' : List (OHyp K gs)) (tm' tm'' : TM K), SameShape tm tm' → (∀ r ∈ rows, r.length = (entries tm).length) →
      List.Forall₂ P (rows.map (modelAt tm)) hs → hypLoop E first lik tm' (rows.map some) hs = .ok (tm'', hs') →
      SameShape tm tm'' ∧ List.Forall₂ Q (rows.map (modelAt tm)) hs'
  | [], hs, hs', tm', tm'', hsh, _, _, h => by
      rw [List.map_nil, hypLoop] at h
      cases h
      exact ⟨hsh, .nil⟩
  | r :: rows, [], hs', tm', tm'', _, _, hf, _ => by cases hf
  | r :: rows, h0 :: hs, hs', tm', tm'', hsh, hlen, hf, h => by
      obtain ⟨h1, h2⟩ := setAll_shape hw hsh (xs := r.map .scalar) (by rw [List.length_map]; exact hlen r (by simp))
        (by intro x hx; obtain ⟨y, -, rfl⟩ := List.mem_map.1 hx; trivial)
      rw [List.map_cons] at hf
      cases hf with
      | cons hp hf =>
        simp only [List.map_cons, hypLoop, setRow, h1, bind, Except.bind] at h
        split at h
        · cases h
        · rename_i h' hh'
          split at h
          · cases h
          · rename_i q hq
            cases h
            obtain ⟨k1, k2⟩ := hypLoop_spec hw hPQ rows hs q.2 _ q.1 h2 (fun r hr => hlen r (by simp [hr])) hf hq
            exact ⟨k1, .cons (hPQ _ _ _ hp hh') k2⟩

theorem sameShape_noEntries {tm tm' : TM K} (hp : Proper tm) (h0 : entries tm = []) (h : SameShape tm tm') : tm' = tm := by
  obtain ⟨g, -, rfl⟩ := h
  exact withValues_id _ tm hp (by rw [entries_names tm hp, h0]; simp)

/-- state of a hypothesis before the first data point -/
def OHyp.start (E : Env K gs) : OHyp K gs := ⟨some fun _ => 0, some (LogV.log E.cell)⟩

/-- A transition model `q` of an online study after the data with likelihoods `liks`. -/
structure Tracked (E : Env K gs) (a0 : Arr K gs) (liks : List (Idx gs → K)) (q : String × TM K) (m : OModelSt K gs) : Prop where
  name : m.name = q.1
  grid : createHyperGrid q.2 [] = .ok m.grid
  shape : SameShape q.2 m.tm
  hyps : List.Forall₂ (fun M h => chain E M (some a0) (OHyp.start E) liks = .ok h) (hypotheses q.2 m.grid) m.hyps
  short : liks ≠ [] → priorsShort m.grid = false

theorem rows_short {tm : TM K} {g : HyperGrid K} (hb : OnePrior tm) (hg : createHyperGrid tm [] = .ok g) (hs : priorsShort g = false)
    (hps : g.priors ≠ none) (h0 : g.rows.length = 0) : entries tm = [] := by
  by_contra hne
  cases hp : g.priors with
  | none => exact hps hp
  | some ps =>
      have := weights_len hb hne hg hp
      simp [priorsShort, hp, rowsOf, h0, this] at hs

theorem update_tracked {E : Env K gs} {a0 : Arr K gs} {liks : List (Idx gs → K)} {lik : Idx gs → K} {q : String × TM K} {m m' : OModelSt K gs}
    (hb : OnePrior q.2) (hw : WellNamed q.2) (hps : m.grid.priors ≠ none) (ht : Tracked E a0 liks q m)
    (h : m.update E (if liks = [] then some a0 else none) lik = .ok m') :
    Tracked E a0 (liks ++ [lik]) q m' ∧ m' = m'.finish m'.tm m'.hyps ∧ m'.grid = m.grid := by
  unfold OModelSt.update at h
  by_cases hsh : priorsShort m.grid = true
  · rw [if_pos hsh] at h; cases h
  rw [if_neg hsh] at h
  have hPQ : ∀ (M : TM K) (h h' : OHyp K gs), chain E M (some a0) (OHyp.start E) liks = .ok h →
      h.update E M (if liks = [] then some a0 else none) lik = .ok h' → chain E M (some a0) (OHyp.start E) (liks ++ [lik]) = .ok h' := by
    intro M h h' h1 h2
    rw [chain_snoc, h1]
    exact h2
  cases hl : hypLoop E (if liks = [] then some a0 else none) lik m.tm (rowsOf m.grid) m.hyps with
  | error e => rw [hl] at h; cases h
  | ok r =>
      rw [hl] at h
      cases h
      have key : SameShape q.2 r.1 ∧ List.Forall₂ (fun M h => chain E M (some a0) (OHyp.start E) (liks ++ [lik]) = .ok h) (hypotheses q.2 m.grid) r.2 := by
        have hh := ht.hyps
        unfold hypotheses at hh ⊢
        unfold rowsOf at hl
        by_cases h0 : m.grid.rows.length = 0
        · rw [if_pos h0] at hh hl ⊢
          have he := rows_short hb ht.grid (by simpa using hsh) hps h0
          have htm := sameShape_noEntries hw.1 he ht.shape
          generalize m.hyps = hs at hh hl
          cases hh with
          | @cons _ h1 _ hs a b =>
              cases b
              simp only [hypLoop, setRow, bind, Except.bind] at hl
              split at hl
              · cases hl
              · rename_i h' hh'
                cases hl
                rw [htm] at hh'
                refine ⟨by rw [htm]; exact SameShape.refl hw.1, .cons (hPQ _ _ _ a hh') .nil⟩
        · rw [if_neg h0] at hh hl ⊢
          refine hypLoop_spec hw hPQ m.grid.rows m.hyps r.2 m.tm r.1 ht.shape ?_ hh hl
          intro row hr
          have e4 := (Props.createHyperGrid_eq hw.1 ht.grid).2.2.2
          split at e4
          · rw [e4] at hr; simp at hr
          · rw [e4, cart_mem] at hr
            rw [hr.length_eq, axes, List.length_map]
      refine ⟨⟨ht.name, ht.grid, key.1, key.2, fun _ => by simpa [OModelSt.finish] using hsh⟩, rfl, rfl⟩

/-! ## the study -/

theorem step_eq {conf : Option (OConf K D gs)} {S : OState K D gs} (hm : S.models ≠ []) (x : D) : S.step conf x = S.stepAdded conf x := by
  unfold OState.step
  split
  · exact absurd (by assumption) hm
  · exact absurd (by assumption) hm
  · rfl

theorem analyse_ok {c : OConf K D gs} {S S' : OState K D gs} {lik : Idx gs → K} (h : S.analyse c lik = .ok S') :
    ∃ S1 first ms, S.initialise c = .ok (S1, first) ∧ S1.models.length ≤ (S1.tmPrior.getD []).length ∧
      mapE (OModelSt.update { c.E with prior := S1.prior } first lik) S1.models = .ok ms ∧ S' = S1.combine (S1.tmPrior.getD []) ms := by
  unfold OState.analyse at h
  simp only [bind, Except.bind] at h
  split at h
  · cases h
  · rename_i q hq
    split at h
    · cases h
    · rename_i hl
      split at h
      · cases h
      · rename_i ms hms
        cases h
        exact ⟨q.1, q.2, ms, hq, by omega, hms, rfl⟩

/-- `S'` differs from `S` in the stored history only -/
def SameButHistory (S S' : OState K D gs) : Prop :=
  ∃ mn ps h t l, S' = { S with means := mn, posts := ps, hpds := h, tmds := t, ltmds := l }

theorem record_ok {c : OConf K D gs} {S S' : OState K D gs} (h : S.record c = (S', none)) : SameButHistory S S' := by
  unfold OState.record at h
  split at h
  · simp only at h
    split at h
    · cases h
    · cases h
      exact ⟨_, _, _, _, _, rfl⟩
  · cases h
    exact ⟨S.means, S.posts, S.hpds, S.tmds, S.ltmds, rfl⟩

theorem proceed_ok {c : OConf K D gs} {S S' : OState K D gs} (h : S.proceed c = (S', none)) :
    (S.rawData.length < c.seg ∧ S' = S) ∨ (c.seg ≤ S.rawData.length ∧ ∃ f t f' S2, S.fts = some f ∧ S.rawTs.bind List.getLast? = some t ∧
      f.append t = .ok f' ∧ ({ S with fts := some f' } : OState K D gs).analyse c (c.pdf (S.rawData.drop (S.rawData.length - c.seg))) = .ok S2 ∧
      S2.record c = (S', none)) := by
  unfold OState.proceed at h
  split at h
  · rename_i hl
    cases h
    exact .inl ⟨hl, rfl⟩
  · rename_i hl
    right
    refine ⟨by omega, ?_⟩
    split at h
    · rename_i f t hf ht
      split at h
      · cases h
      · rename_i f' hf'
        simp only at h
        split at h
        · cases h
        · rename_i S2 hS2
          exact ⟨f, t, f', S2, hf, ht, hf', hS2, h⟩
    · cases h

theorem movingWindow_snoc {α : Type} (xs : List α) (x : α) {n : ℕ} (h1 : 1 ≤ n) (hn : n ≤ (xs ++ [x]).length) :
    movingWindow (xs ++ [x]) n = movingWindow xs n ++ [(xs ++ [x]).drop ((xs ++ [x]).length - n)] := by
  have hl : (xs ++ [x]).length = xs.length + 1 := by simp
  rw [hl] at hn
  have e1 : (((xs ++ [x]).length : ℤ) - ((n : ℤ) - 1)).toNat = (xs.length + 1 - n) + 1 := by rw [hl]; omega
  have e2 : ((xs.length : ℤ) - ((n : ℤ) - 1)).toNat = xs.length + 1 - n := by omega
  unfold movingWindow
  rw [e1, e2, List.range_succ, List.map_append]
  congr 1
  · apply List.map_congr_left
    intro i hi
    rw [List.mem_range] at hi
    rw [List.drop_append_of_le_length (by omega), List.take_append_of_le_length (by rw [List.length_drop]; omega)]
  · simp only [List.map_cons, List.map_nil, hl]
    congr 1
    apply List.take_of_length_le
    rw [List.length_drop, hl]
    omega

theorem movingWindow_short {α : Type} (xs : List α) {n : ℕ} (hn : xs.length < n) : movingWindow xs n = [] := by
  unfold movingWindow
  have : ((xs.length : ℤ) - ((n : ℤ) - 1)).toNat = 0 := by omega
  rw [this]; rfl

theorem movingWindow_len {α : Type} (xs : List α) (n : ℕ) : (movingWindow xs n).length = xs.length + 1 - n := by
  unfold movingWindow
  rw [List.length_map, List.length_range]
  omega

/-- Assumptions on the models of an online study: built with the constructors, no hyper-parameter named `" "`, hyper-priors which can be
normalised. -/
def GoodModels (ms : List (String × TM K)) : Prop :=
  ∀ q ∈ ms, Built q.2 ∧ " " ∉ (entries q.2).map (·.1) ∧ ∀ g, createHyperGrid q.2 [] = .ok g → g.priors ≠ none

/-- a model as stored by `addTransitionModel` -/
def FreshModel (q : String × TM K) (m : OModelSt K gs) : Prop := m.name = q.1 ∧ m.tm = q.2 ∧ createHyperGrid q.2 [] = .ok m.grid

/-- time stamps `0, 1, …, n-1` -/
def stamps (n : ℕ) : List K := (List.range n).map fun i : ℕ => (i : K)

/-- State of a study after the data `xs`, given the state `S0` before the first step. -/
structure OInv (c : OConf K D gs) (ms : List (String × TM K)) (S0 : OState K D gs) (xs : List D) (S : OState K D gs) : Prop where
  store_eq : S.store = S0.store
  raw : S.rawData = xs
  times : xs ≠ [] → S.rawTs = some (stamps xs.length) ∧ ∃ f, S.fts = some f ∧ f.entries = (stamps xs.length).drop (c.seg - 1)
  named : xs ≠ [] → ∀ q ∈ ms, WellNamed q.2
  before : xs.length < c.seg → S.firstStep = true ∧ S.prior = S0.prior ∧ S.tmPrior = S0.tmPrior ∧ List.Forall₂ FreshModel ms S.models
  after : c.seg ≤ xs.length → S.firstStep = false ∧ ∃ a0, computePrior { c.E with prior := S0.prior } = .ok (a0, S.prior) ∧
    S.tmPrior = some (S0.tmPrior.getD (ms.map fun _ => 1 / (ms.length : K))) ∧ ms.length ≤ (S.tmPrior.getD []).length ∧
    List.Forall₂ (fun q m => Tracked { c.E with prior := S.prior } a0 (segLiks c xs) q m ∧ m = m.finish m.tm m.hyps) ms S.models ∧
    S.tmd = ((allSome (S.models.map OModelSt.hyperEv)).map fun l => l.map LogV.exp).bind normWeights ∧
    S.marg = mixture (S.models.map OModelSt.post) S.tmd ∧
    S.logEv = ((allSome (S.models.map OModelSt.hyperEv)).map fun l => l.map LogV.exp).map fun l =>
      ⟨(List.zipWith (· * ·) l (S.tmPrior.getD [])).sum⟩

theorem stamps_succ (n : ℕ) : (stamps (n + 1) : List K) = stamps n ++ [(n : K)] := by
  simp [stamps, List.range_succ]

theorem stamps_length (n : ℕ) : (stamps n : List K).length = n := by simp [stamps]

theorem fresh_names {ms : List (String × TM K)} {Ms : List (OModelSt K gs)} (hg : GoodModels ms) (hf : List.Forall₂ FreshModel ms Ms)
    (hn : (Ms.flatMap fun m => m.grid.names).Nodup) : ∀ q ∈ ms, WellNamed q.2 := by
  induction hf with
  | nil => simp
  | @cons q m ms Ms h1 _ ih =>
      rw [List.flatMap_cons, List.nodup_append] at hn
      obtain ⟨g1, g2, -⟩ := hg q (by simp)
      have hp := (Built.matched g1).proper
      intro q' hq'
      rcases List.mem_cons.1 hq' with rfl | hq'
      · refine ⟨hp, ?_, g2⟩
        rw [← (Props.createHyperGrid_eq hp h1.2.2).2.1]
        exact hn.1
      · exact ih (fun q hq => hg q (by simp [hq])) hn.2.1 q' hq'

theorem fresh_tracked {E : Env K gs} {a0 : Arr K gs} {ms : List (String × TM K)} {Ms : List (OModelSt K gs)} (hw : ∀ q ∈ ms, WellNamed q.2)
    (hf : List.Forall₂ FreshModel ms Ms) : List.Forall₂ (Tracked E a0 []) ms (Ms.map fun m => { m with
        hyps := (rowsOf m.grid).map fun _ => (⟨some fun _ => 0, some (LogV.log E.cell)⟩ : OHyp K gs)
        hyperEv := some 0 }) := by
  induction hf with
  | nil => exact .nil
  | @cons q m ms Ms h1 _ ih =>
      refine .cons ⟨h1.1, h1.2.2, ?_, ?_, fun h => absurd rfl h⟩ (ih fun q hq => hw q (by simp [hq]))
      · change SameShape q.2 m.tm
        rw [h1.2.1]
        exact SameShape.refl (hw q (by simp)).1
      · simp only [hypotheses, rowsOf]
        split
        · exact .cons rfl .nil
        · generalize m.grid.rows = rows
          induction rows with
          | nil => exact .nil
          | cons r rows ih => exact .cons rfl ih

theorem mapE_forall₂ {α β γ : Type} {f : β → Except PyErr γ} {P : α → β → Prop} {Q : α → γ → Prop} (hPQ : ∀ a b c, P a b → f b = .ok c → Q a c) :
    ∀ {as : List α} {bs : List β} {cs : List γ}, List.Forall₂ P as bs → mapE f bs = .ok cs → List.Forall₂ Q as cs := by
  intro as bs cs h
  induction h generalizing cs with
  | nil => intro h; simp only [mapE] at h; cases h; exact .nil
  | @cons a b as bs h1 _ ih =>
      intro h
      simp only [mapE, bind, Except.bind] at h
      split at h
      · cases h
      · rename_i c hc
        split at h
        · cases h
        · rename_i r hr
          cases h
          exact .cons (hPQ _ _ _ h1 hc) (ih hr)

theorem forall₂_and_mem {α β : Type} {P : α → β → Prop} : ∀ {as : List α} {bs : List β}, List.Forall₂ P as bs →
    List.Forall₂ (fun a b => a ∈ as ∧ P a b) as bs := by
  intro as bs h
  induction h with
  | nil => exact .nil
  | cons h1 _ ih => exact .cons ⟨by simp, h1⟩ (ih.imp fun a b h => ⟨by simp [h.1], h.2⟩)

/-- the analysis of a data segment -/
theorem analyse_inv {c : OConf K D gs} {ms : List (String × TM K)} {S0 T S2 : OState K D gs} {xs : List D} {x : D} (h1 : 1 ≤ c.seg)
    (hg : GoodModels ms) (hw : ∀ q ∈ ms, WellNamed q.2) (hseg : c.seg ≤ (xs ++ [x]).length)
    (before : xs.length < c.seg → T.firstStep = true ∧ T.prior = S0.prior ∧ T.tmPrior = S0.tmPrior ∧ List.Forall₂ FreshModel ms T.models)
    (after : c.seg ≤ xs.length → T.firstStep = false ∧ ∃ a0, computePrior { c.E with prior := S0.prior } = .ok (a0, T.prior) ∧
      T.tmPrior = some (S0.tmPrior.getD (ms.map fun _ => 1 / (ms.length : K))) ∧
      List.Forall₂ (fun q m => Tracked { c.E with prior := T.prior } a0 (segLiks c xs) q m ∧ m = m.finish m.tm m.hyps) ms T.models)
    (h : T.analyse c (c.pdf ((xs ++ [x]).drop ((xs ++ [x]).length - c.seg))) = .ok S2) :
    S2.firstStep = false ∧ (∃ a0, computePrior { c.E with prior := S0.prior } = .ok (a0, S2.prior) ∧
    S2.tmPrior = some (S0.tmPrior.getD (ms.map fun _ => 1 / (ms.length : K))) ∧ ms.length ≤ (S2.tmPrior.getD []).length ∧
    List.Forall₂ (fun q m => Tracked { c.E with prior := S2.prior } a0 (segLiks c (xs ++ [x])) q m ∧ m = m.finish m.tm m.hyps) ms S2.models ∧
    S2.tmd = ((allSome (S2.models.map OModelSt.hyperEv)).map fun l => l.map LogV.exp).bind normWeights ∧
    S2.marg = mixture (S2.models.map OModelSt.post) S2.tmd ∧
    S2.logEv = ((allSome (S2.models.map OModelSt.hyperEv)).map fun l => l.map LogV.exp).map fun l =>
      ⟨(List.zipWith (· * ·) l (S2.tmPrior.getD [])).sum⟩) ∧
    S2.rawData = T.rawData ∧ S2.rawTs = T.rawTs ∧ S2.fts = T.fts ∧ S2.store = T.store := by
  obtain ⟨S1, first, Ms, i1, i2, i3, rfl⟩ := analyse_ok h
  have hsn : segLiks c (xs ++ [x]) = segLiks c xs ++ [c.pdf ((xs ++ [x]).drop ((xs ++ [x]).length - c.seg))] := by
    rw [segLiks, movingWindow_snoc xs x h1 hseg, List.map_append]; rfl
  have upd : ∀ (E : Env K gs) (a0 : Arr K gs) (Ms0 : List (OModelSt K gs)), List.Forall₂ (Tracked E a0 (segLiks c xs)) ms Ms0 →
      mapE (OModelSt.update E (if segLiks c xs = [] then some a0 else none) (c.pdf ((xs ++ [x]).drop ((xs ++ [x]).length - c.seg)))) Ms0 = .ok Ms →
      List.Forall₂ (fun q m => Tracked E a0 (segLiks c (xs ++ [x])) q m ∧ m = m.finish m.tm m.hyps) ms Ms := by
    intro E a0 Ms0 hT hm
    refine mapE_forall₂ (P := fun q m => q ∈ ms ∧ Tracked E a0 (segLiks c xs) q m) ?_ (forall₂_and_mem hT) hm
    rintro q m m' ⟨hq, ht⟩ hu
    obtain ⟨u1, u2, -⟩ := update_tracked (Built.matched (hg q hq).1) (hw q hq) ((hg q hq).2.2 _ ht.grid) ht hu
    rw [hsn]
    exact ⟨u1, u2⟩
  unfold OState.initialise at i1
  by_cases hlen : xs.length < c.seg
  · obtain ⟨b1, b2, b3, b4⟩ := before hlen
    simp only [b1, ↓reduceIte, bind, Except.bind] at i1
    split at i1
    · cases i1
    · rename_i ap hap
      cases i1
      rw [b2] at hap
      have hnil : segLiks c xs = [] := by rw [segLiks, movingWindow_short xs hlen]; rfl
      have hml : T.models.length = ms.length := b4.length_eq.symm
      refine ⟨rfl, ⟨ap.1, hap, ?_, ?_, ?_, rfl, rfl, rfl⟩, rfl, rfl, rfl, rfl⟩
      · simp only [OState.combine]
        rw [b3]
        cases S0.tmPrior with
        | some p => rfl
        | none =>
            simp only [Option.getD_none, hml]
            congr 1
            simp only [List.map_const', hml]
      · simp only [OState.combine]
        simpa [hml] using i2
      · refine upd _ ap.1 _ ?_ (by rw [if_pos hnil]; exact i3)
        rw [hnil]
        exact fresh_tracked hw b4
  · obtain ⟨b1, a0, b2, b3, b4⟩ := after (by omega)
    simp only [b1, Bool.false_eq_true, ↓reduceIte] at i1
    cases i1
    have hnil : segLiks c xs ≠ [] := by
      intro h0
      have := congrArg List.length h0
      simp only [segLiks, List.length_map, movingWindow_len, List.length_nil] at this
      omega
    refine ⟨rfl, ⟨a0, b2, b3, ?_, ?_, rfl, rfl, rfl⟩, rfl, rfl, rfl, rfl⟩
    · simp only [OState.combine]
      rw [b4.length_eq]
      exact i2
    · exact upd _ a0 _ (b4.imp fun _ _ h => h.1) (by rw [if_neg hnil]; exact i3)

theorem step_inv {c : OConf K D gs} {ms : List (String × TM K)} {S0 S S' : OState K D gs} {xs : List D} {x : D} (h1 : 1 ≤ c.seg)
    (hg : GoodModels ms) (hne : ms ≠ []) (hi : OInv c ms S0 xs S) (h : S.step (some c) x = (S', none)) : OInv c ms S0 (xs ++ [x]) S' := by
  have hmne : S.models ≠ [] := by
    have hl : S.models.length = ms.length := by
      by_cases hl : xs.length < c.seg
      · exact (hi.before hl).2.2.2.length_eq.symm
      · exact (hi.after (by omega)).2.choose_spec.2.2.2.1.length_eq.symm
    intro h0
    rw [h0] at hl
    exact hne (List.length_eq_zero_iff.1 hl.symm)
  rw [step_eq hmne] at h
  -- the state before the analysis
  have hT : ∃ T : OState K D gs, T.proceed c = (S', none) ∧ T.rawData = xs ++ [x] ∧ T.store = S.store ∧ (∀ q ∈ ms, WellNamed q.2) ∧
      T.rawTs = some (stamps (xs ++ [x]).length) ∧ (∃ f, T.fts = some f ∧ f.entries = (stamps xs.length).drop (c.seg - 1)) ∧
      T.firstStep = S.firstStep ∧ T.prior = S.prior ∧ T.tmPrior = S.tmPrior ∧ T.models = S.models := by
    unfold OState.stepAdded at h
    by_cases hx : xs = []
    · rw [hi.raw, hx] at h
      simp only [List.length_nil, ↓reduceIte] at h
      split at h
      · cases h
      · rename_i hnd
        refine ⟨_, h, by rw [hx]; rfl, rfl, ?_, by simp [hx, stamps], ⟨_, rfl, by simp [hx, stamps, PySeq.entries]⟩, rfl, rfl, rfl, rfl⟩
        exact fresh_names hg (hi.before (by rw [hx]; exact h1)).2.2.2 (not_not.1 hnd)
    · obtain ⟨t1, f, t2, t3⟩ := hi.times hx
      have hl : xs.length ≠ 0 := fun h => hx (List.length_eq_zero_iff.1 h)
      rw [hi.raw] at h
      simp only [hl, ↓reduceIte, t1, Option.bind_some] at h
      obtain ⟨n, hn⟩ := Nat.exists_eq_succ_of_ne_zero hl
      rw [hn] at h
      simp only [Nat.succ_eq_add_one, stamps_succ, List.getLast?_append, List.getLast?_singleton, Option.some_or, Option.map_some] at h
      refine ⟨_, h, rfl, rfl, hi.named hx, ?_, ⟨f, t2, t3⟩, rfl, rfl, rfl, rfl⟩
      simp only [List.length_append, List.length_singleton, hn, Nat.succ_eq_add_one, stamps_succ]
      push_cast
      rfl
  obtain ⟨T, hp, T1, T2, T3, T4, ⟨f, T5, T6⟩, T7, T8, T9, T10⟩ := hT
  have hxl : (xs ++ [x]).length = xs.length + 1 := by simp
  rcases proceed_ok hp with ⟨p1, rfl⟩ | ⟨p1, f0, t, f', S2, p2, p3, p4, p5, p6⟩
  · rw [T1] at p1
    have hb := hi.before (by omega)
    refine ⟨by rw [T2, hi.store_eq], T1, fun _ => ⟨T4, f, T5, ?_⟩, fun _ => T3, fun _ => ?_, fun h => by omega⟩
    · rw [T6, List.drop_of_length_le (by rw [stamps_length]; omega), List.drop_of_length_le (by rw [stamps_length]; omega)]
    · rw [T7, T8, T9, T10]; exact hb
  · rw [T1] at p1 p5
    rw [T5] at p2
    cases p2
    obtain ⟨a1, a2, a3, a4, a5, a6⟩ := analyse_inv (S0 := S0) h1 hg T3 p1 (fun hl => by rw [T7, T8, T9, T10]; exact hi.before hl)
      (fun hl => by
        obtain ⟨b1, a0, b2, b3, b4, b5, -⟩ := hi.after hl
        rw [T7, T8, T9, T10]
        exact ⟨b1, a0, b2, b3, b5⟩) p5
    obtain ⟨mn, ps, hh, tt, ll, rfl⟩ := record_ok p6
    refine ⟨by simp only [a6, T2, hi.store_eq], by simp only [a3, T1], fun _ => ⟨by simp only [a4, T4], f', by simp only [a5], ?_⟩, fun _ => T3,
      fun h => by omega, fun _ => ⟨a1, a2⟩⟩
    have ht : t = (xs.length : K) := by
      rw [T4, hxl, stamps_succ] at p3
      simpa using p3.symm
    cases f with
    | ndarray l => simp [PySeq.append] at p4
    | list l =>
        simp only [PySeq.append, Except.ok.injEq] at p4
        subst p4
        simp only [PySeq.entries] at T6 ⊢
        rw [T6, ht, hxl, stamps_succ, List.drop_append_of_le_length (by rw [stamps_length]; omega)]

theorem runSteps_inv {c : OConf K D gs} {ms : List (String × TM K)} {S0 : OState K D gs} (h1 : 1 ≤ c.seg)
    (hg : GoodModels ms) (hne : ms ≠ []) : ∀ (ys xs : List D) (S S' : OState K D gs), OInv c ms S0 xs S → runSteps c S ys = .ok S' →
      OInv c ms S0 (xs ++ ys) S'
  | [], xs, S, S', hi, h => by
      rw [runSteps] at h
      cases h
      simpa using hi
  | y :: ys, xs, S, S', hi, h => by
      rw [runSteps] at h
      split at h
      · cases h
      · rename_i S1 hS
        have := runSteps_inv h1 hg hne ys (xs ++ [y]) S1 S' (step_inv h1 hg hne hi hS) h
        simpa using this

theorem addAll_spec : ∀ (ms : List (String × TM K)) (S S' : OState K D gs), S.rawTs = none → S.fts = none → addAll S ms = .ok S' →
    ∃ Ms cur, List.Forall₂ FreshModel ms Ms ∧ S' = { S with models := S.models ++ Ms, current := cur }
  | [], S, S', _, _, h => by
      rw [addAll] at h
      cases h
      exact ⟨[], S.current, .nil, by simp⟩
  | q :: ms, S, S', hr, hf, h => by
      rw [addAll] at h
      split at h
      · cases h
      · rename_i S1 hS1
        have key : ∃ g, createHyperGrid q.2 [] = .ok g ∧
            S1 = { S with current := some q.2, models := S.models ++ [⟨q.1, q.2, g, [], none, none, none⟩] } := by
          unfold OState.add at hS1
          split at hS1
          · cases hS1
          · rename_i S2 hS2
            have hS2' : S2 = { S with current := some q.2 } := by
              unfold OState.setTM at hS2
              split at hS2
              · cases hS2
              · cases hS2; rfl
            subst hS2'
            simp only [hr, hf] at hS1
            split at hS1
            · cases hS1
            · split at hS1
              · cases hS1
              · rename_i g hg
                cases hS1
                refine ⟨g, hg, ?_⟩
                rw [hr, hf]
        obtain ⟨g, k1, rfl⟩ := key
        obtain ⟨Ms, cur, l1, l2⟩ := addAll_spec ms
          { S with current := some q.2, models := S.models ++ [⟨q.1, q.2, g, [], none, none, none⟩] } S' hr hf h
        refine ⟨⟨q.1, q.2, g, [], none, none, none⟩ :: Ms, cur, .cons ⟨rfl, rfl, k1⟩ l1, ?_⟩
        rw [l2]
        simp

theorem setup_inv {c : OConf K D gs} {store : Bool} {prior : PriorSpec K gs} {ms : List (String × TM K)} {p : Option (List K)} {S : OState K D gs} (h1 : 1 ≤ c.seg)
    (h : setup store prior ms p = .ok S) : OInv c ms S [] S ∧ S.prior = prior ∧ S.store = store ∧
      (S.tmPrior = match p with
        | none => none
        | some p => if p.sum = 1 then some p else if p.sum = 0 then none else some (p.map (· / p.sum))) ∧
      (∀ q, p = some q → q.length = ms.length) ∧ S.means = [] ∧ S.posts = .list [] ∧ S.hpds = [] ∧ S.tmds = [] ∧ S.ltmds = [] := by
  unfold setup at h
  split at h
  · cases h
  · rename_i S1 hS1
    obtain ⟨Ms, cur, l1, rfl⟩ := addAll_spec ms _ S1 rfl rfl hS1
    cases p with
    | none =>
      cases h
      refine ⟨⟨rfl, rfl, fun h => absurd rfl h, fun h => absurd rfl h, fun _ => ⟨rfl, rfl, rfl, by simpa [OState.new] using l1⟩, fun h => ?_⟩,
        rfl, rfl, rfl, by simp, rfl, rfl, rfl, rfl, rfl⟩
      simp at h; omega
    | some p =>
      simp only at h
      split at h
      · cases h
      · rename_i S' hS'
        cases h
        unfold OState.setTMPrior at hS'
        split at hS'
        · cases hS'
        · rename_i hlen
          have hlen' : p.length = ms.length := by
            rw [l1.length_eq]; simpa [OState.new] using hlen
          have hseg : ¬ c.seg ≤ ([] : List D).length := by simp; omega
          split at hS'
          · rename_i hsum
            cases hS'
            exact ⟨⟨rfl, rfl, fun h => absurd rfl h, fun h => absurd rfl h, fun _ => ⟨rfl, rfl, rfl, by simpa [OState.new] using l1⟩, fun h => absurd h hseg⟩,
              rfl, rfl, by simp [hsum], by rintro q ⟨⟩; exact hlen', rfl, rfl, rfl, rfl, rfl⟩
          · rename_i hsum
            split at hS'
            · rename_i hsum0
              cases hS'
              exact ⟨⟨rfl, rfl, fun h => absurd rfl h, fun h => absurd rfl h, fun _ => ⟨rfl, rfl, rfl, by simpa [OState.new] using l1⟩, fun h => absurd h hseg⟩,
                rfl, rfl, by simp [hsum0], by rintro q ⟨⟩; exact hlen', rfl, rfl, rfl, rfl, rfl⟩
            · rename_i hsum0
              cases hS'
              exact ⟨⟨rfl, rfl, fun h => absurd rfl h, fun h => absurd rfl h, fun _ => ⟨rfl, rfl, rfl, by simpa [OState.new] using l1⟩, fun h => absurd h hseg⟩,
                rfl, rfl, by simp [hsum, hsum0], by rintro q ⟨⟩; exact hlen', rfl, rfl, rfl, rfl, rfl⟩

end BL
