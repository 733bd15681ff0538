import Verif.Lemmas.HyperCore
import Mathlib.Algebra.BigOperators.Field

/-! # Closed forms of the averages of a hyper-study -/

set_option linter.unusedSectionVars false

namespace BL
open Spec
variable {K : Type} [Field K] [LinearOrder K] [IsStrictOrderedRing K] {d : ℕ} {gs : Fin d → ℕ}

theorem listMax_some {l : List K} (h : l ≠ []) : ∃ M, listMax l = some M ∧ M ∈ l ∧ ∀ x ∈ l, x ≤ M := by
  unfold listMax
  cases hm : l.max? with
  | none => exact absurd (List.max?_eq_none_iff.1 hm) h
  | some M =>
      rw [List.max?_eq_some_iff] at hm
      exact ⟨M, rfl, hm.1, fun x hx => hm.2 x hx⟩

theorem sum_div_list' (l : List K) (c : K) : (l.map fun x => x / c).sum = l.sum / c := Props.sum_div_list l c

theorem list_sum_pos {l : List K} (h0 : ∀ x ∈ l, 0 ≤ x) {y : K} (hy : y ∈ l) (hp : 0 < y) : 0 < l.sum := by
  induction l with
  | nil => simp at hy
  | cons a l ih =>
      rw [List.sum_cons]
      have hs : 0 ≤ l.sum := List.sum_nonneg fun x hx => h0 x (by simp [hx])
      rcases List.mem_cons.1 hy with rfl | hy
      · exact add_pos_of_pos_of_nonneg hp hs
      · exact add_pos_of_nonneg_of_pos (h0 a (by simp)) (ih (fun x hx => h0 x (by simp [hx])) hy)

/-- joint weights prior times evidence -/
def joint (evs : List (LogV K)) (priors hgc : List K) : List K :=
  List.zipWith (fun e p => e.exp * p * hgc.prod) evs priors

theorem logHPD_exp (evs : List (LogV K)) (priors hgc : List K) : (logHPD evs priors hgc).map LogV.exp = joint evs priors hgc := by
  rw [logHPD, List.map_zipWith]
  rfl

theorem hyperEvidence_eq (evs : List (LogV K)) (priors hgc : List K) : (hyperEvidence evs priors hgc).exp = (joint evs priors hgc).sum := by
  rw [hyperEvidence, logHPD_exp]
  rfl

theorem hyperDist_eq {evs : List (LogV K)} {priors hgc : List K} (h0 : ∀ w ∈ joint evs priors hgc, 0 ≤ w)
    (h1 : ∃ w ∈ joint evs priors hgc, 0 < w) :
    hyperDist evs priors hgc = some ((joint evs priors hgc).map fun w => w / (joint evs priors hgc).sum / hgc.prod) := by
  obtain ⟨w, hw, hpos⟩ := h1
  unfold hyperDist
  rw [logHPD_exp]
  obtain ⟨M, m1, m2, m3⟩ := listMax_some (l := joint evs priors hgc) (by intro h; rw [h] at hw; simp at hw)
  simp only [m1]
  have hM : 0 < M := lt_of_lt_of_le hpos (m3 w hw)
  rw [if_neg hM.ne', Props.sum_div_list, List.map_map]
  congr 1
  apply List.map_congr_left
  intro x _
  have hs := (list_sum_pos h0 hw hpos).ne'
  simp only [Function.comp]
  rw [div_div_div_cancel_right₀ hM.ne']

/-- all weights zero: nan -/
theorem hyperDist_none {evs : List (LogV K)} {priors hgc : List K} (h : ∀ w ∈ joint evs priors hgc, w = 0) :
    hyperDist evs priors hgc = none := by
  unfold hyperDist
  rw [logHPD_exp]
  by_cases hl : joint evs priors hgc = []
  · rw [hl]; rfl
  · obtain ⟨M, m1, m2, -⟩ := listMax_some hl
    simp only [m1]
    rw [if_pos (h M m2)]

theorem allSome_map {α β : Type} (f : α → β) : ∀ l : List α, allSome (l.map fun x => some (f x)) = some (l.map f)
  | [] => rfl
  | x :: l => by rw [List.map_cons, allSome, allSome_map f l]; rfl

theorem amax_some [Nonempty (Idx gs)] (q : Idx gs → K) : ∃ m, amax q = some m ∧ (∃ x, q x = m) ∧ ∀ x, q x ≤ m := by
  unfold amax
  obtain ⟨m, hm⟩ := Finset.max_of_nonempty (s := Finset.univ.image q) (Finset.univ_nonempty.image q)
  refine ⟨m, hm, ?_, fun x => ?_⟩
  · have := Finset.mem_of_max hm
    obtain ⟨x, -, hx⟩ := Finset.mem_image.1 this
    exact ⟨x, hx⟩
  · exact Finset.le_max_of_eq (Finset.mem_image_of_mem q (Finset.mem_univ x)) hm

theorem finishAvg_rep [Nonempty (Idx gs)] (n : ℕ) (F : ℕ → Idx gs → K) (h : ∀ t x, t < n → 0 < F t x) :
    finishAvg (rep n F) = (List.range n).map fun t => .val fun x => F t x / ∑ y, F t y := by
  unfold finishAvg
  have hr : rep n F = (List.range n).map fun t => some (fun x => (⟨F t x⟩ : LogV K)) := rfl
  rw [hr, allSome_map]
  simp only
  by_cases hn : n = 0
  · subst hn
    simp [listMax]
  · set l := (((List.range n).map fun t => fun x => (⟨F t x⟩ : LogV K)).flatMap fun a => (amax fun x => (a x).exp).toList) with hl
    have hpos : ∀ y ∈ l, 0 < y := by
      intro y hy
      rw [hl, List.mem_flatMap] at hy
      obtain ⟨a, ha, hy⟩ := hy
      obtain ⟨t, ht, rfl⟩ := List.mem_map.1 ha
      obtain ⟨m, m1, ⟨x, hx⟩, -⟩ := amax_some (fun x => ((⟨F t x⟩ : LogV K)).exp)
      rw [m1] at hy
      simp only [Option.toList_some, List.mem_singleton] at hy
      rw [hy, ← hx]
      exact h t x (List.mem_range.1 ht)
    have hne : l ≠ [] := by
      intro h0
      obtain ⟨m, m1, -, -⟩ := amax_some (fun x => ((⟨F 0 x⟩ : LogV K)).exp)
      have : m ∈ l := by
        rw [hl, List.mem_flatMap]
        exact ⟨_, List.mem_map.2 ⟨0, List.mem_range.2 (by omega), rfl⟩, by rw [m1]; simp⟩
      rw [h0] at this
      simp at this
    obtain ⟨M, m1, m2, -⟩ := listMax_some hne
    have hM := hpos M m2
    rw [m1]
    simp only
    rw [if_neg hM.ne', List.map_map]
    apply List.map_congr_left
    intro t ht
    have hs : 0 < ∑ y, F t y := Finset.sum_pos (fun x _ => h t x (List.mem_range.1 ht)) Finset.univ_nonempty
    have e : ∑ x, F t x / M = (∑ x, F t x) / M := (Finset.sum_div _ _ _).symm
    refine (if_neg ?_).trans ?_
    · change ¬ ∑ x, F t x / M = 0
      rw [e]; exact (div_pos hs hM).ne'
    congr 1
    funext x
    change F t x / M / ∑ x, F t x / M = _
    rw [e, div_div_div_cancel_right₀ hM.ne']

/-! ## Evidences of single fits -/

theorem fwdPass_norm {E : Env K gs} {tm : TM K} : ∀ (Ls : List (Idx gs → K)) (ts : List K) (al : Bool) (pr : PriorSpec K gs) (a : Arr K gs)
    (r : FwdOut K gs), fwdPass E tm al pr a Ls ts = .ok r → ∀ s ∈ r.steps, 0 < s.norm
  | [], ts, al, pr, a, r, h => by
      cases a <;> (simp only [fwdPass, Except.ok.injEq] at h; subst h; simp)
  | L :: Ls, ts, al, pr, none, r, h => by
      simp only [fwdPass, Except.ok.injEq] at h; subst h; simp
  | L :: Ls, ts, al, pr, some a, r, h => by
      simp only [fwdPass] at h
      split at h
      · rename_i hpos
        cases ts with
        | nil => simp at h
        | cons t ts =>
            simp only [bind, Except.bind] at h
            split at h
            · cases h
            · split at h
              · cases h
              · rename_i r' hr'
                cases h
                intro s hs
                rcases List.mem_cons.1 hs with rfl | hs
                · exact hpos
                · exact fwdPass_norm Ls ts _ _ _ r' hr' s hs
      · simp only [Except.ok.injEq] at h; subst h; simp

theorem sumLog_nonneg {E : Env K gs} (hc : 0 ≤ E.cell) (ss : List (Step K gs)) (h : ∀ s ∈ ss, 0 < s.norm) : 0 ≤ (sumLog E ss).exp := by
  have key : ∀ (ss : List (Step K gs)) (l : LogV K), (∀ s ∈ ss, 0 < s.norm) → 0 ≤ l.exp →
      0 ≤ (ss.foldl (fun l s => l + LogV.log s.norm) l).exp := by
    intro ss
    induction ss with
    | nil => intro l _ h; exact h
    | cons s ss ih =>
        intro l h h0
        rw [List.foldl_cons]
        exact ih _ (fun s hs => h s (by simp [hs])) (by rw [LogV.exp_add]; exact mul_nonneg h0 (h s (by simp)).le)
  rw [sumLog, LogV.exp_add]
  exact mul_nonneg (key ss 0 h zero_le_one) hc

/-- evidences are not negative -/
theorem fit_ev_nonneg {E : Env K gs} {grid : (a : Fin d) → Fin (gs a) → K} {tm : TM K} {Ls : List (Idx gs → K)} {ts : List K} {fo eo : Bool}
    {S A : FitState K gs} (hc : 0 ≤ E.cell) (h : fit E grid tm Ls ts fo eo S = .ok A) : 0 ≤ A.logEv.exp := by
  unfold fit at h
  simp only [bind, Except.bind] at h
  split at h
  · cases h
  · split at h
    · cases h
    · rename_i f hf
      have hs := sumLog_nonneg hc _ (fwdPass_norm _ _ _ _ _ _ hf)
      split at h
      · cases h; exact le_rfl
      · split at h
        · cases h; exact hs
        · split at h
          · cases h; exact hs
          · split at h
            · cases h
            · split at h
              · cases h; exact le_rfl
              · cases h; exact hs

/-! ## Local evidences -/

theorem bwdPass_locals {E : Env K gs} {tm : TM K} : ∀ (ss : List (Step K gs)) (o : BwdOut K gs), bwdPass E tm ss = .ok o →
    o.locals.length = ss.length ∧ ∀ c ∈ o.locals, c ≠ .uninit
  | [], o, h => by
      simp only [bwdPass, Except.ok.injEq] at h; subst h; simp
  | s :: ss, o, h => by
      simp only [bwdPass, bind, Except.bind] at h
      split at h
      · cases h
      · rename_i o' ho'
        obtain ⟨i1, i2⟩ := bwdPass_locals ss o' ho'
        have hl : ∀ (a : Idx gs → K) , localEv E a s.lik ≠ .uninit := by
          intro a
          unfold localEv
          split
          · simp
          · split
            · simp
            · split <;> simp
        split at h
        · cases h; simp only [List.length_cons, i1, List.mem_cons, forall_eq_or_imp, true_and]; exact ⟨by simp, i2⟩
        · split at h
          · cases h; simp only [List.length_cons, i1, List.mem_cons, forall_eq_or_imp, true_and]; exact ⟨by simp, i2⟩
          · split at h
            · split at h
              · cases h
              · cases h; simp only [List.length_cons, i1, List.mem_cons, forall_eq_or_imp, true_and]; exact ⟨hl _, i2⟩
            · cases h; simp only [List.length_cons, i1, List.mem_cons, forall_eq_or_imp, true_and]; exact ⟨by simp, i2⟩

/-- a fit with non-zero evidence has written all local evidences -/
theorem fit_locals {E : Env K gs} {grid : (a : Fin d) → Fin (gs a) → K} {tm : TM K} {Ls : List (Idx gs → K)} {ts : List K} {fo eo : Bool}
    {S A : FitState K gs} (h : fit E grid tm Ls ts fo eo S = .ok A) (hA : A.logEv ≠ LogV.ninf) :
    A.locals.length = Ls.length ∧ ∀ c ∈ A.locals, c ≠ .uninit := by
  unfold fit at h
  simp only [bind, Except.bind] at h
  split at h
  · cases h
  · split at h
    · cases h
    · rename_i f hf
      split at h
      · cases h; simp at hA
      · rename_i hst
        have hlen := (fwdPass_sum _ _ _ _ _ _ hf).2 (by simpa using hst)
        have hv : (f.steps.map fun s => Cell.val (s.norm * E.cell)).length = Ls.length ∧
            ∀ c ∈ f.steps.map fun s => Cell.val (s.norm * E.cell), c ≠ .uninit := by
          refine ⟨by simp [hlen], fun c hc => ?_⟩
          obtain ⟨s, -, rfl⟩ := List.mem_map.1 hc
          simp
        split at h
        · cases h; exact hv
        · split at h
          · cases h; exact hv
          · split at h
            · cases h
            · rename_i b hb
              obtain ⟨b1, b2⟩ := bwdPass_locals _ _ hb
              split at h
              · cases h; exact ⟨by rw [b1, hlen], b2⟩
              · cases h; exact ⟨by rw [b1, hlen], b2⟩

end BL
