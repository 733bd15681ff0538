import Verif.Props.C08
import Verif.Props.C55
import Verif.Props.Ex

/-! # C82: the last time step of a full fit -/

set_option linter.unusedSectionVars false

namespace BL
variable {K : Type} [Field K] [LinearOrder K] [IsStrictOrderedRing K] {d : ℕ} {gs : Fin d → ℕ} {E : Env K gs} {tm : TM K}

theorem fwdPass_alpha_one : ∀ (Ls : List (Idx gs → K)) (al : Bool) (pr : PriorSpec K gs) (a : Arr K gs) (ts : List K) (r : FwdOut K gs),
    fwdPass E tm al pr a Ls ts = .ok r → ∀ s ∈ r.steps, ∑ x, s.alpha x = 1
  | [], al, pr, a, ts, r, h => by
      rw [fwdPass] at h
      cases h
      simp
  | L :: Ls, al, pr, none, ts, r, h => by
      rw [fwdPass] at h
      cases h
      simp
  | L :: Ls, al, pr, some a, ts, r, h => by
      rw [fwdPass] at h
      simp only at h
      split at h
      · rename_i hn
        cases ts with
        | nil => simp at h
        | cons t ts =>
            revert h
            simp only [bind, Except.bind]
            split
            · intro h; simp at h
            · rename_i nx _
              split
              · intro h; simp at h
              · rename_i r' hr
                intro h
                simp only [Except.ok.injEq] at h
                subst h
                intro s hs
                rcases List.mem_cons.1 hs with rfl | hs
                · change ∑ x, a x * L x / ∑ x, a x * L x = 1
                  rw [← Finset.sum_div, div_self hn.ne']
                · exact fwdPass_alpha_one Ls _ _ nx ts r' hr s hs
      · cases h
        simp

theorem bwdPass_length : ∀ (ss : List (Step K gs)) (o : BwdOut K gs), bwdPass E tm ss = .ok o → o.posts.length = ss.length
  | [], o, h => by
      rw [bwdPass] at h
      cases h
      rfl
  | s :: ss, o, h => by
      rw [bwdPass] at h
      revert h
      cases ho : bwdPass E tm ss with
      | error e => simp [bind, Except.bind]
      | ok o' =>
          have ih := bwdPass_length ss o' ho
          simp only [bind, Except.bind]
          split
          · intro h; cases h; simp [ih]
          · split
            · intro h; cases h; simp [ih]
            · split
              · split
                · intro h; simp at h
                · intro h; cases h; simp [ih]
              · intro h; cases h; simp [ih]

/-- The entry of the last time step is the one of the forward pass. -/
theorem bwdPass_last : ∀ (ss : List (Step K gs)) (o : BwdOut K gs), (∀ s ∈ ss, ∑ x, s.alpha x = 1) → bwdPass E tm ss = .ok o →
    o.posts.getLast? = (ss.map fun s => Cell.val s.alpha).getLast?
  | [], o, _, h => by
      rw [bwdPass] at h
      cases h
      rfl
  | [s], o, hs, h => by
      have h1 := hs s (by simp)
      have hne : Nonempty (Idx gs) := by
        by_contra hn
        rw [not_nonempty_iff] at hn
        simp at h1
      have hc : (0 : K) < (Fintype.card (Idx gs) : K) := by exact_mod_cast Fintype.card_pos
      have hn : normalize (fun _ : Idx gs => (1 : K)) = some fun _ => 1 / (Fintype.card (Idx gs) : K) := by
        rw [normalize_pos (by simpa using hc)]
        simp
      have hq : ∑ x, s.alpha x * (1 / (Fintype.card (Idx gs) : K)) = 1 / (Fintype.card (Idx gs) : K) := by rw [← Finset.sum_mul, h1, one_mul]
      rw [bwdPass, bwdPass] at h
      simp only [bind, Except.bind, hn, hq, Bool.false_eq_true, if_false, div_pos one_pos hc, if_true] at h
      split at h
      · simp at h
      · cases h
        simp only [List.getLast?_singleton, List.map_cons, List.map_nil]
        congr 2
        funext x
        field_simp
  | s :: s' :: ss, o, hs, h => by
      rw [bwdPass] at h
      revert h
      cases ho : bwdPass E tm (s' :: ss) with
      | error e => simp [bind, Except.bind]
      | ok o' =>
          have ih := bwdPass_last (s' :: ss) o' (fun x hx => hs x (List.mem_cons_of_mem _ hx)) ho
          have hl := bwdPass_length (s' :: ss) o' ho
          have hne : o'.posts ≠ [] := by intro h0; rw [h0] at hl; simp at hl
          have key : ∀ c : Cell (Idx gs → K), (c :: o'.posts).getLast? = ((s :: s' :: ss).map fun s => Cell.val s.alpha).getLast? := by
            intro c
            rw [List.getLast?_cons_of_ne_nil hne, ih, List.map_cons, List.map_cons, List.map_cons, List.getLast?_cons_cons]
          simp only [bind, Except.bind]
          split
          · intro h; cases h; exact key _
          · split
            · intro h; cases h; exact key _
            · split
              · split
                · intro h; simp at h
                · intro h; cases h; exact key _
              · intro h; cases h; exact key _

end BL

namespace Props
open BL

variable {K : Type} [Field K] [LinearOrder K] [IsStrictOrderedRing K] {d : ℕ} {gs : Fin d → ℕ}

/-- **C82.** Every transition model (linear or not), prior, data and time stamps: if the full fit and the forward-only fit both return, they store the same distribution for the last time step. -/
theorem C82 (E : Env K gs) (grid : (a : Fin d) → Fin (gs a) → K) (tm : TM K) (S A B : FitState K gs) (Ls : List (Idx gs → K)) (ts : List K)
    (hA : fit E grid tm Ls ts false false S = .ok A) (hB : fit E grid tm Ls ts true false S = .ok B) : A.posts.getLast? = B.posts.getLast? := by
  unfold fit at hA hB
  revert hA hB
  cases hc : computePrior { E with prior := S.prior } with
  | error e => simp [bind, Except.bind]
  | ok ap =>
      obtain ⟨a0, pr0⟩ := ap
      simp only [bind, Except.bind]
      cases hf : fwdPass E tm pr0.isArray pr0 a0 Ls ts with
      | error e => simp
      | ok f =>
          cases hst : f.stopped with
          | true =>
              simp only [hst, if_true, Except.ok.injEq, Bool.false_eq_true, if_false]
              rintro rfl rfl
              rfl
          | false =>
              simp only [hst, Bool.false_eq_true, if_false, if_true, Except.ok.injEq]
              cases hb : bwdPass { E with prior := f.prior } tm f.steps with
              | error e => simp
              | ok o =>
                  have := bwdPass_last f.steps o (fwdPass_alpha_one Ls _ _ _ ts f hf) hb
                  simp only
                  split
                  · simp only [Except.ok.injEq]; rintro rfl rfl; exact this
                  · simp only [Except.ok.injEq]; rintro rfl rfl; exact this

/-- **C82 (mean values).** If the evidence is not zero, the last mean value of every parameter agrees, too. -/
theorem C82_means (E : Env K gs) (grid : (a : Fin d) → Fin (gs a) → K) (tm : TM K) (S A B : FitState K gs) (Ls : List (Idx gs → K)) (ts : List K)
    (hA : fit E grid tm Ls ts false false S = .ok A) (hB : fit E grid tm Ls ts true false S = .ok B) (hz : A.logEv ≠ LogV.ninf) (a : Fin d) :
    (A.means a).getLast? = (B.means a).getLast? := by
  have hzB : B.logEv ≠ LogV.ninf := by
    rcases C08_full_or_zero E grid tm S Ls ts A B hA hB with h | h
    · rwa [h] at hz
    · exact absurd h hz
  have h1 := congrArg List.getLast? (fit_means E grid tm Ls ts false S A hA hz a)
  have h2 := congrArg List.getLast? (fit_means E grid tm Ls ts true S B hB hzB a)
  rw [List.getLast?_map, List.getLast?_map] at h1 h2
  rw [C82 E grid tm S A B Ls ts hA hB, ← h2] at h1
  exact Option.map_injective (Option.some_injective _) h1

/-- A serial model with a change-point and a regime-switch: the full fit and the forward-only fit return; the distributions of the first time step differ, those of the last one agree. -/
example : Ex.postTable (fit (Ex.env Ex.gs2 1) (Ex.grid Ex.gs2) (Ex.ser true 1 (Ex.grw 1) Ex.regime) [Ex.v2 1 2, Ex.v2 1 3, Ex.v2 2 1] [0, 1, 2] false false (Ex.S0 .none))
      = some [.val [3 / 13, 10 / 13], .val [5 / 26, 21 / 26], .val [2 / 3, 1 / 3]] ∧
    Ex.postTable (fit (Ex.env Ex.gs2 1) (Ex.grid Ex.gs2) (Ex.ser true 1 (Ex.grw 1) Ex.regime) [Ex.v2 1 2, Ex.v2 1 3, Ex.v2 2 1] [0, 1, 2] true false (Ex.S0 .none))
      = some [.val [1 / 3, 2 / 3], .val [5 / 26, 21 / 26], .val [2 / 3, 1 / 3]] := by
  decide +kernel

end Props
