import Verif.Props.Ex
import Verif.Lemmas.Resets

/-! # C03: forward-only posteriors are the filtering distributions; causality -/

set_option linter.unusedSectionVars false

namespace Props
open BL Spec

variable {K : Type} [Field K] [LinearOrder K] [IsStrictOrderedRing K] {d : ℕ} {gs : Fin d → ℕ}

/-- **C03 (filtering).** The posterior stored at step `i` by `fit(forwardOnly=True)` is the conditional distribution of the
parameter at step `i` given the data `0..i`: a ratio of two sums over paths of length `i+1`.  Resets are allowed for
flat priors and priors given by functions; for models without resets the prior is arbitrary. -/
theorem C03_filtering (E : Env K gs) (grid : (a : Fin d) → Fin (gs a) → K) (tm : TM K)
    (hE : Regular E) (hL : Linear E tm) (S : FitState K gs) (π : Idx gs → K) (hp : PriorMass E.cell S.prior π)
    (hR : ResetFree tm ∨ S.prior = .none ∨ ∃ v, S.prior = .func v)
    {n : ℕ} (L : Fin (n + 1) → Idx gs → K) (hL0 : ∀ i x, 0 ≤ L i x) (τ : Fin (n + 1) → K)
    (hpos : evidence π (fun i : Fin n => kernel E π tm (τ i.castSucc)) L ≠ 0) :
    ∃ S', fit E grid tm (List.ofFn L) (List.ofFn τ) true false S = .ok S' ∧
      S'.posts = List.ofFn fun i =>
        .val (filtering π (fun j : Fin i.val => kernel E π tm (upTo i τ j.castSucc)) (upTo i L)) := by
  haveI := hE.nonempty
  have hR' : ResetCond E tm S.prior 1 π := by
    rcases hR with h | h
    · exact Or.inl h
    · refine Or.inr ⟨?_, resetOK_prior hp h⟩
      rcases h with h | ⟨v, h⟩ <;> rw [h] <;> rfl
  obtain ⟨S', h1, h2, -⟩ := linear_filtering (grid := grid) hE hL hp hR' hL0 hpos
  exact ⟨S', h1, h2⟩

example : ∃ S', fit (Ex.env Ex.gs3 (1 / 2)) (Ex.grid Ex.gs3) Ex.nested
      (List.ofFn ![Ex.v3 1 2 3, Ex.v3 0 1 0]) (List.ofFn ![0, 4]) true false (Ex.S0 .none) = .ok S' ∧
      S'.posts = List.ofFn fun i => .val (filtering (fun _ => 1 / (Fintype.card (Idx Ex.gs3) : ℚ))
        (fun j : Fin i.val => kernel (Ex.env Ex.gs3 (1 / 2)) (fun _ => 1 / (Fintype.card (Idx Ex.gs3) : ℚ)) Ex.nested (upTo i ![(0 : ℚ), 4] j.castSucc))
        (upTo i ![Ex.v3 1 2 3, Ex.v3 0 1 0])) :=
  C03_filtering _ _ _ (Ex.regular3 (by norm_num)) (Ex.nested_linear _ _) _ _ .flat (Or.inl Ex.nested_resetFree) _
    (by decide +kernel) _ (by decide +kernel)

theorem fwdPass_append {E : Env K gs} {tm : TM K} : ∀ (Ls X : List (Idx gs → K)) (ts Y : List K) (al : Bool)
    (pr : PriorSpec K gs) (a : Arr K gs) (r : FwdOut K gs), ts.length = Ls.length →
    fwdPass E tm al pr a (Ls ++ X) (ts ++ Y) = .ok r → r.stopped = false →
    ∃ r0, fwdPass E tm al pr a Ls ts = .ok r0 ∧ r0.stopped = false ∧ r0.steps = r.steps.take Ls.length
  | [], X, ts, Y, al, pr, a, r, _, _, _ => ⟨⟨[], false, pr⟩, by rw [fwdPass], rfl, by simp⟩
  | L :: Ls, X, [], Y, al, pr, a, r, h, _, _ => by simp at h
  | L :: Ls, X, t :: ts, Y, al, pr, none, r, _, h, hs => by
      rw [List.cons_append, fwdPass] at h
      cases h
      simp at hs
  | L :: Ls, X, t :: ts, Y, al, pr, some a, r, hlen, h, hs => by
      rw [List.cons_append, List.cons_append, fwdPass] at h
      rw [fwdPass]
      simp only at h ⊢
      by_cases hn : 0 < ∑ x, a x * L x
      · simp only [hn, if_true] at h ⊢
        revert h
        cases hf : tm.fwd { E with prior := if al = true then PriorSpec.array (some fun x => a x * L x / ∑ x, a x * L x) else pr } 0
            (some fun x => a x * L x / ∑ x, a x * L x) t with
        | error e => intro h; simp [bind, Except.bind] at h
        | ok nx =>
            simp only [bind, Except.bind]
            cases hr : fwdPass E tm (al && tm.returnsArg t)
              (if al = true then PriorSpec.array (some fun x => a x * L x / ∑ x, a x * L x) else pr) nx (Ls ++ X) (ts ++ Y) with
            | error e => intro h; simp at h
            | ok r1 =>
                intro h
                simp only [Except.ok.injEq] at h
                subst h
                obtain ⟨r0, h0, h1, h2⟩ := fwdPass_append Ls X ts Y _ _ nx r1 (by simpa using hlen) hr hs
                rw [h0]
                exact ⟨_, rfl, h1, by simp [h2]⟩
      · simp only [hn, if_false] at h
        cases h
        simp at hs

/-- **C03 (causality).** For EVERY transition model (also nonlinear ones) and every prior: if the fit on the data
`Ls ++ X` succeeds with non-zero evidence, the fit on `Ls` alone succeeds and stores the same first posteriors. -/
theorem C03_causal (E : Env K gs) (grid : (a : Fin d) → Fin (gs a) → K) (tm : TM K) (S S1 : FitState K gs)
    (Ls X : List (Idx gs → K)) (ts Y : List K) (hlen : ts.length = Ls.length)
    (hfit : fit E grid tm (Ls ++ X) (ts ++ Y) true false S = .ok S1) (hfin : S1.logEv ≠ LogV.ninf) :
    ∃ S2, fit E grid tm Ls ts true false S = .ok S2 ∧ S2.posts = S1.posts.take Ls.length ∧
      ∀ a, S2.means a = (S1.means a).take Ls.length := by
  unfold fit at hfit ⊢
  revert hfit
  cases hc : computePrior { E with prior := S.prior } with
  | error e => intro h; simp [bind, Except.bind] at h
  | ok ap =>
      obtain ⟨a0, pr0⟩ := ap
      simp only [bind, Except.bind]
      cases hf : fwdPass E tm pr0.isArray pr0 a0 (Ls ++ X) (ts ++ Y) with
      | error e => intro h; simp at h
      | ok r =>
          simp only
          by_cases hst : r.stopped = true
          · simp only [hst, if_true, Except.ok.injEq]
            intro h
            rw [← h] at hfin
            exact absurd rfl hfin
          · simp only [hst, if_false, Bool.false_eq_true, if_true, Except.ok.injEq]
            intro h
            obtain ⟨r0, h0, h1, h2⟩ := fwdPass_append Ls X ts Y _ _ a0 r hlen hf (by simpa using hst)
            rw [h0]
            simp only [h1, Bool.false_eq_true, if_false]
            refine ⟨_, rfl, ?_, ?_⟩
            · rw [← h, h2, List.map_take]
            · intro a; rw [← h]; dsimp only; rw [h2, List.map_take]

/-- the hypotheses can be met, also by a nonlinear model -/
example : ∃ S1, fit (Ex.env Ex.gs2 1) (Ex.grid Ex.gs2) Ex.regime ([Ex.v2 1 2] ++ [Ex.v2 3 1]) ([0] ++ [1]) true false (Ex.S0 .none) = .ok S1 ∧
    S1.logEv ≠ LogV.ninf :=
  Ex.ok_of_ev (by decide +kernel)

end Props
