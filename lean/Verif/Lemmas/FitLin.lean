import Verif.Model.Fit
import Verif.Lemmas.Linear
import Verif.Lemmas.Paths
import Verif.Spec.Prior
import Mathlib.Algebra.BigOperators.Field

/-! # Forward and backward pass for transitions that act by stochastic kernels -/

set_option linter.unusedSectionVars false

namespace BL
open Spec

variable {K : Type} [Field K] [LinearOrder K] [IsStrictOrderedRing K] {d : ℕ} {gs : Fin d → ℕ}

/-- sum over paths, by recursion on the data -/
def pathEv (Ker : K → Idx gs → Idx gs → K) : (Idx gs → K) → List (Idx gs → K) → List K → K
  | π, [], _ => ∑ x, π x
  | _, _ :: _, [] => 0
  | π, L :: Ls, t :: ts => pathEv Ker (advance (Ker t) L π) Ls ts

/-- the iterations of the forward loop -/
def fwdSteps (m : K → K) (Ker : K → Idx gs → Idx gs → K) :
    K → (Idx gs → K) → List (Idx gs → K) → List K → List (Step K gs)
  | _, _, [], _ => []
  | _, _, _ :: _, [] => []
  | c, π, L :: Ls, t :: ts =>
      ⟨fun x => π x * L x / ∑ y, π y * L y, c * ∑ y, π y * L y, L, t⟩ ::
        fwdSteps m Ker (m t / ∑ y, π y * L y) (advance (Ker t) L π) Ls ts

/-- stochastic kernel -/
structure Stoch (Ker : K → Idx gs → Idx gs → K) : Prop where
  nonneg : ∀ t x y, 0 ≤ Ker t x y
  sum : ∀ t x, ∑ y, Ker t x y = 1

variable {Ker : K → Idx gs → Idx gs → K} {m : K → K}

theorem advance_nonneg (hK : Stoch Ker) {π L : Idx gs → K} (hπ : ∀ x, 0 ≤ π x) (hL : ∀ x, 0 ≤ L x) (t : K) (y : Idx gs) :
    0 ≤ advance (Ker t) L π y :=
  Finset.sum_nonneg fun x _ => mul_nonneg (mul_nonneg (hπ x) (hL x)) (hK.nonneg t x y)

theorem advance_sum (hK : Stoch Ker) (π L : Idx gs → K) (t : K) :
    ∑ y, advance (Ker t) L π y = ∑ x, π x * L x := by
  unfold advance
  rw [Finset.sum_comm]
  simp only [← Finset.mul_sum, hK.sum, mul_one]

theorem pathEv_nonneg (hK : Stoch Ker) : ∀ (Ls : List (Idx gs → K)) (ts : List K) (π : Idx gs → K),
    (∀ x, 0 ≤ π x) → (∀ L ∈ Ls, ∀ x, 0 ≤ L x) → 0 ≤ pathEv Ker π Ls ts
  | [], _, π, hπ, _ => Finset.sum_nonneg fun x _ => hπ x
  | _ :: _, [], π, _, _ => le_refl _
  | L :: Ls, t :: ts, π, hπ, hL =>
      pathEv_nonneg hK Ls ts _ (advance_nonneg hK hπ (hL L (by simp)) t) fun L' h => hL L' (by simp [h])

theorem advance_zero {π L : Idx gs → K} (h : ∀ x, π x * L x = 0) (t : K) : advance (Ker t) L π = fun _ => 0 := by
  funext y; unfold advance; simp [h]

theorem pathEv_zero : ∀ (Ls : List (Idx gs → K)) (ts : List K), pathEv Ker (fun _ => 0) Ls ts = 0
  | [], _ => by simp [pathEv]
  | _ :: _, [] => rfl
  | L :: Ls, t :: ts => by rw [pathEv, advance_zero (by simp), pathEv_zero Ls ts]

theorem pathEv_pos_head {π L : Idx gs → K} {Ls : List (Idx gs → K)} {t : K} {ts : List K}
    (hπ : ∀ x, 0 ≤ π x) (hL : ∀ x, 0 ≤ L x) (h : 0 < pathEv Ker π (L :: Ls) (t :: ts)) :
    0 < ∑ x, π x * L x := by
  have h0 : ∀ x, 0 ≤ π x * L x := fun x => mul_nonneg (hπ x) (hL x)
  rcases (Finset.sum_nonneg fun x _ => h0 x : 0 ≤ ∑ x, π x * L x).lt_or_eq with h1 | h1
  · exact h1
  · have h2 := (Finset.sum_eq_zero_iff_of_nonneg fun x _ => h0 x).1 h1.symm
    rw [pathEv, advance_zero (fun x => h2 x (Finset.mem_univ x)), pathEv_zero] at h
    exact absurd h (lt_irrefl _)

/-- The forward loop, when the transition model acts by `m • Ker`.
`P`: the priors that `observationModel.prior` can have in the course of the pass. -/
theorem fwdPass_pos {E : Env K gs} {tm : TM K} (hK : Stoch Ker) (P : PriorSpec K gs → Prop)
    (hm : ∀ t, 0 < m t)
    (hF : ∀ pr, P pr → ∀ (α : Idx gs → K) t, (∀ x, 0 ≤ α x) → ∑ x, α x = 1 →
      tm.fwd { E with prior := pr } 0 (some α) t = .ok (some fun y => m t * push (Ker t) α y)) :
    ∀ (Ls : List (Idx gs → K)) (ts : List K) (al : Bool) (pr : PriorSpec K gs) (c : K) (π : Idx gs → K),
    P pr → (al = true → ∀ pr, P pr) →
    ts.length = Ls.length → 0 < c → (∀ x, 0 ≤ π x) → (∀ L ∈ Ls, ∀ x, 0 ≤ L x) →
    0 < pathEv Ker π Ls ts →
    ∃ pr', fwdPass E tm al pr (some fun x => c * π x) Ls ts = .ok ⟨fwdSteps m Ker c π Ls ts, false, pr'⟩ ∧
      (al = false → pr' = pr)
  | [], _, al, pr, c, π, hP, hal, _, hc, hπ, _, h => by
      exact ⟨pr, by rw [fwdPass, fwdSteps], fun _ => rfl⟩
  | L :: Ls, [], al, pr, c, π, hP, hal, hlen, _, _, _, _ => by simp at hlen
  | L :: Ls, t :: ts, al, pr, c, π, hP, hal, hlen, hc, hπ, hL, h => by
      have hpos := pathEv_pos_head hπ (hL L (by simp)) h
      have hn : ∑ x, c * π x * L x = c * ∑ x, π x * L x := by
        rw [Finset.mul_sum]; simp only [mul_assoc]
      have hα : (fun x => c * π x * L x / (c * ∑ y, π y * L y)) = fun x => π x * L x / ∑ y, π y * L y := by
        funext x; rw [mul_assoc, mul_div_mul_left _ _ hc.ne']
      have hα0 : ∀ x, 0 ≤ π x * L x / ∑ y, π y * L y := fun x =>
        div_nonneg (mul_nonneg (hπ x) (hL L (by simp) x)) hpos.le
      have hα1 : ∑ x, π x * L x / ∑ y, π y * L y = 1 := by
        rw [← Finset.sum_div, div_self hpos.ne']
      have hnext : (fun y => m t * push (Ker t) (fun x => π x * L x / ∑ y, π y * L y) y) =
          fun y => m t / (∑ y, π y * L y) * advance (Ker t) L π y := by
        funext y
        unfold push advance
        rw [Finset.mul_sum, Finset.mul_sum]
        refine Finset.sum_congr rfl fun x _ => ?_
        ring
      have hP' : P (if al = true then PriorSpec.array (some fun x => π x * L x / ∑ y, π y * L y) else pr) := by
        split
        · rename_i h; exact hal h _
        · exact hP
      obtain ⟨pr', h1, h2⟩ := fwdPass_pos hK P hm hF Ls ts (al && tm.returnsArg t)
        (if al = true then PriorSpec.array (some fun x => π x * L x / ∑ y, π y * L y) else pr)
        (m t / ∑ y, π y * L y) (advance (Ker t) L π) hP'
        (fun ha => hal (by simpa using (Bool.and_eq_true_iff.1 ha).1))
        (by simpa using hlen) (div_pos (hm t) hpos) (advance_nonneg hK hπ (hL L (by simp)) t)
        (fun L' h' => hL L' (by simp [h'])) h
      refine ⟨pr', ?_, ?_⟩
      · rw [fwdPass]
        simp only [hn, mul_pos hc hpos, if_true, hα, hF _ hP' _ t hα0 hα1, hnext, bind, Except.bind, h1, fwdSteps]
      · intro ha
        rw [h2 (by simp [ha])]
        simp [ha]

theorem fwdPass_zero {E : Env K gs} {tm : TM K} (hK : Stoch Ker) (P : PriorSpec K gs → Prop)
    (hm : ∀ t, 0 < m t)
    (hF : ∀ pr, P pr → ∀ (α : Idx gs → K) t, (∀ x, 0 ≤ α x) → ∑ x, α x = 1 →
      tm.fwd { E with prior := pr } 0 (some α) t = .ok (some fun y => m t * push (Ker t) α y)) :
    ∀ (Ls : List (Idx gs → K)) (ts : List K) (al : Bool) (pr : PriorSpec K gs) (c : K) (π : Idx gs → K),
    P pr → (al = true → ∀ pr, P pr) →
    ts.length = Ls.length → Ls ≠ [] → 0 < c → (∀ x, 0 ≤ π x) → (∀ L ∈ Ls, ∀ x, 0 ≤ L x) →
    pathEv Ker π Ls ts = 0 →
    ∃ pr' steps, fwdPass E tm al pr (some fun x => c * π x) Ls ts = .ok ⟨steps, true, pr'⟩ ∧
      (al = false → pr' = pr) ∧ steps.length < Ls.length
  | [], _, al, pr, c, π, hP, hal, _, hne, hc, hπ, _, h => by simp at hne
  | L :: Ls, [], al, pr, c, π, hP, hal, hlen, _, _, _, _, _ => by simp at hlen
  | L :: Ls, t :: ts, al, pr, c, π, hP, hal, hlen, _, hc, hπ, hL, h => by
      have hn : ∑ x, c * π x * L x = c * ∑ x, π x * L x := by
        rw [Finset.mul_sum]; simp only [mul_assoc]
      by_cases hpos : 0 < ∑ x, π x * L x
      swap
      · refine ⟨_, [], by rw [fwdPass]; simp only [hn, mul_pos_iff_of_pos_left hc, hpos, if_false]; rfl, ?_, by simp⟩
        intro ha; simp [ha]
      have hne : Ls ≠ [] := by
        rintro rfl
        rw [pathEv, pathEv, advance_sum hK] at h
        exact hpos.ne' h
      have hα : (fun x => c * π x * L x / (c * ∑ y, π y * L y)) = fun x => π x * L x / ∑ y, π y * L y := by
        funext x; rw [mul_assoc, mul_div_mul_left _ _ hc.ne']
      have hα0 : ∀ x, 0 ≤ π x * L x / ∑ y, π y * L y := fun x =>
        div_nonneg (mul_nonneg (hπ x) (hL L (by simp) x)) hpos.le
      have hα1 : ∑ x, π x * L x / ∑ y, π y * L y = 1 := by
        rw [← Finset.sum_div, div_self hpos.ne']
      have hnext : (fun y => m t * push (Ker t) (fun x => π x * L x / ∑ y, π y * L y) y) =
          fun y => m t / (∑ y, π y * L y) * advance (Ker t) L π y := by
        funext y
        unfold push advance
        rw [Finset.mul_sum, Finset.mul_sum]
        refine Finset.sum_congr rfl fun x _ => ?_
        ring
      have hP' : P (if al = true then PriorSpec.array (some fun x => π x * L x / ∑ y, π y * L y) else pr) := by
        split
        · rename_i h; exact hal h _
        · exact hP
      obtain ⟨pr', st, h1, h2, h3⟩ := fwdPass_zero hK P hm hF Ls ts (al && tm.returnsArg t)
        (if al = true then PriorSpec.array (some fun x => π x * L x / ∑ y, π y * L y) else pr)
        (m t / ∑ y, π y * L y) (advance (Ker t) L π) hP'
        (fun ha => hal (by simpa using (Bool.and_eq_true_iff.1 ha).1))
        (by simpa using hlen) hne (div_pos (hm t) hpos) (advance_nonneg hK hπ (hL L (by simp)) t)
        (fun L' h' => hL L' (by simp [h'])) h
      refine ⟨pr', ⟨fun x => π x * L x / ∑ y, π y * L y, c * ∑ y, π y * L y, L, t⟩ :: st, ?_, ?_, by simpa using h3⟩
      · rw [fwdPass]
        simp only [hn, mul_pos hc hpos, if_true, hα, hF _ hP' _ t hα0 hα1, hnext, bind, Except.bind, h1]
      · intro ha
        rw [h2 (by simp [ha])]
        simp [ha]

/-- product of the norms -/
def normProd (l : List (Step K gs)) : K := (l.map Step.norm).prod

theorem sumLog_exp (E : Env K gs) (l : List (Step K gs)) : (sumLog E l).exp = normProd l * E.cell := by
  have h : ∀ (l : List (Step K gs)) (a : LogV K),
      (l.foldl (fun l s => l + LogV.log s.norm) a).exp = a.exp * normProd l := by
    intro l
    induction l with
    | nil => intro a; simp [normProd]
    | cons s l ih => intro a; rw [List.foldl_cons, ih]; simp [normProd, mul_assoc]
  rw [sumLog, LogV.exp_add, h]; simp

theorem normProd_fwdSteps (hK : Stoch Ker) : ∀ (Ls : List (Idx gs → K)) (ts : List K) (c : K) (π : Idx gs → K),
    ts.length = Ls.length → Ls ≠ [] → (∀ x, 0 ≤ π x) → (∀ L ∈ Ls, ∀ x, 0 ≤ L x) →
    0 < pathEv Ker π Ls ts →
    normProd (fwdSteps m Ker c π Ls ts) = c * pathEv Ker π Ls ts * (ts.dropLast.map m).prod
  | [], _, c, π, _, hne, _, _, _ => by simp at hne
  | L :: Ls, [], c, π, hlen, _, _, _, _ => by simp at hlen
  | [L], [t], c, π, _, _, _, _, _ => by
      simp [fwdSteps, normProd, pathEv, advance_sum hK]
  | [L], t :: t' :: ts, c, π, hlen, _, _, _, _ => by simp at hlen
  | L :: L' :: Ls, [t], c, π, hlen, _, _, _, _ => by simp at hlen
  | L :: L' :: Ls, t :: t' :: ts, c, π, hlen, _, hπ, hL, h => by
      have hpos := pathEv_pos_head hπ (hL L (by simp)) h
      have ih := normProd_fwdSteps hK (L' :: Ls) (t' :: ts) (m t / ∑ y, π y * L y) (advance (Ker t) L π)
        (by simpa using hlen) (by simp) (advance_nonneg hK hπ (hL L (by simp)) t)
        (fun L' h' => hL L' (List.mem_cons_of_mem _ h')) h
      rw [fwdSteps]
      rw [show ∀ (s : Step K gs) l, normProd (s :: l) = s.norm * normProd l from fun s l => by simp [normProd]]
      rw [ih, pathEv.eq_3 Ker π L (L' :: Ls) t (t' :: ts)]
      simp only [List.dropLast_cons₂, List.map_cons, List.prod_cons]
      field_simp

/-! ### backward pass -/

/-- likelihood of the remaining data, including the transition (at the time before) into the first of them -/
def bmsg (Ker : K → Idx gs → Idx gs → K) : List (Idx gs → K) → List K → Idx gs → K
  | [], _ => fun _ => 1
  | _ :: _, [] => fun _ => 1
  | L :: Ls, t :: ts => fun x => ∑ y, Ker (t - 1) x y * (L y * bmsg Ker Ls ts y)

/-- the smoothing distributions -/
def smooth (Ker : K → Idx gs → Idx gs → K) : (Idx gs → K) → List (Idx gs → K) → List K → List (Idx gs → K)
  | _, [], _ => []
  | _, _ :: _, [] => []
  | π, L :: Ls, t :: ts =>
      (fun x => π x * L x * bmsg Ker Ls ts x / pathEv Ker π (L :: Ls) (t :: ts)) ::
        smooth Ker (advance (Ker t) L π) Ls ts

/-- backward transition (at the later timestamp minus one) = forward transition -/
def Matched (Ker : K → Idx gs → Idx gs → K) : List K → Prop
  | t :: t' :: ts => Ker (t' - 1) = Ker t ∧ Matched Ker (t' :: ts)
  | _ => True

theorem Matched.tail {t : K} {ts : List K} (h : Matched Ker (t :: ts)) : Matched Ker ts := by
  cases ts with
  | nil => trivial
  | cons a l => exact h.2

theorem bmsg_nonneg (hK : Stoch Ker) : ∀ (Ls : List (Idx gs → K)) (ts : List K),
    (∀ L ∈ Ls, ∀ x, 0 ≤ L x) → ∀ x, 0 ≤ bmsg Ker Ls ts x
  | [], _, _, x => zero_le_one
  | _ :: _, [], _, x => zero_le_one
  | L :: Ls, t :: ts, hL, x => Finset.sum_nonneg fun y _ => mul_nonneg (hK.nonneg _ _ _)
      (mul_nonneg (hL L (by simp) y) (bmsg_nonneg hK Ls ts (fun L' h => hL L' (by simp [h])) y))

theorem pathEv_eq_bmsg (hK : Stoch Ker) : ∀ (Ls : List (Idx gs → K)) (ts : List K) (L : Idx gs → K) (t : K)
    (π : Idx gs → K), ts.length = Ls.length → Matched Ker (t :: ts) →
    pathEv Ker π (L :: Ls) (t :: ts) = ∑ x, π x * L x * bmsg Ker Ls ts x
  | [], [], L, t, π, _, _ => by
      rw [pathEv, pathEv, advance_sum hK]; simp [bmsg]
  | [], _ :: _, L, t, π, h, _ => by simp at h
  | _ :: _, [], L, t, π, h, _ => by simp at h
  | L' :: Ls, t' :: ts, L, t, π, hlen, hU => by
      rw [pathEv, pathEv_eq_bmsg hK Ls ts L' t' _ (by simpa using hlen) hU.tail]
      have ht := hU.1
      simp only [bmsg, ht, advance, Finset.sum_mul, Finset.mul_sum]
      rw [Finset.sum_comm]
      refine Finset.sum_congr rfl fun x _ => Finset.sum_congr rfl fun y _ => ?_
      ring

theorem pathEv_cons {π L : Idx gs → K} {Ls : List (Idx gs → K)} {t : K} {ts : List K} :
    pathEv Ker π (L :: Ls) (t :: ts) = pathEv Ker (advance (Ker t) L π) Ls ts := rfl

theorem normalize_pos {v : Idx gs → K} (h : 0 < ∑ x, v x) : normalize v = some fun x => v x / ∑ y, v y := by
  rw [normalize, if_neg h.ne']

theorem bwdPass_pos [Nonempty (Idx gs)] {E : Env K gs} {tm : TM K} (hK : Stoch Ker) (hS : ∀ t x y, Ker t x y = Ker t y x)
    (hB : ∀ (b : Idx gs → K) t, (∀ x, 0 ≤ b x) → 0 < ∑ x, b x →
      ∃ k, 0 < k ∧ tm.bwd E 0 (some b) t = .ok (some fun y => k * push (Ker (t - 1)) b y)) :
    ∀ (Ls : List (Idx gs → K)) (ts : List K) (c : K) (π : Idx gs → K),
    ts.length = Ls.length → Matched Ker ts → (∀ x, 0 ≤ π x) → (∀ L ∈ Ls, ∀ x, 0 ≤ L x) →
    0 < pathEv Ker π Ls ts →
    ∃ k loc, 0 < k ∧ bwdPass E tm (fwdSteps m Ker c π Ls ts) =
      .ok ⟨(smooth Ker π Ls ts).map .val, loc, some (fun x => k * bmsg Ker Ls ts x), false⟩ ∧
      loc = List.zipWith (fun p L => localEv E p L) (smooth Ker π Ls ts) Ls
  | [], _, c, π, _, _, _, _, _ => by
      have hc : 0 < ∑ _x : Idx gs, (1 : K) := by
        rw [Finset.sum_const, nsmul_eq_mul, mul_one]
        exact_mod_cast Fintype.card_pos
      refine ⟨1 / ∑ _x : Idx gs, (1 : K), _, div_pos one_pos hc, ?_, rfl⟩
      rw [fwdSteps, bwdPass, smooth, normalize_pos hc]
      simp [bmsg]
  | L :: Ls, [], c, π, hlen, _, _, _, _ => by simp at hlen
  | L :: Ls, t :: ts, c, π, hlen, hU, hπ, hL, h => by
      have hlen' : ts.length = Ls.length := by simpa using hlen
      have hpos := pathEv_pos_head hπ (hL L (by simp)) h
      have hE := pathEv_eq_bmsg hK Ls ts L t π hlen' hU
      obtain ⟨k, loc, hk, h1, hloc⟩ := bwdPass_pos hK hS hB Ls ts (m t / ∑ y, π y * L y) (advance (Ker t) L π)
        hlen' hU.tail (advance_nonneg hK hπ (hL L (by simp)) t) (fun L' h' => hL L' (by simp [h'])) h
      have hb0 : ∀ x, 0 ≤ bmsg Ker Ls ts x := bmsg_nonneg hK Ls ts fun L' h' => hL L' (by simp [h'])
      have hlb0 : ∀ x, 0 ≤ L x * bmsg Ker Ls ts x := fun x => mul_nonneg (hL L (by simp) x) (hb0 x)
      have hlb : 0 < ∑ x, L x * bmsg Ker Ls ts x := by
        rcases (Finset.sum_nonneg fun x _ => hlb0 x : 0 ≤ ∑ x, L x * bmsg Ker Ls ts x).lt_or_eq with h2 | h2
        · exact h2
        · have h3 := (Finset.sum_eq_zero_iff_of_nonneg fun x _ => hlb0 x).1 h2.symm
          rw [hE] at h
          exfalso
          refine h.ne' (Finset.sum_eq_zero fun x _ => ?_)
          rw [mul_assoc, h3 x (Finset.mem_univ x), mul_zero]
      have hkb : ∀ x, 0 ≤ k * bmsg Ker Ls ts x * L x := fun x =>
        mul_nonneg (mul_nonneg hk.le (hb0 x)) (hL L (by simp) x)
      have hkbs : ∑ x, k * bmsg Ker Ls ts x * L x = k * ∑ x, L x * bmsg Ker Ls ts x := by
        rw [Finset.mul_sum]; exact Finset.sum_congr rfl fun x _ => by ring
      obtain ⟨k2, hk2, hb⟩ := hB (fun x => k * bmsg Ker Ls ts x * L x) t hkb (by rw [hkbs]; exact mul_pos hk hlb)
      have hq : ∑ x, π x * L x / (∑ y, π y * L y) * (k * bmsg Ker Ls ts x) =
          k / (∑ y, π y * L y) * pathEv Ker π (L :: Ls) (t :: ts) := by
        rw [hE, Finset.mul_sum]; exact Finset.sum_congr rfl fun x _ => by ring
      have hnp : 0 < k / (∑ y, π y * L y) * pathEv Ker π (L :: Ls) (t :: ts) := mul_pos (div_pos hk hpos) h
      have hpost : (fun x => π x * L x / (∑ y, π y * L y) * (k * bmsg Ker Ls ts x) /
          (k / (∑ y, π y * L y) * pathEv Ker π (L :: Ls) (t :: ts))) =
          fun x => π x * L x * bmsg Ker Ls ts x / pathEv Ker π (L :: Ls) (t :: ts) := by
        funext x
        have := h.ne'
        have := hpos.ne'
        field_simp
      have hnb : (fun y => k2 * push (Ker (t - 1)) (fun x => k * bmsg Ker Ls ts x * L x) y) =
          fun x => k2 * k * bmsg Ker (L :: Ls) (t :: ts) x := by
        funext y
        simp only [push, bmsg, Finset.mul_sum]
        refine Finset.sum_congr rfl fun x _ => ?_
        rw [hS _ x y]
        ring
      have hbs : ∑ x, bmsg Ker (L :: Ls) (t :: ts) x = ∑ x, L x * bmsg Ker Ls ts x := by
        simp only [bmsg]
        rw [Finset.sum_comm]
        refine Finset.sum_congr rfl fun y _ => ?_
        rw [← Finset.sum_mul]
        have : ∑ x, Ker (t - 1) x y = 1 := by
          exact (Finset.sum_congr rfl fun x _ => hS _ _ _).trans (hK.sum (t - 1) y)
        rw [this, one_mul]
      have hbs2 : ∑ x, k2 * k * bmsg Ker (L :: Ls) (t :: ts) x = k2 * k * ∑ x, L x * bmsg Ker Ls ts x := by
        rw [← Finset.mul_sum, hbs]
      refine ⟨1 / ∑ x, L x * bmsg Ker Ls ts x, _, div_pos one_pos hlb, ?_, rfl⟩
      rw [fwdSteps, bwdPass, h1]
      simp only [bind, Except.bind, Bool.false_eq_true, if_false, hq, hnp, if_true, hpost, hb, hnb, Option.bind_some]
      rw [normalize_pos (by rw [hbs2]; exact mul_pos (mul_pos hk2 hk) hlb), hbs2, smooth, List.map_cons, hloc]
      simp only [List.zipWith_cons_cons]
      congr 3
      funext x
      have := hk.ne'
      have := hk2.ne'
      have := hlb.ne'
      field_simp

/-! ### translation to the path sums of the specification -/

theorem pathEv_ofFn (hK : Stoch Ker) : ∀ {n : ℕ} (π : Idx gs → K) (L : Fin (n + 1) → Idx gs → K) (τ : Fin (n + 1) → K),
    pathEv Ker π (List.ofFn L) (List.ofFn τ) = evidence π (fun i : Fin n => Ker (τ i.castSucc)) L
  | 0, π, L, τ => by
      simp [List.ofFn_succ, pathEv, evidence_zero, advance_sum hK]
  | n + 1, π, L, τ => by
      rw [List.ofFn_succ, List.ofFn_succ (f := τ), pathEv, pathEv_ofFn hK, evidence_succ]
      rfl

theorem bmsg_ofFn (hK : Stoch Ker) : ∀ {n : ℕ} (L : Fin (n + 1) → Idx gs → K) (τ : Fin (n + 1) → K) (x : Idx gs),
    Matched Ker (List.ofFn τ) →
    bmsg Ker (List.ofFn fun i : Fin n => L i.succ) (List.ofFn fun i : Fin n => τ i.succ) x =
      future (fun i : Fin n => Ker (τ i.castSucc)) L x
  | 0, L, τ, x, _ => by simp [bmsg, future]
  | n + 1, L, τ, x, hU => by
      rw [List.ofFn_succ] at hU
      rw [future_succ, List.ofFn_succ, List.ofFn_succ (f := fun i : Fin (n + 1) => τ i.succ), bmsg]
      refine Finset.sum_congr rfl fun y _ => ?_
      have ih := bmsg_ofFn hK (fun i => L i.succ) (fun i => τ i.succ) y hU.tail
      rw [List.ofFn_succ] at hU
      have ht := hU.1
      rw [ih, ht, mul_assoc]
      rfl

theorem smooth_ofFn (hK : Stoch Ker) : ∀ {n : ℕ} (π : Idx gs → K) (L : Fin (n + 1) → Idx gs → K) (τ : Fin (n + 1) → K),
    Matched Ker (List.ofFn τ) →
    smooth Ker π (List.ofFn L) (List.ofFn τ) =
      List.ofFn fun i => posterior π (fun i : Fin n => Ker (τ i.castSucc)) L i
  | 0, π, L, τ, _ => by
      have hb : ∀ x, future (fun i : Fin 0 => Ker (τ i.castSucc)) L x = 1 := fun x => rfl
      simp only [List.ofFn_succ, List.ofFn_zero, smooth]
      congr 1
      funext x
      rw [posterior, marginal_zero, hb, evidence_zero]
      simp [bmsg, pathEv, advance_sum hK]
  | n + 1, π, L, τ, hU => by
      have hE := pathEv_ofFn hK π L τ
      have hb := fun x => bmsg_ofFn hK L τ x hU
      rw [List.ofFn_succ] at hU
      rw [List.ofFn_succ (f := L), List.ofFn_succ (f := τ)] at *
      rw [smooth, smooth_ofFn hK _ (fun i => L i.succ) (fun i => τ i.succ) hU.tail]
      conv_rhs => rw [List.ofFn_succ]
      congr 1
      · funext x
        rw [hE, hb, posterior, marginal_zero]
      · congr 1
        funext i
        funext x
        rw [posterior, posterior, marginal_succ, evidence_succ]
        rfl

end BL
