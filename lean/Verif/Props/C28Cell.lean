import Verif.Props.C27
import Verif.Props.C29

/-! # C28: grid constants of hyper-parameters -/

set_option linter.unusedSectionVars false

namespace Props
open BL Spec

variable {K : Type} [Field K] [LinearOrder K] [IsStrictOrderedRing K]

theorem hyperConst_affine (a s : K) (n : ℕ) (hn : 2 ≤ n) : hyperConst ((List.range n).map fun i : ℕ => a + (i : K) * s) = |s| := by
  obtain ⟨m, rfl⟩ : ∃ m, n = m + 2 := ⟨n - 2, by omega⟩
  have h1 : (List.range (m + 2)).map (fun i : ℕ => a + (i : K) * s) =
      (a + ((0 : ℕ) : K) * s) :: (a + ((1 : ℕ) : K) * s) :: (List.range' 2 m).map fun i : ℕ => a + (i : K) * s := by
    rw [List.range_eq_range', List.range'_succ, List.range'_succ]; rfl
  have h2 : (diff (diff ((List.range (m + 2)).map fun i : ℕ => a + (i : K) * s))).all (fun e => decide (|e| < 1 / 10 ^ 10)) = true := by
    rw [List.range_eq_range', diff_affine, diff_replicate, List.all_eq_true]
    intro x hx
    rw [(List.mem_replicate.1 hx).2, abs_zero, decide_eq_true_eq]
    positivity
  rw [h1] at h2 ⊢
  rw [hyperConst, if_pos h2]
  congr 1
  push_cast
  ring

theorem diff_get (l : List K) : ∀ i x y, l[i]? = some x → l[i + 1]? = some y → (diff l)[i]? = some (y - x) := by
  induction l with
  | nil => intro i x y h; simp at h
  | cons a l ih =>
      intro i x y hx hy
      cases l with
      | nil => simp at hy
      | cons b l =>
          rw [diff]
          cases i with
          | zero =>
              simp only [List.getElem?_cons_zero, Option.some.injEq, zero_add, List.getElem?_cons_succ] at hx hy ⊢
              rw [hx, hy]
          | succ i =>
              rw [List.getElem?_cons_succ] at hx hy ⊢
              exact ih i x y hx hy

/-- **C28 (cells).** Every model and every hyper-parameter: the size of a grid cell, with which densities are converted into probabilities, is
the (positive) spacing for at least two equally spaced values, in whatever order, and one for a single value or if the spacing changes. -/
theorem C28_cell (tm : TM K) (ts : List K) (g : HyperGrid K) (hp : Proper tm) (hg : createHyperGrid tm ts = .ok g) (a : ℕ) (l : List K)
    (hl : (axes tm ts)[a]? = some l) :
    ∃ c, g.hgc[a]? = some c ∧ 0 ≤ c ∧
      (∀ (v s : K) (n : ℕ), 2 ≤ n → l = (List.range n).map (fun i : ℕ => v + (i : K) * s) → c = |s|) ∧
      (l.length ≤ 1 → c = 1) ∧
      (∀ i x y z, l[i]? = some x → l[i + 1]? = some y → l[i + 2]? = some z → 1 / 10 ^ 10 ≤ |(z - y) - (y - x)| → c = 1) := by
  obtain ⟨-, -, h3, -⟩ := createHyperGrid_eq hp hg
  refine ⟨hyperConst l, by rw [h3, List.getElem?_map, hl]; rfl, hyperConst_nonneg l, ?_, ?_, ?_⟩
  · rintro v s n hn rfl
    exact hyperConst_affine v s n hn
  · intro h
    match l, h with
    | [], _ => rfl
    | [_], _ => rfl
  · intro i x y z hx hy hz hb
    have hd := diff_get (diff l) i _ _ (diff_get l i x y hx hy) (diff_get l (i + 1) y z hy hz)
    match l, hd with
    | [], _ => rfl
    | [_], _ => rfl
    | p :: q :: l, hd =>
        rw [hyperConst, if_neg]
        intro h
        rw [List.all_eq_true] at h
        have := of_decide_eq_true (h _ (List.mem_of_getElem? hd))
        exact absurd this (not_lt.2 hb)

/-- a decreasing grid with spacing 1/2, an uneven grid and a single value -/
example : ∃ g : HyperGrid ℚ, createHyperGrid (.combined [.leaf (.grw "x") ["s"] [.array [1, 1 / 2, 0]] (some (.item .none)),
    .leaf (.grw "x") ["u"] [.array [1, 2, 4]] (some (.item .none)), .leaf (.grw "x") ["v"] [.scalar 3] (some (.item .none))]) [] = .ok g ∧
    g.hgc = [1 / 2, 1, 1] := ⟨_, rfl, by decide +kernel⟩

end Props
