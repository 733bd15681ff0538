import Verif.Model.Plot

/-!
# What a reader sees in a plot

Meaning of the drawing commands, as documented by matplotlib; nothing here refers to the code of bayesloop.
-/

set_option linter.unusedSectionVars false

namespace Spec
open BL
variable {K : Type} [Field K] [LinearOrder K]

/-- `x` lies in part `i` if the interval from `lo` to `hi` is divided into `n` equal parts (common end points belong to the part further from `lo`) -/
def InPart (lo hi : K) (n i : ℕ) (x : K) : Prop :=
  i < n ∧ (i : K) / n ≤ (x - lo) / (hi - lo) ∧ ((x - lo) / (hi - lo) < ((i + 1 : ℕ) : K) / n ∨ (i + 1 = n ∧ x = hi))

/-- An image, stretched over its extent, has the value `b` at the point `(x, y)`: all columns have the same width and all pixels of a column the same height. -/
def ShowsAt : Draw K → K → K → K → Prop
  | .image cols x0 x1 y0 y1, x, y, b =>
      ∃ i j c, InPart x0 x1 cols.length i x ∧ cols[i]? = some (some c) ∧ InPart y0 y1 c.length j y ∧ c[j]? = some b
  | _, _, _, _ => False

/-- Values with constant non-zero distance. -/
def EquallySpaced (l : List K) : Prop := ∃ a s : K, s ≠ 0 ∧ ∀ (k : ℕ) (x : K), l[k]? = some x → x = a + k * s

/-- The reader finds the value `v` at the position `x` of the given axis: the position carries the label `v`, or there are no labels and the position is `v` itself. -/
def Position (ds : List (Draw K)) (axis : PlotAxis) (x v : K) : Prop :=
  (∃ pos labels, Draw.ticks axis pos labels ∈ ds ∧ ∃ k : ℕ, pos[k]? = some x ∧ labels[k]? = some v) ∨
  ((∀ pos labels, Draw.ticks axis pos labels ∉ ds) ∧ x = v)

/-- There is a bar of height `h` above the value `v`. -/
def BarAbove (ds : List (Draw K)) (v h : K) : Prop :=
  ∃ xs hs w, Draw.bars xs (some hs) w ∈ ds ∧ ∃ (k : ℕ) (x : K), xs[k]? = some x ∧ hs[k]? = some h ∧ Position ds .x x v

/-- There is a three-dimensional bar of height `h` standing on the ground, with a base centred above the values `u` and `v`. -/
def BarOver (ds : List (Draw K)) (u v h : K) : Prop :=
  ∃ xs ys zs dx dy dz, Draw.bars3 xs ys zs dx dy dz ∈ ds ∧ ∃ (k : ℕ) (x y : K), xs[k]? = some x ∧ ys[k]? = some y ∧ zs[k]? = some 0 ∧ dz[k]? = some h ∧
    Position ds .x (x + dx / 2) u ∧ Position ds .y (y + dy / 2) v

/-- Bars next to each other share at most an edge. -/
def BarsApart (xs : List K) (w : K) : Prop := ∀ (i j : ℕ) (x y : K), i ≠ j → xs[i]? = some x → xs[j]? = some y → w ≤ |x - y|

/-- The value shown for the number `p`, if the largest number in the image is `pmax`: numbers smaller than `pmax` by more than 20 orders of magnitude are shown as zero. -/
def faded (pmax p : K) : K := if p * 10 ^ 20 < pmax then 0 else p

end Spec
