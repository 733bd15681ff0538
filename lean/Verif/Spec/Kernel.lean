import Verif.Model.Transition

/-!
# Specification: transition probabilities of the linear transition models

`kernel E ρ tm t x y` is the probability that the parameter moves from grid point `x` to grid
point `y` between time `t` and the next time step, for models assembled from Static,
GaussianRandomWalk, ChangePoint, Independent, Combined and Serial.  `ρ` is the distribution from which
the parameter is drawn afresh at a reset.
-/

namespace Spec
open BL

variable {K : Type} [Field K] [LinearOrder K] {d : ℕ} {gs : Fin d → ℕ}

/-- Random walk on `0..n-1` that takes step `k` with probability `w k` (`|k| ≤ r`) and is mirrored at both
borders: position `m` stands for `j` if `m ≡ j` or `m ≡ -1-j` modulo `2n`. -/
def walk (n r : ℕ) (w : ℤ → K) (i j : Fin n) : K :=
  ∑ k ∈ Finset.Icc (-(r : ℤ)) r, w k *
    if ((2 * n : ℕ) : ℤ) ∣ (i : ℤ) + k - (j : ℤ) ∨ ((2 * n : ℕ) : ℤ) ∣ (i : ℤ) + k + 1 + (j : ℤ) then 1 else 0

/-- the walk acts on axis `a` only -/
def walkAxis (a : Fin d) (r : ℕ) (w : ℤ → K) (x y : Idx gs) : K :=
  if ∀ b, b ≠ a → x b = y b then walk (gs a) r w (x a) (y a) else 0

/-- no change -/
def stay (x y : Idx gs) : K := if x = y then 1 else 0

/-- one transition after the other -/
def comp (A B : Idx gs → Idx gs → K) (x z : Idx gs) : K := ∑ y, A x y * B y z

/-- fresh draw from `ρ` -/
def fresh (ρ : Idx gs → K) (_x y : Idx gs) : K := ρ y

/-- first scalar hyper-parameter -/
def val0 : List (HVal K) → K
  | .scalar v :: _ => v
  | _ => 0

/-- scalar hyper-parameters -/
def vals : List (HVal K) → List K
  | [] => []
  | .scalar v :: l => v :: vals l
  | _ :: l => 0 :: vals l

/-- number of break times `≤ t` -/
def breaksUpTo (vs : List K) (t : K) : ℕ := (vs.filter (· ≤ t)).length

/-- is `t` one of the change-points (break times whose mask entry is set)? -/
def IsChange (vs : List K) (mask : List Bool) (t : K) : Prop := (t, true) ∈ vs.zip mask

instance (vs : List K) (mask : List Bool) (t : K) : Decidable (IsChange vs mask t) := by
  unfold IsChange; infer_instance

mutual
/-- transition probabilities of a model at time `t` -/
def kernel (E : Env K gs) (ρ : Idx gs → K) : TM K → K → Idx gs → Idx gs → K
  | .leaf .static _ _ _, _ => stay
  | .leaf (.grw target) _ vs _, _ =>
      match E.axis target with
      | .ok a =>
          let s := val0 vs / E.lattice a
          if 0 < s then walkAxis a (E.ext.gaussR s) (E.ext.gaussW s) else stay
      | .error _ => stay
  | .leaf .changePoint _ vs _, t => if t = val0 vs then fresh ρ else stay
  | .leaf .independent _ _ _, _ => fresh ρ
  | .leaf _ _ _ _, _ => fun _ _ => 0
  | .combined ms, t => kernelAll E ρ ms t
  | .serial _ vs _ mask ms, t =>
      comp (kernelNth E ρ ms (breaksUpTo (vals vs) t) t)
        (if IsChange (vals vs) mask t then fresh ρ else stay)
/-- sub-models act one after the other -/
def kernelAll (E : Env K gs) (ρ : Idx gs → K) : List (TM K) → K → Idx gs → Idx gs → K
  | [], _ => stay
  | m :: ms, t => comp (kernel E ρ m t) (kernelAll E ρ ms t)
/-- only the `i`-th sub-model acts -/
def kernelNth (E : Env K gs) (ρ : Idx gs → K) : List (TM K) → ℕ → K → Idx gs → Idx gs → K
  | [], _, _ => fun _ _ => 0
  | m :: _, 0, t => kernel E ρ m t
  | _ :: ms, i + 1, t => kernelNth E ρ ms i t
end

/-- The weights of the Gaussian filter are a symmetric probability distribution. -/
structure GaussOK (X : Ext K gs) : Prop where
  even : ∀ s k, X.gaussW s (-k) = X.gaussW s k
  nonneg : ∀ s k, 0 ≤ X.gaussW s k
  sum_one : ∀ s, 0 < s → ∑ k ∈ Finset.Icc (-(X.gaussR s : ℤ)) (X.gaussR s), X.gaussW s k = 1

end Spec
