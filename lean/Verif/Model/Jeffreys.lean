import Verif.Model.Likelihood

/-! # Model of `computeJeffreysPriorAR1` (jeffreys.py) -/

namespace BL

variable {gs : Fin 2 → ℕ}

/-- `l[k]` of a Python sequence: negative indices count from the end -/
def pyIndex {α : Type} (l : List α) (k : ℤ) : Except PyErr α :=
  let j := if k < 0 then k + l.length else k
  if j < 0 then .error .indexError
  else match l[j.toNat]? with
    | some x => .ok x
    | none => .error .indexError

/-- The noise amplitude on the grid, jeffreys.py lines 85-93: `study.grid[1]`, for the scaled process multiplied by `np.sqrt(1 - r**2.)`.  Only the two
auto-regressive models are accepted (they are identified by their names; user-defined models with the same name are not modelled). -/
noncomputable def ar1Scale (om : Option OM) (r s : ℝ) : Option ℝ :=
  match om with
  | some .ar1 => some s
  | some .scaledAR1 => some (s * Real.sqrt (1 - r ^ 2))
  | _ => none

/-- Line 106 at one point of the grid, before normalisation -/
noncomputable def ar1Value (r s d0 : ℝ) (n : ℕ) : ℝ :=
  1 / s ^ 2 * Real.exp (-d0 ^ 2 * (1 - r ^ 2) / (2 * s ^ 2)) * Real.sqrt (4 * r ^ 2 / (1 - r ^ 2) + 2 * ((n : ℝ) + 1))

/-- `computeJeffreysPriorAR1(study, t)`, jeffreys.py lines 71-108.  `om`: the observation model of the study (`none` before it is set), `grid`: the two parameter axes,
`raw`: the loaded data, one number per time step (`none` = nan).  An amplitude of zero gives `inf * 0` or `nan` in line 106 and thereby nan everywhere in line 107.
Simplifications: a study without parameter grid (line 86 fails with a `ValueError`) and data with several values per time step are not modelled. -/
noncomputable def ar1Prior (om : Option OM) (grid : (a : Fin 2) → Fin (gs a) → ℝ) (raw : List (Option ℝ)) (t : ℤ) : Except PyErr (Arr ℝ gs) :=
  open Classical in
  if (ar1Scale om 0 0).isNone then .error .configuration                                  -- 91-93
  else if ∃ i : Idx gs, 1 ≤ |grid 0 (i 0)| then .error .configuration                       -- 96-98
  else if raw.length = 0 then .error .configuration                                       -- 100-102
  else match pyIndex raw (t - 1) with                                                     -- 104
    | .error e => .error e
    | .ok none => .ok none
    | .ok (some d0) =>
      let s : Idx gs → ℝ := fun i => (ar1Scale om (grid 0 (i 0)) (grid 1 (i 1))).getD 0
      if ∃ i, s i = 0 then .ok none
      else .ok (BL.normalize fun i => ar1Value (grid 0 (i 0)) (s i) d0 raw.length)         -- 105-108

end BL
