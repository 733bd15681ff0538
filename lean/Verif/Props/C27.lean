import Verif.Model.Config
import Verif.Lemmas.HyperParams
import Verif.Props.Ex
import Mathlib.Algebra.Order.BigOperators.Group.List
import Mathlib.Tactic.Ring
import Mathlib.Tactic.Linarith
import Mathlib.Tactic.FieldSimp
import Mathlib.Tactic.Positivity

/-!
# C27: ambiguous hyper-parameter names are rejected; C51: `cint`/`oint`; C52: segments and timestamps; C53: timestamps after
loading; C54: order of setting models
-/

set_option linter.unusedSectionVars false

namespace Props
open BL Spec
variable {K D : Type} [Field K] [LinearOrder K]

theorem duplicates_eq_nil (names : List String) : duplicates names = [] ↔ names.Nodup := by
  unfold duplicates
  rw [List.filter_eq_nil_iff]
  constructor
  · intro h
    rw [List.nodup_iff_count_le_one]
    intro a
    by_cases ha : a ∈ names
    · have := h a (List.mem_dedup.2 ha)
      simpa using this
    · rw [List.count_eq_zero_of_not_mem ha]; omega
  · intro h a _
    have := List.nodup_iff_count_le_one.1 h a
    simp only [gt_iff_lt, decide_eq_true_eq, not_lt]
    exact this

/-- Study.fit starts with `ConfigurationError` exactly if data, observation model or transition model are missing or two hyper-parameters have
the same name.  Partial: this is `Study.fit` (also the first step of every single fit of the other studies); `HyperStudy.fit` touches the observation
model and the timestamps before the check, see `C27_refuted`. -/
theorem C27_partial (S : Cfg K D) (hp : ∀ tm, S.tm = some tm → Proper tm.1) :
    S.fitStart = .error .configuration ↔
      S.rawData = [] ∨ S.om = none ∨ S.tm = none ∨ ∃ tm lat, S.tm = some (tm, lat) ∧ ¬ ((entries tm).map (·.1)).Nodup := by
  unfold Cfg.fitStart Cfg.check
  by_cases hd : S.rawData = []
  · simp [hd, Bind.bind, Except.bind]
  · have hd' : ¬ S.rawData.length = 0 := by simpa using hd
    rw [if_neg hd']
    cases ho : S.om with
    | none => simp [Bind.bind, Except.bind]
    | some om =>
        cases ht : S.tm with
        | none => simp [Bind.bind, Except.bind]
        | some tm =>
            have hn := entries_names tm.1 (hp tm ht)
            have hdup := duplicates_eq_nil tm.1.flatNames
            rw [hn] at hdup
            simp only [hd, false_or, reduceCtorEq]
            rw [hn]
            by_cases hnd : ((entries tm.1).map (·.1)).Nodup
            · rw [hdup.2 hnd]
              simp only [List.length_nil, gt_iff_lt, Nat.lt_irrefl, ↓reduceIte, Bind.bind, Except.bind]
              constructor
              · intro h
                cases hts : S.rawTimestamps with
                | none => rw [hts] at h; simp at h
                | some ts => rw [hts] at h; simp at h
              · rintro ⟨tm', lat, h1, h2⟩
                simp only [Option.some.injEq] at h1
                subst h1
                exact absurd hnd h2
            · have : (duplicates ((entries tm.1).map (·.1))).length > 0 := by
                rw [gt_iff_lt, List.length_pos_iff]
                exact fun h => hnd (hdup.1 h)
              rw [if_pos this]
              simp only [Bind.bind, Except.bind, true_iff]
              exact ⟨tm.1, tm.2, rfl, hnd⟩

example : ∃ S : Cfg ℚ ℚ, S.fitStart = .ok ([[1], [2]], [0, 1]) :=
  ⟨⟨[1, 2], some [0, 1], some ⟨["x"], [some [0, 1]], fun _ _ => none, 1⟩, some (.leaf (.grw "x") ["s"] [.scalar 1] none, [1]), [[0, 1]], [1], [[0, 1]]⟩,
    by rfl⟩
example : ∃ S : Cfg ℚ ℚ, S.fitStart = .error .configuration ∧ S.rawData ≠ [] ∧ S.om.isSome ∧ S.tm.isSome :=
  ⟨⟨[1, 2], some [0, 1], some ⟨["x"], [some [0, 1]], fun _ _ => none, 1⟩,
    some (.combined [.leaf (.grw "x") ["s"] [.scalar 1] none, .leaf (.grw "y") ["s"] [.scalar 1] none], [1]), [[0, 1]], [1], [[0, 1]]⟩,
    by decide +kernel, by decide, rfl, rfl⟩

/-- `HyperStudy.fit` without observation model fails with `AttributeError`, without data with `TypeError`. -/
theorem C27_refuted : ∃ S S' : Cfg ℚ ℚ, S.om = none ∧ S.hyperFitStart = .error .attributeError ∧
    S'.rawData = [] ∧ S'.hyperFitStart = .error .typeError :=
  ⟨Cfg.init, { Cfg.init with om := some ⟨["x"], [some [0, 1]], fun _ _ => none, 1⟩ }, rfl, rfl, rfl, rfl⟩

/-! ## C51 -/

variable [IsStrictOrderedRing K]

theorem diff_affine (a s : K) : ∀ (n k : ℕ), diff ((List.range' k n).map fun i : ℕ => a + (i : K) * s) = List.replicate (n - 1) s
  | 0, _ => rfl
  | 1, _ => rfl
  | n + 2, k => by
      have h1 : (List.range' k (n + 2)).map (fun i : ℕ => a + (i : K) * s) =
          (a + (k : K) * s) :: (a + ((k + 1 : ℕ) : K) * s) :: (List.range' (k + 2) n).map fun i : ℕ => a + (i : K) * s := by
        rw [List.range'_succ, List.range'_succ]; rfl
      have h2 : (List.range' (k + 1) (n + 1)).map (fun i : ℕ => a + (i : K) * s) =
          (a + ((k + 1 : ℕ) : K) * s) :: (List.range' (k + 2) n).map fun i : ℕ => a + (i : K) * s := by
        rw [List.range'_succ]; rfl
      rw [h1, diff, ← h2, diff_affine a s (n + 1) (k + 1)]
      simp only [Nat.add_sub_cancel]
      rw [show n + 2 - 1 = n + 1 from rfl, List.replicate_succ]
      congr 1
      push_cast; ring

theorem diff_replicate (s : K) : ∀ n, diff (List.replicate n s) = List.replicate (n - 1) 0
  | 0 => rfl
  | 1 => rfl
  | n + 2 => by
      rw [List.replicate_succ, List.replicate_succ, diff, ← List.replicate_succ, diff_replicate s (n + 1), sub_self]
      rfl

theorem irregular_affine (a s : K) (n k : ℕ) : irregular ((List.range' k n).map fun i : ℕ => a + (i : K) * s) = false := by
  unfold irregular
  rw [diff_affine, diff_replicate, List.any_eq_false]
  intro x hx
  rw [(List.mem_replicate.1 hx).2, abs_zero, decide_eq_true_eq, not_lt]
  positivity

theorem linspace_range' (a b : K) (n : ℕ) :
    linspace a b n = (List.range' 0 n).map fun i : ℕ => a + (i : K) * ((b - a) / ((n - 1 : ℕ) : K)) := by
  rw [linspace, List.range_eq_range']

/-- `cint(a, b, n)` for `n ≥ 2`: `n` values, the first is `a`, the last is `b`, equal steps.  (For `n = 1` the result is `[a]`.) -/
theorem C51_cint (a b : K) (n : ℕ) (h : 2 ≤ n) :
    (cint a b n).length = n ∧ (cint a b n)[0]? = some a ∧ (cint a b n)[n - 1]? = some b ∧
      ∀ i, i + 1 < n → ∃ x y, (cint a b n)[i]? = some x ∧ (cint a b n)[i + 1]? = some y ∧ y - x = (b - a) / (n - 1) := by
  have hn : ((n - 1 : ℕ) : K) = (n : K) - 1 := by rw [Nat.cast_sub (by omega)]; simp
  have hpos : (0 : K) < (n : K) - 1 := by
    have : (2 : K) ≤ n := by exact_mod_cast h
    linarith
  have hget : ∀ i, i < n → (cint a b n)[i]? = some (a + (i : K) * ((b - a) / ((n : K) - 1))) := by
    intro i hi
    simp [cint, linspace, List.getElem?_range, hi, hn]
  refine ⟨by simp [cint, linspace], ?_, ?_, ?_⟩
  · rw [hget 0 (by omega)]; simp
  · rw [hget (n - 1) (by omega), hn]
    congr 1
    rw [mul_div_cancel₀ _ (ne_of_gt hpos)]; ring
  · intro i hi
    refine ⟨_, _, hget i (by omega), hget (i + 1) hi, ?_⟩
    push_cast; ring

/-- `oint(a, b, n)`: `n` equally spaced values strictly between `a` and `b`; the distance to both borders is the same step. -/
theorem C51_oint (a b : K) (n : ℕ) (hab : a < b) :
    (oint a b n).length = n ∧ (∀ x ∈ oint a b n, a < x ∧ x < b) ∧
      ∀ i, i < n → (oint a b n)[i]? = some (a + (i + 1) * ((b - a) / (n + 1))) := by
  have hform : oint a b n = (List.range' 1 n).map fun i : ℕ => a + (i : K) * ((b - a) / ((n + 1 : ℕ) : K)) := by
    rw [oint, linspace_range']
    rw [← List.map_drop, ← List.map_dropLast]
    congr 1
    rw [List.range'_succ, List.drop_one, List.tail_cons, List.range'_1_concat, List.dropLast_concat]
  have hstep : (0 : K) < (b - a) / ((n + 1 : ℕ) : K) := div_pos (by linarith) (by positivity)
  rw [hform]
  refine ⟨by simp, ?_, ?_⟩
  · intro x hx
    obtain ⟨i, hi, rfl⟩ := List.mem_map.1 hx
    rw [List.mem_range'_1] at hi
    have h1 : (0 : K) < (i : K) := by exact_mod_cast hi.1
    have h2 : (i : K) + 1 ≤ ((n + 1 : ℕ) : K) := by exact_mod_cast (by omega : i + 1 ≤ n + 1)
    constructor
    · have := mul_pos h1 hstep; linarith
    · have h3 : ((n + 1 : ℕ) : K) * ((b - a) / ((n + 1 : ℕ) : K)) = b - a := mul_div_cancel₀ _ (by positivity)
      have h4 : (i : K) * ((b - a) / ((n + 1 : ℕ) : K)) < ((n + 1 : ℕ) : K) * ((b - a) / ((n + 1 : ℕ) : K)) :=
        mul_lt_mul_of_pos_right (by linarith) hstep
      linarith
  · intro i hi
    rw [List.getElem?_map, List.getElem?_range' hi, Option.map_some]
    congr 1
    push_cast
    ring

/-- A grid made with `cint` or `oint` (at least two points) is accepted as regular, with the step as lattice constant. -/
theorem C51_lattice (a b : K) (n : ℕ) (hab : a < b) (hn : 2 ≤ n) (est : String → List D → Option (List K)) (data : List D) (name : String) :
    gridLoop est data [(some (cint a b n), name)] [] [] = (([cint a b n], [(b - a) / (n - 1)]), none) ∧
      gridLoop est data [(some (oint a b n), name)] [] [] = (([oint a b n], [(b - a) / (n + 1)]), none) := by
  have key : ∀ (k : ℕ) (s : K), 0 < s →
      gridLoop est data [(some ((List.range' k n).map fun i : ℕ => a + (i : K) * s), name)] [] [] =
        (([(List.range' k n).map fun i : ℕ => a + (i : K) * s], [s]), none) := by
    intro k s hs
    obtain ⟨m, rfl⟩ : ∃ m, n = m + 2 := ⟨n - 2, by omega⟩
    have hir := irregular_affine a s (m + 2) k
    have h1 : (List.range' k (m + 2)).map (fun i : ℕ => a + (i : K) * s) =
        (a + (k : K) * s) :: (a + ((k + 1 : ℕ) : K) * s) :: (List.range' (k + 2) m).map fun i : ℕ => a + (i : K) * s := by
      rw [List.range'_succ, List.range'_succ]; rfl
    rw [h1] at hir ⊢
    simp only [gridLoop, List.nil_append, hir, Bool.false_eq_true, ↓reduceIte]
    have : |a + (k : K) * s - (a + ((k + 1 : ℕ) : K) * s)| = s := by
      rw [show a + (k : K) * s - (a + ((k + 1 : ℕ) : K) * s) = -s by push_cast; ring, abs_neg, abs_of_pos hs]
    rw [this]
  constructor
  · have hpos : (0 : K) < (n : K) - 1 := by
      have : (2 : K) ≤ n := by exact_mod_cast hn
      linarith
    have := key 0 ((b - a) / ((n - 1 : ℕ) : K)) (by
      rw [Nat.cast_sub (by omega)]; exact div_pos (by linarith) (by simpa using hpos))
    rw [← linspace_range'] at this
    rw [cint, this, Nat.cast_sub (by omega)]
    simp
  · have hform : oint a b n = (List.range' 1 n).map fun i : ℕ => a + (i : K) * ((b - a) / ((n + 1 : ℕ) : K)) := by
      rw [oint, linspace_range', ← List.map_drop, ← List.map_dropLast]
      congr 1
      rw [List.range'_succ, List.drop_one, List.tail_cons, List.range'_1_concat, List.dropLast_concat]
    have := key 1 ((b - a) / ((n + 1 : ℕ) : K)) (div_pos (by linarith) (by positivity))
    rw [← hform] at this
    rw [this]
    push_cast
    rfl

example : cint (0 : ℚ) 1 3 = [0, 1 / 2, 1] ∧ oint (0 : ℚ) 1 3 = [1 / 4, 1 / 2, 3 / 4] := by decide +kernel
/-- the border case: one value, without the right end; a grid with a single value is rejected with `IndexError` -/
theorem C51_single (a b : K) (est : String → List D → Option (List K)) (data : List D) (name : String) :
    cint a b 1 = [a] ∧ (gridLoop est data [(some (cint a b 1), name)] [] []).2 = some .indexError := by
  have : cint a b 1 = [a] := by simp [cint, linspace]
  rw [this]
  exact ⟨rfl, rfl⟩

/-! ## C52 -/

/-- `N - n + 1` segments (none if `N < n`), as many timestamps; segment `i` consists of the data `i, …, i+n-1` and carries the
timestamp of the last of them. -/
theorem C52_segments (raw : List D) (ts : List K) (n : ℕ) (hn : 1 ≤ n) (hts : ts.length = raw.length) :
    (movingWindow raw n).length = raw.length + 1 - n ∧ (timestampsOf ts n).length = raw.length + 1 - n ∧
      ∀ i, i + n ≤ raw.length → ∃ seg t, (movingWindow raw n)[i]? = some seg ∧ (timestampsOf ts n)[i]? = some t ∧
        seg.length = n ∧ (∀ j, j < n → seg[j]? = raw[i + j]?) ∧ ts[i + n - 1]? = some t := by
  have hlen : (movingWindow raw n).length = raw.length + 1 - n := by
    simp only [movingWindow, List.length_map, List.length_range]
    omega
  refine ⟨hlen, by rw [timestampsOf, List.length_drop]; omega, ?_⟩
  intro i hi
  have hlt : i < (movingWindow raw n).length := by rw [hlen]; omega
  have hget : (movingWindow raw n)[i]? = some ((raw.drop i).take n) := by
    simp only [movingWindow, List.length_map, List.length_range] at hlt
    simp [movingWindow, List.getElem?_range, hlt]
  have htl : i + n - 1 < ts.length := by omega
  refine ⟨_, ts[i + n - 1], hget, ?_, ?_, ?_, ?_⟩
  · rw [timestampsOf, List.getElem?_drop, show n - 1 + i = i + n - 1 by omega, List.getElem?_eq_getElem htl]
  · rw [List.length_take, List.length_drop]; omega
  · intro j hj
    rw [List.getElem?_take, if_pos hj, List.getElem?_drop]
  · rw [List.getElem?_eq_getElem htl]

example : movingWindow [10, 20, 30, 40] 2 = [[10, 20], [20, 30], [30, 40]] ∧ timestampsOf [(5 : ℚ), 6, 7, 8] 2 = [6, 7, 8] := by decide +kernel

/-! ## C53 -/

/-- one `loadData` call -/
abbrev Load (K D : Type) := DataArg D × Option (List K)

/-- a history of `loadData` calls (exceptions ignored by the user) -/
def loads (S : Cfg K D) (h : List (Load K D)) : Cfg K D := h.foldl (fun S l => (S.loadData l.1 l.2).1) S

/-- the data of the call, if it is of a supported type -/
def dataOf : DataArg D → Option (List D)
  | .ndarray l => some l
  | .list l => some l
  | .other => none

/-- After any history of `loadData` calls, at least one of which succeeded, there is one timestamp per data point.
Partial: the number of timestamps passed must match the data in each call (see `C53_refuted`). -/
theorem C53_partial (S : Cfg K D) (h : List (Load K D))
    (hm : ∀ l ∈ h, ∀ ts data, l.2 = some ts → dataOf l.1 = some data → ts.length = data.length) (hd : ∃ l ∈ h, (dataOf l.1).isSome) :
    ∃ ts, (loads S h).rawTimestamps = some ts ∧ ts.length = (loads S h).rawData.length := by
  have step : ∀ (S : Cfg K D) (l : Load K D), (∀ ts data, l.2 = some ts → dataOf l.1 = some data → ts.length = data.length) →
      (dataOf l.1).isSome →
      ∃ ts, (S.loadData l.1 l.2).1.rawTimestamps = some ts ∧ ts.length = (S.loadData l.1 l.2).1.rawData.length := by
    rintro S ⟨arg, ts⟩ hl hs
    cases arg with
    | other => simp [dataOf] at hs
    | ndarray data =>
        cases ts with
        | none => exact ⟨_, rfl, by simp [Cfg.loadData]⟩
        | some ts =>
            have := hl ts data rfl rfl
            exact ⟨ts, by simp [Cfg.loadData, this], by simp [Cfg.loadData, this]⟩
    | list data =>
        cases ts with
        | none => exact ⟨_, rfl, by simp [Cfg.loadData]⟩
        | some ts =>
            have := hl ts data rfl rfl
            exact ⟨ts, by simp [Cfg.loadData, this], by simp [Cfg.loadData, this]⟩
  have keep : ∀ (S : Cfg K D) (l : Load K D), (dataOf l.1).isSome = false → (S.loadData l.1 l.2).1 = S := by
    rintro S ⟨arg, ts⟩ hs
    cases arg with
    | other => rfl
    | ndarray data => simp [dataOf] at hs
    | list data => simp [dataOf] at hs
  have key : ∀ (h : List (Load K D)) (S : Cfg K D),
      (∀ l ∈ h, ∀ ts data, l.2 = some ts → dataOf l.1 = some data → ts.length = data.length) →
      ((∃ ts, S.rawTimestamps = some ts ∧ ts.length = S.rawData.length) ∨ ∃ l ∈ h, (dataOf l.1).isSome) →
      ∃ ts, (loads S h).rawTimestamps = some ts ∧ ts.length = (loads S h).rawData.length := by
    intro h
    induction h with
    | nil =>
        intro S _ ho
        rcases ho with ho | ⟨l, hl, _⟩
        · exact ho
        · simp at hl
    | cons l h ih =>
        intro S hm ho
        refine ih (S.loadData l.1 l.2).1 (fun l' hl' => hm l' (by simp [hl'])) ?_
        cases hs : (dataOf l.1).isSome with
        | true => exact .inl (step S l (hm l (by simp)) hs)
        | false =>
            rw [keep S l hs]
            rcases ho with ho | ⟨l', hl', hs'⟩
            · exact .inl ho
            · rcases List.mem_cons.1 hl' with rfl | hl'
              · rw [hs] at hs'; simp at hs'
              · exact .inr ⟨l', hl', hs'⟩
  exact key h S hm (.inr hd)

/-- Loading data with a wrong number of timestamps keeps the timestamps of the previous data (with a warning), or none at all; then `fit`
fails with `TypeError`. -/
theorem C53_refuted :
    (∃ h : List (Load ℚ ℚ), (loads Cfg.init h).rawData.length = 3 ∧ (loads Cfg.init h).rawTimestamps = some [0, 1]) ∧
    (∃ h : List (Load ℚ ℚ), (loads Cfg.init h).rawData.length = 3 ∧ (loads Cfg.init h).rawTimestamps = none ∧
      ∀ om tm lat mg g, ({ loads Cfg.init h with om := some om, tm := some (.leaf .static [] [] tm, lat), marginalGrid := mg, grid := g } :
        Cfg ℚ ℚ).fitStart = .error .typeError) := by
  refine ⟨⟨[(.ndarray [7, 8], none), (.ndarray [1, 2, 3], some [5, 6])], by decide, by decide +kernel⟩,
    ⟨[(.ndarray [1, 2, 3], some [5, 6])], by decide, by decide +kernel, ?_⟩⟩
  intro om tm lat mg g
  rfl

example : ∃ ts, (loads (Cfg.init : Cfg ℚ ℚ) [(.ndarray [7, 8], none), (.other, none), (.list [1, 2, 3], some [5, 6, 8])]).rawTimestamps = some ts ∧
    ts = [5, 6, 8] := ⟨_, by decide +kernel, rfl⟩

/-! ## C54 -/

/-- a call of one of the two set methods -/
inductive SetCall (K D : Type)
  | om (m : OModel K D)
  | tm (m : TM K)

/-- perform a call -/
def SetCall.run (S : Cfg K D) : SetCall K D → Cfg K D × Option PyErr
  | .om m => S.setOM m
  | .tm m => S.setTM m

/-- a history of successful calls -/
def runs : Cfg K D → List (SetCall K D) → Option (Cfg K D)
  | S, [] => some S
  | S, c :: l => match c.run S with
      | (S', none) => runs S' l
      | (_, some _) => none

/-- the last observation model set -/
def lastOM : List (SetCall K D) → Option (OModel K D)
  | [] => none
  | .om m :: l => (lastOM l).orElse fun _ => some m
  | .tm _ :: l => lastOM l

/-- the last transition model set -/
def lastTM : List (SetCall K D) → Option (TM K)
  | [] => none
  | .tm m :: l => (lastTM l).orElse fun _ => some m
  | .om _ :: l => lastTM l

/-- the lattice constants belonging to an observation model -/
def latticeOf (data : List D) (om : OModel K D) : List K := (gridLoop om.est data (om.values.zip om.names) [] []).1.2

/-- After any sequence of successful `setObservationModel`/`setTransitionModel` calls on a new study with data, the study's models are those set
last, and the lattice constants of the study and of the transition model are those of the last observation model. -/
theorem C54_order (S S' : Cfg K D) (calls : List (SetCall K D)) (h0 : S.om = none) (h1 : S.tm = none) (h2 : S.lattice = [])
    (h : runs S calls = some S') (om : OModel K D) (hom : lastOM calls = some om) :
    S'.om = some om ∧ S'.lattice = latticeOf S.rawData om ∧
      S'.tm = (lastTM calls).map fun tm => (tm, latticeOf S.rawData om) := by
  -- general statement: contents before the calls
  have key : ∀ (calls : List (SetCall K D)) (S S' : Cfg K D), runs S calls = some S' → (∀ m, S.tm = some m → m.2 = S.lattice) →
      S'.rawData = S.rawData ∧
      S'.om = ((lastOM calls).orElse fun _ => S.om) ∧
      S'.lattice = (match lastOM calls with | some om => latticeOf S.rawData om | none => S.lattice) ∧
      S'.tm = ((lastTM calls).orElse fun _ => S.tm.map (·.1)).map fun tm => (tm, S'.lattice) := by
    intro calls
    induction calls with
    | nil =>
        intro S S' h hinv
        simp only [runs, Option.some.injEq] at h
        subst h
        refine ⟨rfl, rfl, rfl, ?_⟩
        cases ht : S.tm with
        | none => rfl
        | some m => simp [lastTM, ← hinv m ht]
    | cons c calls ih =>
        intro S S' h hinv
        rw [runs] at h
        cases c with
        | om m =>
            rw [SetCall.run, Cfg.setOM] at h
            cases hr : (gridLoop m.est S.rawData (m.values.zip m.names) [] []).2 with
            | some e => simp [hr] at h
            | none =>
                simp only [hr] at h
                obtain ⟨e1, e2, e3, e4⟩ := ih _ S' h (by
                  intro m' hm'
                  cases ht : S.tm with
                  | none => simp [ht] at hm'
                  | some q =>
                      simp only [ht, Option.map_some, Option.some.injEq] at hm'
                      rw [← hm'])
                refine ⟨e1, ?_, ?_, ?_⟩
                · rw [e2, lastOM]
                  cases lastOM calls <;> rfl
                · rw [e3, lastOM]
                  cases lastOM calls <;> rfl
                · rw [e4, lastTM]
                  congr 1
                  cases lastTM calls with
                  | some _ => rfl
                  | none => cases S.tm <;> rfl
        | tm m =>
            rw [SetCall.run] at h
            have hm : S.setTM m = ({ S with tm := some (m, S.lattice) }, none) ∨ (S.setTM m).2 = some .configuration := by
              unfold Cfg.setTM
              split
              · exact .inr rfl
              · exact .inl rfl
            rcases hm with hm | hm
            · rw [hm] at h
              simp only at h
              obtain ⟨e1, e2, e3, e4⟩ := ih _ S' h (by
                intro m' hm'
                simp only [Option.some.injEq] at hm'
                rw [← hm'])
              refine ⟨e1, ?_, ?_, ?_⟩
              · rw [e2, lastOM]
              · rw [e3, lastOM]
              · rw [e4, lastTM]
                congr 1
                cases lastTM calls <;> rfl
            · have : S.setTM m = ((S.setTM m).1, some .configuration) := by rw [← hm]
              rw [this] at h
              simp at h
  obtain ⟨_, e2, e3, e4⟩ := key calls S S' h (by rw [h1]; simp)
  rw [hom] at e2 e3
  simp only [Option.orElse_some] at e2
  refine ⟨e2, e3, ?_⟩
  rw [e4, e3, h1]
  cases lastTM calls <;> rfl

/-- number of observation models among the arguments -/
def countOM (args : List (SetArg K D)) : ℕ := args.countP fun a => match a with | .om _ => true | _ => false
/-- number of transition models among the arguments -/
def countTM (args : List (SetArg K D)) : ℕ := args.countP fun a => match a with | .tm _ => true | _ => false

/-- the argument can be set on its own: a usable observation model or a transition model that is not a break-point -/
def Settable (data : List D) : SetArg K D → Prop
  | .om m => (gridLoop m.est data (m.values.zip m.names) [] []).2 = none
  | .tm m => ∀ ns vs pr, m ≠ .leaf .breakPoint ns vs pr
  | .other => False

/-- `set(...)` succeeds exactly for argument lists of usable models with at most one of each kind. -/
theorem C54_set (S : Cfg K D) (args : List (SetArg K D)) :
    (S.set args).2 = none ↔ countOM args ≤ 1 ∧ countTM args ≤ 1 ∧ ∀ a ∈ args, Settable S.rawData a := by
  have key : ∀ (args : List (SetArg K D)) (om tm : Bool) (S : Cfg K D), (setArgs om tm args S).2 = none ↔
      (countOM args + (if om then 1 else 0) ≤ 1 ∨ countOM args = 0) ∧ (countTM args + (if tm then 1 else 0) ≤ 1 ∨ countTM args = 0) ∧
        ∀ a ∈ args, Settable S.rawData a := by
    intro args
    induction args with
    | nil => intro om tm S; simp [setArgs, countOM, countTM]
    | cons a args ih =>
        intro om tm S
        cases a with
        | other => simp [setArgs, Settable]
        | om m =>
            have c1 : countOM (SetArg.om m :: args) = countOM args + 1 := by simp [countOM]
            have c2 : countTM (SetArg.om m :: args) = countTM args := by simp [countTM]
            rw [setArgs, c1, c2]
            cases om with
            | true => simp
            | false =>
                simp only [Bool.false_eq_true, ↓reduceIte, add_zero]
                rw [Cfg.setOM]
                cases hr : (gridLoop m.est S.rawData (m.values.zip m.names) [] []).2 with
                | some e => simp [Settable, hr]
                | none =>
                    simp only [ih, ↓reduceIte, List.mem_cons, forall_eq_or_imp, Settable, hr, true_and]
                    constructor
                    · rintro ⟨h1, h2, h3⟩; exact ⟨by omega, h2, h3⟩
                    · rintro ⟨h1, h2, h3⟩; exact ⟨by omega, h2, h3⟩
        | tm m =>
            have c1 : countOM (SetArg.tm m :: args) = countOM args := by simp [countOM]
            have c2 : countTM (SetArg.tm m :: args) = countTM args + 1 := by simp [countTM]
            rw [setArgs, c1, c2]
            cases tm with
            | true => simp
            | false =>
                simp only [Bool.false_eq_true, ↓reduceIte, add_zero]
                by_cases hb : ∃ ns vs pr, m = .leaf .breakPoint ns vs pr
                · obtain ⟨ns, vs, pr, rfl⟩ := hb
                  simp [Cfg.setTM, Settable]
                · have hs : S.setTM m = ({ S with tm := some (m, S.lattice) }, none) := by
                    unfold Cfg.setTM
                    split
                    · exact absurd ⟨_, _, _, rfl⟩ hb
                    · rfl
                  have hb' : ∀ ns vs pr, m ≠ .leaf .breakPoint ns vs pr := fun ns vs pr h => hb ⟨ns, vs, pr, h⟩
                  rw [hs]
                  simp only [ih, ↓reduceIte, List.mem_cons, forall_eq_or_imp, Settable]
                  constructor
                  · rintro ⟨h1, h2, h3⟩; exact ⟨h1, by omega, hb', h3⟩
                  · rintro ⟨h1, h2, _, h3⟩; exact ⟨h1, by omega, h3⟩
  rw [Cfg.set, key]
  simp only [Bool.false_eq_true, ↓reduceIte, add_zero]
  constructor
  · rintro ⟨h1, h2, h3⟩; exact ⟨by omega, by omega, h3⟩
  · rintro ⟨h1, h2, h3⟩; exact ⟨.inl h1, .inl h2, h3⟩

/-- an observation model on a grid of three points -/
def omEx (l : List ℚ) : OModel ℚ ℚ := ⟨["x"], [some l], fun _ _ => none, 1⟩

example : ∃ S S' : Cfg ℚ ℚ, runs Cfg.init [.tm Ex.static, .om (omEx [0, 1, 2]), .om (omEx [0, 2, 4])] = some S ∧
    runs Cfg.init [.om (omEx [0, 2, 4]), .tm Ex.static] = some S' ∧ S.tm.map (·.2) = some [2] ∧ S'.tm.map (·.2) = some [2] :=
  ⟨_, _, rfl, rfl, by decide +kernel, by decide +kernel⟩

/-- A failing `setObservationModel` call (here: a grid with a single value) leaves a mixed state: the new observation model is stored, the grid
and the transition model still belong to the old one. -/
theorem C54_exception : ∃ (S : Cfg ℚ ℚ) (om : OModel ℚ ℚ), runs Cfg.init [.tm Ex.static, .om (omEx [0, 1, 2])] = some S ∧
    (S.setOM om).2 = some .indexError ∧ (S.setOM om).1.om.map (·.values) = some [some [5]] ∧ (S.setOM om).1.grid = [[0, 1, 2]] ∧
      (S.setOM om).1.lattice = [] ∧ (S.setOM om).1.tm.map (·.2) = some [1] :=
  ⟨_, omEx [5], rfl, rfl, by decide +kernel, by decide +kernel, by decide +kernel, by decide +kernel⟩

end Props
