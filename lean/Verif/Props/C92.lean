import Verif.Lemmas.Plot
import Verif.Props.C64
import Verif.Props.C38

/-! # C92: plots show the reported results -/

set_option linter.unusedSectionVars false

namespace BL
open Spec Props
variable {K D : Type} [Field K] [LinearOrder K] [IsStrictOrderedRing K] {d : ℕ} {gs : Fin d → ℕ}

theorem distributions_rows {F : Fitted K gs} {name : String} {vals : List K} {rows : List (List K)} (hd : F.distributions name false = .ok (vals, rows.map some)) :
    2 ≤ F.ts.length ∧ ∃ a, paramIndex F.names name = some a ∧ vals = List.ofFn (F.grid a) ∧
      (F.posts.map fun p => p.map (marginal a)) = rows.map some ∧ ∀ r ∈ rows, r.length = vals.length := by
  unfold Fitted.distributions at hd
  split at hd
  · cases hd
  · split at hd
    · cases hd
    · rename_i h2
      split at hd
      · cases hd
      · rename_i a ha
        simp only [Except.ok.injEq, Prod.mk.injEq] at hd
        obtain ⟨rfl, hd⟩ := hd
        have hd' : (F.posts.map fun p => p.map (marginal a)) = rows.map some := by
          rw [← hd]
          apply List.map_congr_left
          intro p _
          cases p <;> rfl
        refine ⟨by omega, a, ha, rfl, hd', ?_⟩
        intro r hr
        have : some r ∈ rows.map some := List.mem_map_of_mem hr
        rw [← hd', List.mem_map] at this
        obtain ⟨p, -, hp⟩ := this
        cases p with
        | none => simp at hp
        | some p =>
            simp only [Option.map_some, Option.some.injEq] at hp
            rw [← hp]
            simp [marginal]

end BL

namespace Props
open BL Spec
variable {K D : Type} [Field K] [LinearOrder K] [IsStrictOrderedRing K] {d : ℕ} {gs : Fin d → ℕ}

/-- **C92 (evolution of a parameter).** Let `getParameterDistributions(name, density=False)` return the values `vals` and the distributions `rows`, and `getParameterMeanValues(name)` the
mean values `ms`.  If time stamps and parameter values are equally spaced, the picture drawn by `plot(name)` shows at the point (time stamp, parameter value) exactly the reported
probability of this value at this time, after gamma correction (and zero for probabilities more than 20 orders of magnitude below the largest one), and the curve shows exactly the
mean values. -/
theorem C92_parameter_partial (F : Fitted K gs) (gamma : K → K) (name : String) (density : Bool) (vals : List K) (rows : List (List K)) (ms : List K)
    (hd : F.distributions name false = .ok (vals, rows.map some)) (hm : F.meanValues name = .ok ms)
    (hl : rows.length = F.ts.length) (hlm : ms.length = F.ts.length) (hts : EquallySpaced F.ts) (hvals : EquallySpaced vals) (hv2 : 2 ≤ vals.length) :
    ∃ img v0 v1 pmax, (F.plot gamma name none density).2 = .ok [img, .curve F.ts (ms.map some), .limits v0 v1, .label .y name, .label .x "time step"] ∧
      vals.head? = some v0 ∧ vals.getLast? = some v1 ∧ IsGreatest {p | ∃ r ∈ rows, p ∈ r} pmax ∧
      ∀ (k j : ℕ) (t v : K) (r : List K) (p : K), F.ts[k]? = some t → vals[j]? = some v → rows[k]? = some r → r[j]? = some p →
        ∀ b, ShowsAt img t v b ↔ b = gamma (faded pmax p) := by
  obtain ⟨h2, a, ha, rfl, hrows, hrow⟩ := distributions_rows hd
  obtain ⟨img, v0, v1, pmax, e1, e2, -, e3, e4⟩ := evolutionDraws_shows gamma (mv := ms.map some) name hts hvals h2 hv2 hl hrow (by simpa using hlm)
  refine ⟨img, v0, v1, pmax, ?_, ?_, ?_, e3, e4⟩
  · have hpl : F.posts.length ≠ 0 := by
      have := congrArg List.length hrows
      simp only [List.length_map] at this
      omega
    have hms : F.means a = ms := by
      unfold Fitted.meanValues at hm
      rw [ha] at hm
      simpa using hm
    unfold Fitted.plot Fitted.plotEvolution Fitted.evolution
    simp only [ha]
    rw [if_neg hpl, if_neg (by omega)]
    simp only [hrows, hms, Except.bind, e1]
  · unfold ends at e2
    split at e2
    · rename_i h1 h2; cases e2; exact h1
    · cases e2
  · unfold ends at e2
    split at e2
    · rename_i h1 h2; cases e2; exact h2
    · cases e2

/-- **C92 (distribution at one time).** `plot(name, t=…)` of a study, a hyper-study or a change-point study draws the values returned by `getParameterDistribution`, under the name of
the parameter. -/
theorem C92_time (H : HFitted K gs) (gamma : K → K) (name : String) (t : TimeArg K) (density : Bool) (vals : List K) (q : Option (List K))
    (hd : H.F.distribution t name density = .ok (vals, q)) :
    (H.F.plot gamma name (some t) density).2 = (H.plot gamma name (some t) density).2 ∧
    ∃ ds, (H.plot gamma name (some t) density).2 = .ok ds ∧ .area vals q ∈ ds ∧ .label .x name ∈ ds ∧
      .label .y (if density then "probability density" else "probability") ∈ ds := by
  refine ⟨rfl, .area vals q :: densityLabels name density, ?_, ?_, ?_, ?_⟩
  · change H.F.distributionPlot t name density = _
    unfold Fitted.distributionPlot
    rw [hd]
    rfl
  all_goals simp [densityLabels]

/-- **C92 (hyper-studies, parameters).** If no hyper-parameter has the given name, `plot(name)` of a hyper-study is `plot(name)` of a study (`C92_parameter_partial`). -/
theorem C92_hyper_parameter (H : HFitted K gs) (gamma : K → K) (name : String) (density : Bool) (h : name ∉ H.tm.flatNames) :
    (H.plot gamma name none density).2 = (H.F.plot gamma name none density).2 := by
  unfold HFitted.plot Fitted.plot TM.hyperIndex
  simp only [if_neg h]

theorem irregular_spaced {l : List K} (h : EquallySpaced l) : irregular l = false ∧ (2 ≤ l.length → ∃ s, s ≠ 0 ∧ hyperConst l = |s| ∧ ∃ a, ∀ (k : ℕ) (x : K), l[k]? = some x → x = a + k * s) ∧
    (l.length < 2 → hyperConst l = 1) := by
  obtain ⟨a, s, hs, h⟩ := h
  have hd : ∀ (l : List K) (m : ℕ), (∀ (k : ℕ) (x : K), l[k]? = some x → x = a + (k + m : ℕ) * s) → ∀ e ∈ diff l, e = s := by
    intro l
    induction l with
    | nil => intro m _ e he; simp [diff] at he
    | cons x l ih =>
        intro m hx e he
        cases l with
        | nil => simp [diff] at he
        | cons y l =>
            simp only [diff, List.mem_cons] at he
            rcases he with rfl | he
            · have h0 := hx 0 x rfl
              have h1 := hx 1 y rfl
              rw [h0, h1]
              push_cast
              ring
            · exact ih (m + 1) (fun k z hz => by rw [hx (k + 1) z (by simpa using hz)]; congr 3; omega) e (by simpa [diff] using he)
  have hdd : ∀ l : List K, (∀ e ∈ l, e = s) → ∀ e ∈ diff l, e = 0 := by
    intro l
    induction l with
    | nil => intro _ e he; simp [diff] at he
    | cons x l ih =>
        intro hx e he
        cases l with
        | nil => simp [diff] at he
        | cons y l =>
            simp only [diff, List.mem_cons] at he
            rcases he with rfl | he
            · rw [hx x (by simp), hx y (by simp), sub_self]
            · exact ih (fun e he => hx e (by simp [he])) e (by simpa [diff] using he)
  have h0 : ∀ e ∈ diff (diff l), e = 0 := hdd _ (hd l 0 (by simpa using h))
  have h10 : (0 : K) < 1 / 10 ^ 10 := by positivity
  refine ⟨?_, ?_, ?_⟩
  · unfold irregular
    rw [List.any_eq_false]
    intro e he
    rw [h0 e he]
    simp [h10.le]
  · intro h2
    match l, h2 with
    | x :: y :: l, _ =>
        refine ⟨s, hs, ?_, a, h⟩
        simp only [hyperConst]
        rw [if_pos]
        · rw [hd (x :: y :: l) 0 (by simpa using h) (y - x) (by simp [diff])]
        · rw [List.all_eq_true]
          intro e he
          rw [h0 e he]
          simpa using h10
  · intro h2
    match l, h2 with
    | [], _ => rfl
    | [x], _ => rfl

theorem range_cast_get (n k : ℕ) (x : K) : ((List.range n).map (Nat.cast : ℕ → K))[k]? = some x ↔ k < n ∧ (k : K) = x := by
  rw [List.getElem?_map]
  by_cases h : k < n
  · simp [h]
  · simp [h]

theorem spaced_apart {l : List K} {a s : K} (h : ∀ (k : ℕ) (x : K), l[k]? = some x → x = a + k * s) : BarsApart l |s| := by
  intro i j x y hij hx hy
  rw [h i x hx, h j y hy]
  have : a + (i : K) * s - (a + j * s) = (((i : ℤ) - j : ℤ) : K) * s := by push_cast; ring
  rw [this, abs_mul]
  have h1 : (1 : K) ≤ |(((i : ℤ) - j : ℤ) : K)| := by
    rw [← Int.cast_abs]
    have : (1 : ℤ) ≤ |(i : ℤ) - j| := Int.one_le_abs (by omega)
    exact_mod_cast this
  exact le_mul_of_one_le_left (abs_nonneg s) h1

/-- bar charts of hyper-parameter distributions -/
theorem hyperBars_shows {l hs : List K} (hl : hs.length = l.length) (w : K) (name : String) :
    ∃ ds, hyperBars (.array l) (some hs) (.ok w) name = .ok ds ∧ .label .x name ∈ ds ∧ .label .y "probability" ∈ ds ∧
      (∀ (k : ℕ) (v p : K), l[k]? = some v → hs[k]? = some p → BarAbove ds v p) ∧
      (∃ xs w', .bars xs (some hs) w' ∈ ds ∧ xs.length = l.length ∧ ((irregular l ∨ (EquallySpaced l ∧ w = hyperConst l)) → BarsApart xs w')) := by
  unfold hyperBars
  cases hir : irregular l with
  | true =>
      let ps : List K := (List.range l.length).map Nat.cast
      refine ⟨[.bars ps (some hs) 1, .ticks .x ps l, .label .y "probability", .label .x name], by simp only [hir, if_true]; rfl, by simp, by simp, ?_,
        ps, 1, List.mem_cons_self, by simp [ps], ?_⟩
      · intro k v p hv hp
        have hk : k < l.length := (List.getElem?_eq_some_iff.1 hv).1
        refine ⟨ps, hs, 1, List.mem_cons_self, k, k, (range_cast_get _ _ _).2 ⟨hk, rfl⟩, hp, Or.inl ⟨ps, l, List.mem_cons_of_mem _ List.mem_cons_self, k,
          (range_cast_get _ _ _).2 ⟨hk, rfl⟩, hv⟩⟩
      · intro _
        have := spaced_apart (l := (List.range l.length).map (Nat.cast : ℕ → K)) (a := 0) (s := 1) (fun k x hx => by
          rw [← ((range_cast_get _ _ _).1 hx).2]; simp)
        simpa [ps] using this
  | false =>
      refine ⟨[.bars l (some hs) w, .label .y "probability", .label .x name], by simp [hir, Except.bind], by simp, by simp, ?_, l, w, List.mem_cons_self, rfl, ?_⟩
      · intro k v p hv hp
        refine ⟨l, hs, w, List.mem_cons_self, k, v, hv, hp, Or.inr ⟨?_, rfl⟩⟩
        intro pos labels h
        simp at h
      · rintro (h | ⟨he, hw⟩)
        · cases h
        · by_cases h2 : 2 ≤ l.length
          · obtain ⟨-, h3, -⟩ := irregular_spaced he
            obtain ⟨s, -, hc, a, h4⟩ := h3 h2
            rw [hw, hc]
            exact spaced_apart h4
          · intro i j x y hij hx hy
            have := (List.getElem?_eq_some_iff.1 hx).1
            have := (List.getElem?_eq_some_iff.1 hy).1
            omega

/-- **C92 (hyper-parameters).** After a fit with hyper-grid `g` and hyper-parameter distribution `D`, `plot(name)` with the name of a hyper-parameter draws above each of its values a bar
whose height is the total probability of the combinations with this value; the bars do not overlap. -/
theorem C92_hyper (H : HFitted K gs) (ts : List K) (gamma : K → K) (name : String) (density : Bool) (v : HVal K) (l : List K) (a : ℕ) (hp : Proper H.tm)
    (hnd : ((entries H.tm).map (·.1)).Nodup) (hg : createHyperGrid H.tm ts = .ok H.g) (hr : 2 ≤ H.g.rows.length) (hD : H.hpd.length = H.g.rows.length)
    (he : (entries H.tm)[a]? = some (name, v)) (hx : expandAll ts v = .array l) (hv : l.Nodup) :
    ∃ ds, (H.plot gamma name none density).2 = .ok ds ∧ .label .x name ∈ ds ∧ .label .y "probability" ∈ ds ∧
      (∀ x ∈ l, BarAbove ds x (probOf H.g.rows H.hpd H.g.hgc.prod a x)) ∧
      ∃ xs hs w, .bars xs hs w ∈ ds ∧ xs.length = l.length ∧ ((irregular l ∨ EquallySpaced l) → BarsApart xs w) := by
  have hvl : valuesOf ts v = l := by
    cases v <;> simp [expandAll] at hx <;> simp [valuesOf, hx]
  obtain ⟨D', A, h1, h2, -, -⟩ := C34 H.tm ts H.g H.hpd name v a hp hnd hg hr hD he (by rwa [hvl])
  have hi := index_of_entry hp hnd he
  have hw : getE H.g.hgc a = .ok (hyperConst l) := by
    unfold getE
    rw [(createHyperGrid_eq hp hg).2.2.1, List.getElem?_map, axes_get he, hvl]
    rfl
  rw [hvl] at h2
  obtain ⟨ds, e1, e2, e3, e4, xs, w, e5, e6, e7⟩ := hyperBars_shows (l := l) (hs := A.flat) (by rw [h2]; simp) (hyperConst l) name
  refine ⟨ds, ?_, e2, e3, ?_, xs, _, w, e5, e6, fun h => e7 (h.imp id fun h => ⟨h, rfl⟩)⟩
  · unfold HFitted.plot getHPDPlot
    simp only [hi, h1, hx, bind, Except.bind, hw]
    exact e1
  · intro x hx
    obtain ⟨k, hk⟩ := List.mem_iff_getElem?.1 hx
    exact e4 k x _ hk (by rw [h2, List.getElem?_map, hk]; rfl)

theorem flatMap_get {α β : Type} (f : α → List β) (m : ℕ) (hf : ∀ a, (f a).length = m) (j : ℕ) (hj : j < m) : ∀ (l : List α) (i : ℕ),
    (l.flatMap f)[i * m + j]? = l[i]?.bind fun a => (f a)[j]?
  | [], i => by simp
  | a :: l, 0 => by
      rw [List.flatMap_cons, Nat.zero_mul, Nat.zero_add, List.getElem?_append_left (by rw [hf]; exact hj)]
      rfl
  | a :: l, i + 1 => by
      rw [List.flatMap_cons, List.getElem?_append_right (by rw [hf, Nat.add_mul]; omega), hf,
        show (i + 1) * m + j - m = i * m + j by rw [Nat.add_mul]; omega, flatMap_get f m hf j hj l i]
      simp

theorem flat_get {Z : ND K} {n m : ℕ} (hZ : Z.shape = [n, m]) {i j : ℕ} (hi : i < n) (hj : j < m) : Z.flat[i * m + j]? = some (Z.get [i, j]) := by
  have h : indices Z.shape = (List.range n).flatMap fun i => (List.range m).map fun j => [i, j] := by
    rw [hZ]
    simp only [indices, cart, List.map_cons, List.map_nil, ← List.map_eq_flatMap, List.map_map]
    rfl
  unfold ND.flat
  rw [h, List.getElem?_map, flatMap_get _ m (by simp) j hj]
  simp [hi, hj]

theorem barPositions_get {l : List K} {k : ℕ} {v : K} (h : l[k]? = some v) :
    ∃ x, (barPositions l)[k]? = some x ∧ ((irregular l = true ∧ ((List.range l.length).map (Nat.cast : ℕ → K))[k]? = some x) ∨ (irregular l = false ∧ x = v)) := by
  unfold barPositions
  cases hir : irregular l with
  | true =>
      have hk : k < l.length := (List.getElem?_eq_some_iff.1 h).1
      exact ⟨k, by simp [hk], Or.inl ⟨rfl, by simp [hk]⟩⟩
  | false => exact ⟨v, by simpa using h, Or.inr ⟨rfl, rfl⟩⟩

theorem barPositions_length (l : List K) : (barPositions l).length = l.length := by
  unfold barPositions
  split <;> simp

/-- three-dimensional bar charts -/
theorem joint_shows {x y : List K} {Z : ND K} (hZ : Z.shape = [x.length, y.length]) (wx wy : K) (nx ny : String) :
    let ds : List (Draw K) := .bars3 (((barPositions x).flatMap fun u => y.map fun _ => u).map (· - wx / 2)) ((x.flatMap fun _ => barPositions y).map (· - wy / 2)) (Z.flat.map fun _ => 0)
      wx wy Z.flat :: (jointTicks .x x ++ jointTicks .y y ++ [.label .x nx, .label .y ny, .label .z "probability"])
    .label .x nx ∈ ds ∧ .label .y ny ∈ ds ∧ .label .z "probability" ∈ ds ∧
      ∀ (i j : ℕ) (u v : K), x[i]? = some u → y[j]? = some v → BarOver ds u v (Z.get [i, j]) := by
  intro ds
  refine ⟨by simp [ds], by simp [ds], by simp [ds], ?_⟩
  intro i j u v hu hv
  have hi : i < x.length := (List.getElem?_eq_some_iff.1 hu).1
  have hj : j < y.length := (List.getElem?_eq_some_iff.1 hv).1
  obtain ⟨px, hpx, hx⟩ := barPositions_get hu
  obtain ⟨py, hpy, hy⟩ := barPositions_get hv
  have tx : ∀ pos labels, Draw.ticks PlotAxis.x pos labels ∈ ds ↔ irregular x = true ∧ pos = (List.range x.length).map (Nat.cast : ℕ → K) ∧ labels = x := by
    intro pos labels
    cases h1 : irregular x <;> cases h2 : irregular y <;> simp [ds, jointTicks, h1, h2]
  have ty : ∀ pos labels, Draw.ticks PlotAxis.y pos labels ∈ ds ↔ irregular y = true ∧ pos = (List.range y.length).map (Nat.cast : ℕ → K) ∧ labels = y := by
    intro pos labels
    cases h1 : irregular x <;> cases h2 : irregular y <;> simp [ds, jointTicks, h1, h2]
  refine ⟨_, _, _, wx, wy, _, List.mem_cons_self, i * y.length + j, px - wx / 2, py - wy / 2, ?_, ?_, ?_, flat_get hZ hi hj, ?_, ?_⟩
  · rw [List.getElem?_map, flatMap_get _ y.length (by simp) j hj, hpx]
    simp [hj]
  · rw [List.getElem?_map, flatMap_get _ y.length (by simp [barPositions_length]) j hj, hu]
    simp [hpy]
  · rw [List.getElem?_map, flat_get hZ hi hj]
    rfl
  · rw [sub_add_cancel]
    rcases hx with ⟨h1, h2⟩ | ⟨h1, h2⟩
    · exact Or.inl ⟨_, _, (tx _ _).2 ⟨h1, rfl, rfl⟩, i, h2, hu⟩
    · exact Or.inr ⟨fun pos labels h => by rw [tx] at h; rw [h1] at h; exact absurd h.1 (by simp), h2⟩
  · rw [sub_add_cancel]
    rcases hy with ⟨h1, h2⟩ | ⟨h1, h2⟩
    · exact Or.inl ⟨_, _, (ty _ _).2 ⟨h1, rfl, rfl⟩, j, h2, hv⟩
    · exact Or.inr ⟨fun pos labels h => by rw [ty] at h; rw [h1] at h; exact absurd h.1 (by simp), h2⟩

/-- **C92 (joint distributions).** The chart drawn by `getJointHyperParameterDistribution([n1, n2], plot=True)` has above each pair of values a bar whose height is the total probability
of the combinations with these two values, and the axes carry the names of the hyper-parameters they belong to, for both orders of the two names. -/
theorem C92_joint_partial (tm : TM K) (ts : List K) (g : HyperGrid K) (D : List K) (n1 n2 : String) (v1 v2 : HVal K) (l1 l2 : List K) (a b : ℕ) (hp : Proper tm)
    (hnd : ((entries tm).map (·.1)).Nodup) (hg : createHyperGrid tm ts = .ok g) (hr : 2 ≤ g.rows.length) (hD : D.length = g.rows.length)
    (hab : a ≠ b) (h1 : (entries tm)[a]? = some (n1, v1)) (h2 : (entries tm)[b]? = some (n2, v2)) (hx1 : expandAll ts v1 = .array l1) (hx2 : expandAll ts v2 = .array l2)
    (hv1 : l1.Nodup) (hv2 : l2.Nodup) (hl1 : 2 ≤ l1.length) (hl2 : 2 ≤ l2.length) :
    ∃ ds, (getJHPDPlot tm g D [n1, n2]).2 = .ok ds ∧ .label .z "probability" ∈ ds ∧
      ((.label .x n1 ∈ ds ∧ .label .y n2 ∈ ds ∧ ∀ x ∈ l1, ∀ y ∈ l2, BarOver ds x y (probOf₂ g.rows D g.hgc.prod a b x y)) ∨
       (.label .x n2 ∈ ds ∧ .label .y n1 ∈ ds ∧ ∀ x ∈ l1, ∀ y ∈ l2, BarOver ds y x (probOf₂ g.rows D g.hgc.prod a b x y))) := by
  have e1 : valuesOf ts v1 = l1 := by cases v1 <;> simp [expandAll] at hx1 <;> simp [valuesOf, hx1]
  have e2 : valuesOf ts v2 = l2 := by cases v2 <;> simp [expandAll] at hx2 <;> simp [valuesOf, hx2]
  obtain ⟨D', Z, hZ, hs, hget, -⟩ := C36_partial tm ts g D n1 n2 v1 v2 a b hp hnd hg hr hD hab h1 h2 (by rwa [e1]) (by rwa [e2]) (by rwa [e1]) (by rwa [e2])
  rw [e1, e2] at hs hget
  rw [hx1, hx2] at hZ
  have i1 := index_of_entry hp hnd h1
  have i2 := index_of_entry hp hnd h2
  have w1 : getE g.hgc a = .ok (hyperConst l1) := by
    unfold getE
    rw [(createHyperGrid_eq hp hg).2.2.1, List.getElem?_map, axes_get h1, e1]
    rfl
  have w2 : getE g.hgc b = .ok (hyperConst l2) := by
    unfold getE
    rw [(createHyperGrid_eq hp hg).2.2.1, List.getElem?_map, axes_get h2, e2]
    rfl
  by_cases hlt : a < b
  · obtain ⟨b1, b2, b3, b4⟩ := joint_shows hs (hyperConst l1) (hyperConst l2) n1 n2
    refine ⟨_, ?_, b3, Or.inl ⟨b1, b2, ?_⟩⟩
    · unfold getJHPDPlot
      simp [hZ, getE, i1, i2, hlt, bind, Except.bind, valuesE] at w1 w2 ⊢
      rw [w1, w2]
    · intro x hx y hy
      obtain ⟨i, hi⟩ := List.mem_iff_getElem?.1 hx
      obtain ⟨j, hj⟩ := List.mem_iff_getElem?.1 hy
      rw [← hget i j x y hi hj]
      exact b4 i j x y hi hj
  · have hs' : Z.transpose.shape = [l2.length, l1.length] := by simp [ND.transpose, hs]
    obtain ⟨b1, b2, b3, b4⟩ := joint_shows hs' (hyperConst l2) (hyperConst l1) n2 n1
    refine ⟨_, ?_, b3, Or.inr ⟨b1, b2, ?_⟩⟩
    · unfold getJHPDPlot
      simp [hZ, getE, i1, i2, hlt, bind, Except.bind, valuesE] at w1 w2 ⊢
      rw [w1, w2]
    · intro x hx y hy
      obtain ⟨i, hi⟩ := List.mem_iff_getElem?.1 hx
      obtain ⟨j, hj⟩ := List.mem_iff_getElem?.1 hy
      rw [← hget i j x y hi hj]
      exact b4 j i y x hj hi

theorem meanRow_get (m : Option (Fin d → K)) (a : Fin d) : (meanRow m)[(a : ℕ)]? = some (m.map (· a)) := by
  simp [meanRow]

theorem filterMap_meanRow (l : List (Option (Fin d → K))) (a : Fin d) :
    (l.map meanRow).filterMap (fun q => q[(a : ℕ)]?) = l.map fun m => m.map (· a) := by
  rw [List.filterMap_map]
  have : ((fun q : List (Option K) => q[(a : ℕ)]?) ∘ meanRow) = fun m : Option (Fin d → K) => some (m.map (· a)) := by
    funext m
    exact meanRow_get m a
  rw [this, List.filterMap_eq_map']

theorem transposed_means {l : List (Option (Fin d → K))} (hl : l ≠ []) :
    transposed (l.map meanRow) = List.ofFn fun a : Fin d => l.map fun m => m.map (· a) := by
  cases l with
  | nil => exact absurd rfl hl
  | cons m l =>
      have h : (meanRow m : List (Option K)).length = d := by simp [meanRow]
      rw [List.map_cons, transposed, h, ← List.map_cons]
      apply List.ext_getElem?
      intro j
      by_cases hj : j < d
      · rw [List.getElem?_map, List.getElem?_range hj, Option.map_some, List.getElem?_ofFn, dif_pos hj]
        exact congrArg some (filterMap_meanRow (m :: l) ⟨j, hj⟩)
      · rw [List.getElem?_eq_none (by simpa using hj), List.getElem?_eq_none (by simpa using hj)]

theorem transposed_means_get {l : List (Option (Fin d → K))} (hl : l ≠ []) (a : Fin d) : getE (transposed (l.map meanRow)) a = .ok (l.map fun m => m.map (· a)) := by
  unfold getE
  rw [transposed_means hl]
  simp

/-- the attribute `posteriorMeanValues` as a list of rows -/
theorem forPlot_getMeans (c : OConf K D gs) (S : OState K D gs) (name : String) : S.forPlot.getMeans c name = S.getMeans c name := by
  unfold PState.getMeans OState.getMeans OState.forPlot
  by_cases hs : S.store = false
  · simp [hs]
  · simp only [if_neg hs, PySeq.entries]
    cases paramIndex c.E.names name with
    | none => rfl
    | some a =>
        by_cases hl : S.means = []
        · simp [hl, transposed, getE]
        · simp only [transposed_means_get hl]
          rw [if_neg (by simpa using hl)]

theorem not_hyper {Ms : List (OModelSt K gs)} {name : String} (h : ∀ m ∈ Ms, name ∉ m.tm.flatNames) :
    (Ms.any fun m => noError (m.tm.hyperIndex name)) = false := by
  rw [List.any_eq_false]
  intro m hm
  unfold TM.hyperIndex
  rw [if_neg (h m hm)]
  simp [noError]

theorem is_hyper {Ms : List (OModelSt K gs)} {name : String} (h : ∃ m ∈ Ms, name ∈ m.tm.flatNames) :
    (Ms.any fun m => noError (m.tm.hyperIndex name)) = true := by
  rw [List.any_eq_true]
  obtain ⟨m, hm, h⟩ := h
  refine ⟨m, hm, ?_⟩
  unfold TM.hyperIndex
  rw [if_pos h]
  rfl

theorem stamps_spaced (n s : ℕ) : EquallySpaced ((stamps n : List K).drop s) := by
  refine ⟨(s : K), 1, one_ne_zero, fun k x hx => ?_⟩
  have hk : k + s < n := by
    have := (List.getElem?_eq_some_iff.1 hx).1
    simp only [List.length_drop, stamps, List.length_map, List.length_range] at this
    omega
  rw [stamps_get n s k hk] at hx
  rw [← Option.some.inj hx]
  push_cast
  ring

/-- what the histories of an online study have in common, in terms of the study before plotting -/
theorem online_times {c : OConf K D gs} (h1 : 1 ≤ c.seg) {prior : PriorSpec K gs} {qs : List (OCall K D)} {S : OState K D gs} {out : List (Option PyErr)}
    (hr : execAll c (OState.new true prior) qs = (S, out)) (hs : StepsSucceed qs out) (hn : fedData qs ≠ []) :
    S.store = true ∧ (S.fts.map PySeq.entries).getD [] = (stamps (fedData qs).length).drop (c.seg - 1) ∧ EquallySpaced ((S.fts.map PySeq.entries).getD []) ∧
      ((S.fts.map PySeq.entries).getD []).length = (fedData qs).length + 1 - c.seg ∧
      S.posts.entries.length = (fedData qs).length + 1 - c.seg ∧ S.means.length = (fedData qs).length + 1 - c.seg ∧
      S.hpds.length = (fedData qs).length + 1 - c.seg ∧ S.tmds.length = (fedData qs).length + 1 - c.seg ∧ S.ltmds.length = (fedData qs).length + 1 - c.seg := by
  have hi := execAll_hist h1 qs _ [] (new_hist h1 true prior) (by rw [hr]; exact hs)
  rw [hr] at hi
  simp only [List.nil_append] at hi
  obtain ⟨-, f, hf, he⟩ := hi.times hn
  have e : (S.fts.map PySeq.entries).getD [] = (stamps (fedData qs).length).drop (c.seg - 1) := by rw [hf]; simpa using he
  refine ⟨hi.store_eq, e, by rw [e]; exact stamps_spaced _ _, ?_, by simpa using hi.posts, by simpa using hi.means, by simpa using hi.hpds, by simpa using hi.tmds, by simpa using hi.ltmds⟩
  rw [e]
  simp only [List.length_drop, stamps, List.length_map, List.length_range]
  omega

/-- **C92 (online studies, parameters).** After every history of calls (in which the steps succeed) with at least two analysed data points, `plot(name)` with the name of a parameter shows
at time stamp and parameter value the probability returned by `getParameterDistributions`, and the mean values returned by `getParameterMeanValues`. -/
theorem C92_online_parameter_partial (c : OConf K D gs) (h1 : 1 ≤ c.seg) (prior : PriorSpec K gs) (qs : List (OCall K D)) (S : OState K D gs) (out : List (Option PyErr))
    (hr : execAll c (OState.new true prior) qs = (S, out)) (hs : StepsSucceed qs out) (gamma : K → K) (name : String) (density loc : Bool)
    (hh : ∀ m ∈ S.models, name ∉ m.tm.flatNames) (hmn : name ∉ S.models.map OModelSt.name) (vals : List K) (rows : List (List K)) (ms : List (Option K))
    (hd : (S.getParameterDistributions c name false).2 = .ok (vals, rows.map some)) (hm : S.getMeans c name = .ok ms) (hvals : EquallySpaced vals) (hv2 : 2 ≤ vals.length) :
    ∃ img v0 v1 pmax, (S.forPlot.plot c gamma name none density loc).2 =
        .ok [img, .curve ((stamps (fedData qs).length).drop (c.seg - 1)) ms, .limits v0 v1, .label .y name, .label .x "time step"] ∧
      ends vals = .ok (v0, v1) ∧ IsGreatest {p | ∃ r ∈ rows, p ∈ r} pmax ∧
      ∀ (k j : ℕ) (v : K) (r : List K) (p : K), vals[j]? = some v → rows[k]? = some r → r[j]? = some p →
        ∀ b, ShowsAt img ((k + (c.seg - 1) : ℕ) : K) v b ↔ b = gamma (faded pmax p) := by
  have hst : S.store = true := by
    unfold OState.getParameterDistributions at hd
    split at hd
    · cases hd
    · rename_i h; simpa using h
  have hd' : (S.fitted c).distributions name false = .ok (vals, rows.map some) := by
    unfold OState.getParameterDistributions at hd
    rw [if_neg (by simp [hst])] at hd
    split at hd
    · cases hd
    · rename_i r hr; rw [hr]; exact hd
  obtain ⟨h2, a, ha, rfl, hrows, hrow⟩ := distributions_rows hd'
  have hn : fedData qs ≠ [] := by
    intro h0
    have hi := execAll_hist h1 qs _ [] (new_hist h1 true prior) (by rw [hr]; exact hs)
    rw [hr] at hi
    simp only [List.nil_append] at hi
    have hp : S.posts.entries.length = 0 := by
      have := hi.posts
      rw [h0] at this
      simpa [Nat.sub_eq_zero_of_le h1] using this
    have hm0 : S.means.length = 0 := by
      have := hi.means
      rw [h0] at this
      simpa [Nat.sub_eq_zero_of_le h1] using this
    unfold OState.getMeans at hm
    rw [if_neg (by simp [hst])] at hm
    split at hm
    · cases hm
    · rw [if_pos hm0] at hm; cases hm
  obtain ⟨-, t1, t2, t3, t4, t5, -⟩ := online_times h1 hr hs hn
  change EquallySpaced (S.fitted c).ts at t2
  change (S.fitted c).ts.length = _ at t3
  have hl : rows.length = (S.fitted c).ts.length := by
    have := congrArg List.length hrows
    simp only [List.length_map] at this
    rw [← this, t3]
    exact t4
  have hne : S.means ≠ [] := by intro h0; rw [h0] at t5; simp at t5; omega
  have hms : ms = S.means.map fun m => m.map (· a) := by
    unfold OState.getMeans at hm
    rw [if_neg (by simp [hst])] at hm
    have ha' : paramIndex c.E.names name = some a := ha
    rw [ha'] at hm
    simp only at hm
    rw [if_neg (by simpa using hne)] at hm
    simpa using hm.symm
  obtain ⟨img, v0, v1, pmax, e1, e2, -, e3, e4⟩ := evolutionDraws_shows gamma (mv := ms) name t2 hvals h2 hv2 hl hrow (by rw [hms, List.length_map, t5, t3])
  refine ⟨img, v0, v1, pmax, ?_, e2, e3, ?_⟩
  · have hpl : (S.fitted c).posts.length ≠ 0 := by
      have : (S.fitted c).posts.length = S.posts.entries.length := rfl
      omega
    have t1' : (S.fitted c).ts = (stamps (fedData qs).length).drop (c.seg - 1) := t1
    have ev : ((S.fitted c).evolution gamma name fun a => getE (transposed (S.means.map meanRow)) a).2 =
        .ok [img, .curve (S.fitted c).ts ms, .limits v0 v1, .label .y name, .label .x "time step"] := by
      unfold Fitted.evolution
      simp only [ha]
      rw [if_neg hpl, if_neg (by omega)]
      simp only [hrows, transposed_means_get hne, ← hms, Except.bind]
      exact e1
    unfold PState.plot
    simp only [Option.isSome_none, Bool.false_and, Bool.false_eq_true, if_false]
    have hc : (S.forPlot.S.models.map OModelSt.name).contains name = false := by rw [show S.forPlot.S = S from rfl]; simpa using hmn
    rw [not_hyper (Ms := S.forPlot.S.models) hh, hc]
    simp only
    have hst' : S.forPlot.S.store = true := hst
    rw [if_pos hst']
    unfold PState.plotEvolution
    rw [if_neg (by simp [hst'])]
    change ((match ((S.fitted c).evolution gamma name fun a => getE (transposed (S.means.map meanRow)) a).2 with | .error e => _ | .ok dr => _) : PState K D gs × _).2 = _
    rw [ev, t1']
  · intro k j v r p hv hrk hp b
    have hk : k < rows.length := (List.getElem?_eq_some_iff.1 hrk).1
    refine e4 k j _ v r p ?_ hv hrk hp b
    change ((S.fts.map PySeq.entries).getD [])[k]? = _
    rw [t1]
    exact stamps_get _ _ _ (by omega)

/-- **C92 (online studies, hyper-parameters).** After every such history, `plot(name)` with the name of a hyper-parameter with equally spaced values shows at time stamp and hyper-parameter value
the probability returned by `getHyperParameterDistributions`, and the mean values returned by `getHyperParameterMeanValues`. -/
theorem C92_online_hyper_partial (c : OConf K D gs) (h1 : 1 ≤ c.seg) (prior : PriorSpec K gs) (qs : List (OCall K D)) (S : OState K D gs) (out : List (Option PyErr))
    (hr : execAll c (OState.new true prior) qs = (S, out)) (hs : StepsSucceed qs out) (hn : c.seg + 1 ≤ (fedData qs).length) (gamma : K → K) (name : String) (density loc : Bool)
    (hh : ∃ m ∈ S.models, name ∈ m.tm.flatNames) (hmn : name ∉ S.models.map OModelSt.name) (vals : List K) (rows : List (List K)) (ms : List (Option K))
    (hd : S.getHPDs name = .ok (vals, rows.map some)) (hm : S.getHyperMeans name = .ok ms) (hvals : EquallySpaced vals) (hv2 : 2 ≤ vals.length) :
    ∃ img v0 v1 pmax, S.forPlot.plot c gamma name none density loc =
        (S.forPlot, .ok [img, .curve ((stamps (fedData qs).length).drop (c.seg - 1)) ms, .limits v0 v1, .label .y name, .label .x "time step"]) ∧
      ends vals = .ok (v0, v1) ∧ IsGreatest {p | ∃ r ∈ rows, p ∈ r} pmax ∧
      ∀ (k j : ℕ) (v : K) (r : List K) (p : K), vals[j]? = some v → rows[k]? = some r → r[j]? = some p →
        ∀ b, ShowsAt img ((k + (c.seg - 1) : ℕ) : K) v b ↔ b = gamma (faded pmax p) := by
  obtain ⟨hst, t1, t2, t3, -, -, t4, -⟩ := online_times h1 hr hs (by intro h; rw [h] at hn; simp at hn)
  obtain ⟨hl, hrow⟩ : rows.length = S.hpds.length ∧ ∀ r ∈ rows, r.length = vals.length := by
    unfold OState.getHPDs at hd
    rw [if_neg (by simp [hst])] at hd
    split at hd
    · cases hd
    · split at hd
      · cases hd
      · split at hd
        · cases hd
        · simp only [bind, Except.bind] at hd
          split at hd
          · cases hd
          · rename_i m _ _ l hlq
            simp only [Except.ok.injEq, Prod.mk.injEq] at hd
            obtain ⟨rfl, hd⟩ := hd
            rw [mapE_ok] at hlq
            have hll := hlq.length_eq
            refine ⟨?_, ?_⟩
            · have := congrArg List.length hd
              simp only [List.length_map] at this
              rw [← this, ← hll, List.length_range]
            · intro r hr
              have : some r ∈ rows.map some := List.mem_map_of_mem hr
              rw [← hd, List.mem_map] at this
              obtain ⟨D, -, hD⟩ := this
              obtain ⟨D', -, hD⟩ := Option.bind_eq_some_iff.1 hD
              unfold marginalRow at hD
              simp only at hD
              split at hD
              · cases hD
              · rw [← Option.some.inj hD]; simp
  have hml : ms.length = ((S.fts.map PySeq.entries).getD []).length := by
    rw [(C44_hyper_means_partial c h1 prior qs S out hr hs name ms hm).1, t3]
    have := (C43 c h1 true prior qs S out hr hs).2.2.2
    exact this
  obtain ⟨img, v0, v1, pmax, e1, e2, -, e3, e4⟩ := evolutionDraws_shows gamma (mv := ms) name t2 hvals (by rw [t3]; omega) hv2 (by rw [hl, t4, t3]) hrow hml
  refine ⟨img, v0, v1, pmax, ?_, e2, e3, ?_⟩
  · unfold PState.plot
    simp only [Option.isSome_none, Bool.false_and, Bool.false_eq_true, if_false]
    have hc : (S.forPlot.S.models.map OModelSt.name).contains name = false := by rw [show S.forPlot.S = S from rfl]; simpa using hmn
    rw [is_hyper (Ms := S.forPlot.S.models) hh, hc]
    simp only
    have hst' : S.forPlot.S.store = true := hst
    rw [if_pos hst']
    have : S.forPlot.S = S := rfl
    rw [this]
    unfold OState.plotHyperEvolution
    rw [hd, hm]
    simp only [bind, Except.bind]
    rw [e1, t1]
  · intro k j v r p hv hrk hp b
    have hk : k < rows.length := (List.getElem?_eq_some_iff.1 hrk).1
    refine e4 k j _ v r p ?_ hv hrk hp b
    rw [t1]
    exact stamps_get _ _ _ (by omega)

/-- **C92 (online studies, transition models).** After every such history, `plot(name)` with the name of a transition model draws the probabilities returned by
`getTransitionModelProbabilities` over the time stamps. -/
theorem C92_online_model (c : OConf K D gs) (h1 : 1 ≤ c.seg) (prior : PriorSpec K gs) (qs : List (OCall K D)) (S : OState K D gs) (out : List (Option PyErr))
    (hr : execAll c (OState.new true prior) qs = (S, out)) (hs : StepsSucceed qs out) (hn : fedData qs ≠ []) (gamma : K → K) (name : String) (density loc : Bool)
    (hh : ∀ m ∈ S.models, name ∉ m.tm.flatNames) (ps : List (Option K)) (hm : S.getTMPs name loc = .ok ps) :
    S.forPlot.plot c gamma name none density loc = (S.forPlot, .ok [.curve ((stamps (fedData qs).length).drop (c.seg - 1)) ps]) := by
  obtain ⟨hst, t1, t2, t3, -, -, -, t4, t5⟩ := online_times h1 hr hs hn
  unfold OState.getTMPs at hm
  rw [if_neg (by simp [hst])] at hm
  unfold nameIndex at hm
  simp only [bind, Except.bind] at hm
  by_cases hname : name ∈ S.models.map OModelSt.name
  · rw [if_pos hname] at hm
    simp only at hm
    have hps : ps.length = (if loc then S.ltmds else S.tmds).length := by
      generalize (if loc then S.ltmds else S.tmds) = q at hm ⊢
      split at hm
      · cases hm
      · rw [mapE_ok] at hm
        exact hm.length_eq.symm
    have hcol : tmColumn ((S.models.map OModelSt.name).idxOf name) (if loc then S.ltmds else S.tmds) = .ok ps := by
      unfold tmColumn
      rw [← hm]
      congr 2
      funext r
      cases r with
      | none => rfl
      | some r =>
          simp only [getE, Except.map]
          cases r[(S.models.map OModelSt.name).idxOf name]? <;> rfl
    unfold PState.plot
    simp only [Option.isSome_none, Bool.false_and, Bool.false_eq_true, if_false]
    have hc : (S.forPlot.S.models.map OModelSt.name).contains name = true := by rw [show S.forPlot.S = S from rfl]; simpa using hname
    rw [not_hyper (Ms := S.forPlot.S.models) hh, hc]
    simp only
    have : S.forPlot.S = S := rfl
    rw [this, hcol]
    simp only [bind, Except.bind]
    rw [if_neg, t1]
    rw [hps, t3]
    cases loc <;> simp [t4, t5]
  · rw [if_neg hname] at hm
    cases hm

end Props

namespace Ex
open BL Spec

/-- a fitted study with one parameter, two values and three time stamps -/
def plotted (ts : List ℚ) : Fitted ℚ gs2 := ⟨fun _ => "x", grid gs2, fun _ => 1, ts, [some (v2 (3 / 4) (1 / 4)), some (v2 (1 / 4) (3 / 4)), some (v2 (1 / 8) (7 / 8))],
  fun _ => [1 / 4, 3 / 4, 7 / 8], true⟩
/-- gamma correction with exponent 2 -/
def sq (p : ℚ) : ℚ := p * p
/-- a history with hyper-parameter values that are not equally spaced -/
def unevenHist : List (OCall ℚ (ℚ × ℚ)) := [.add "g" (ogrw [0, 1, 10]), .step (1 / 4, 3 / 4), .step (1 / 2, 1 / 4), .step (1 / 2, 1 / 4)]
/-- the study after this history -/
def uneven : OState ℚ (ℚ × ℚ) gs2 := (execAll och (OState.new true .none) unevenHist).1
/-- two change-points, the first one among the first data points, the second one among the last -/
def cpApart : HState ℚ gs2 := ⟨.combined [cpOf "a" [1, 2], cpOf "b" [4, 5]], S0 .none, [], none⟩

end Ex

namespace Props
open BL Spec Ex

/-- The assumptions of `C92_parameter_partial` can be met: a study with time stamps 1, 3, 5. -/
example : ∃ vals rows ms, (plotted [1, 3, 5]).distributions "x" false = .ok (vals, rows.map some) ∧ (plotted [1, 3, 5]).meanValues "x" = .ok ms ∧
    rows = [[3 / 4, 1 / 4], [1 / 4, 3 / 4], [1 / 8, 7 / 8]] ∧ rows.length = (plotted [1, 3, 5]).ts.length ∧ ms.length = (plotted [1, 3, 5]).ts.length ∧
    EquallySpaced (plotted [1, 3, 5]).ts ∧ EquallySpaced vals ∧ 2 ≤ vals.length ∧
    ((plotted [1, 3, 5]).plot sq "x" none true).2.toOption = some [.image [some [9 / 16, 1 / 16], some [1 / 16, 9 / 16], some [1 / 64, 49 / 64]] 1 5 0 1,
      .curve [1, 3, 5] [some (1 / 4), some (3 / 4), some (7 / 8)], .limits 0 1, .label .y "x", .label .x "time step"] := by
  refine ⟨[0, 1], [[3 / 4, 1 / 4], [1 / 4, 3 / 4], [1 / 8, 7 / 8]], [1 / 4, 3 / 4, 7 / 8], ?_, rfl, rfl, rfl, rfl, ⟨1, 2, by norm_num, ?_⟩, ⟨0, 1, by norm_num, ?_⟩, by simp, by decide +kernel⟩
  · have h : ((plotted [1, 3, 5]).distributions "x" false).toOption = some ([0, 1], [some [3 / 4, 1 / 4], some [1 / 4, 3 / 4], some [1 / 8, 7 / 8]]) := by decide +kernel
    generalize (plotted [1, 3, 5]).distributions "x" false = r at h
    cases r with
    | error e => simp [Except.toOption] at h
    | ok r => simp only [Except.toOption, Option.some.injEq] at h; rw [h]; rfl
  · intro k x hx
    change ([1, 3, 5] : List ℚ)[k]? = some x at hx
    match k with
    | 0 => simp at hx; rw [← hx]; norm_num
    | 1 => simp at hx; rw [← hx]; norm_num
    | 2 => simp at hx; rw [← hx]; norm_num
    | k + 3 => simp at hx
  · intro k x hx
    match k with
    | 0 => simp at hx; rw [← hx]; norm_num
    | 1 => simp at hx; rw [← hx]; norm_num
    | k + 2 => simp at hx

theorem ok_of_toOption {α : Type} {r : Except PyErr α} {a : α} (h : r.toOption = some a) : r = .ok a := by
  cases r with
  | error e => simp [Except.toOption] at h
  | ok r => simp only [Except.toOption, Option.some.injEq] at h; rw [h]

/-- The assumptions of `C92_hyper` and `C92_joint_partial` can be met; the names of the joint chart are given in the opposite order. -/
example : ∃ g, createHyperGrid Ex.pairTM [1, 2] = .ok g ∧ g.rows.length = 6 ∧ Proper Ex.pairTM ∧ ((entries Ex.pairTM).map (·.1)).Nodup ∧
    (entries Ex.pairTM)[1]? = some ("s2", .array [0, 2, 4]) ∧ (entries Ex.pairTM)[0]? = some ("s1", .array [0, 1]) ∧
    (getHPDPlot Ex.pairTM g [1 / 24, 1 / 24, 1 / 12, 1 / 12, 1 / 12, 1 / 6] "s2").2 = .ok [.bars [0, 2, 4] (some [1 / 4, 1 / 4, 1 / 2]) 2, .label .y "probability", .label .x "s2"] ∧
    ∃ ds, (getJHPDPlot Ex.pairTM g [1 / 24, 1 / 24, 1 / 12, 1 / 12, 1 / 12, 1 / 6] ["s2", "s1"]).2 = .ok ds ∧
      ds = [.bars3 [-(1 / 2), -(1 / 2), -(1 / 2), 1 / 2, 1 / 2, 1 / 2] [-1, 1, 3, -1, 1, 3] [0, 0, 0, 0, 0, 0] 1 2 [1 / 12, 1 / 12, 1 / 6, 1 / 6, 1 / 6, 1 / 3],
        .label .x "s1", .label .y "s2", .label .z "probability"] := by
  refine ⟨_, rfl, by decide +kernel, ?_, by decide +kernel, rfl, rfl, ok_of_toOption (by decide +kernel), _, ok_of_toOption (by decide +kernel), rfl⟩
  simp [Ex.pairTM, Proper, ProperAll, Plain]

/-- The assumptions of the theorems on online studies can be met, for the parameter `x`, the hyper-parameter `sigma` and the transition model `g`. -/
example : ∃ out, execAll och (OState.new true .none) hist2 = (after2, out) ∧ StepsSucceed hist2 out ∧ och.seg + 1 ≤ (fedData hist2).length ∧
    (∀ m ∈ after2.models, "x" ∉ m.tm.flatNames) ∧ "x" ∉ after2.models.map OModelSt.name ∧
    (∃ m ∈ after2.models, "sigma" ∈ m.tm.flatNames) ∧ "sigma" ∉ after2.models.map OModelSt.name ∧
    (after2.getParameterDistributions och "x" false).2 = .ok ([0, 1], [[1 / 4, 3 / 4], [14 / 31, 17 / 31]].map some) ∧
    after2.getMeans och "x" = .ok [some (3 / 4), some (17 / 31)] ∧
    after2.getHPDs "sigma" = .ok ([0, 1 / 2], [[1 / 2, 1 / 2], [10 / 21, 11 / 21]].map some) ∧ after2.getHyperMeans "sigma" = .ok [some (1 / 4), some (11 / 42)] ∧
    after2.getTMPs "g" true = .ok [some (2 / 3), some (21 / 41)] ∧ (∀ m ∈ after2.models, "g" ∉ m.tm.flatNames) := by
  have h : (execAll och (OState.new true .none) hist2).2 = [none, none, none, none] := by decide +kernel
  refine ⟨(execAll och (OState.new true .none) hist2).2, rfl, ?_, by decide +kernel, by decide +kernel, by decide +kernel, by decide +kernel, by decide +kernel,
    ok_of_toOption (by decide +kernel), ok_of_toOption (by decide +kernel), ok_of_toOption (by decide +kernel), ok_of_toOption (by decide +kernel),
    ok_of_toOption (by decide +kernel), by decide +kernel⟩
  intro i x hx
  rw [h]
  have hi : i < 4 := by
    have := (List.getElem?_eq_some_iff.1 hx).1
    simpa [hist2] using this
  interval_cases i <;> simp [hist2] at hx ⊢

/-- **C92 refuted** (time stamps with different distances): in the plot of a study with time stamps 0, 1 and 10, the distribution shown at time 1 is not the distribution of time 1. -/
theorem C92_times_refuted : ∃ img rest, ((plotted [0, 1, 10]).plot id "x" none true).2 = .ok (img :: rest) ∧
    (plotted [0, 1, 10]).distribution (.at 1) "x" false = .ok ([0, 1], some [1 / 4, 3 / 4]) ∧ ShowsAt img 1 0 (3 / 4) := by
  refine ⟨.image [some [3 / 4, 1 / 4], some [1 / 4, 3 / 4], some [1 / 8, 7 / 8]] 0 10 0 1,
    [.curve [0, 1, 10] [some (1 / 4), some (3 / 4), some (7 / 8)], .limits 0 1, .label .y "x", .label .x "time step"], ok_of_toOption (by decide +kernel),
    ok_of_toOption (by decide +kernel), 0, 0, [3 / 4, 1 / 4], ?_, rfl, ?_, rfl⟩
  · norm_num [InPart]
  · norm_num [InPart]

/-- **C92 refuted** (hyper-parameter values with different distances, no warning): in the plot of an online study with the hyper-parameter values 0, 1 and 10, the probability shown at
time 1 for the value 1 is the probability of the value 0. -/
theorem C92_values_refuted : ∃ img rest rows, (uneven.forPlot.plot och id "sigma" none true false).2 = .ok (img :: rest) ∧ uneven.getHPDs "sigma" = .ok ([0, 1, 10], rows) ∧
    rows[1]? = some (some [5 / 16, 11 / 32, 11 / 32]) ∧ ShowsAt img 1 1 (5 / 16) := by
  refine ⟨.image [some [1 / 3, 1 / 3, 1 / 3], some [5 / 16, 11 / 32, 11 / 32], some [28 / 95, 67 / 190, 67 / 190]] 0 2 0 10,
    [.curve [0, 1, 2] [some (11 / 3), some (121 / 32), some (737 / 190)], .limits 0 10, .label .y "sigma", .label .x "time step"],
    [some [1 / 3, 1 / 3, 1 / 3], some [5 / 16, 11 / 32, 11 / 32], some [28 / 95, 67 / 190, 67 / 190]], ok_of_toOption (by decide +kernel),
    ok_of_toOption (by decide +kernel), rfl, 1, 0, [5 / 16, 11 / 32, 11 / 32], ?_, rfl, ?_, rfl⟩
  · norm_num [InPart]
  · norm_num [InPart]

/-- **C92 refuted** (duration distributions): the width of the bars is the shortest duration, whatever the distance between the durations; with the durations 2, 3 and 4 the bars overlap. -/
theorem C92_duration_refuted : ∃ C D hs, cpFit Ex.cpIn 1 cpApart = .ok (some C) ∧ C.R.hpd = some D ∧
    getDDPlot C D ["a", "b"] = .ok [.bars [2, 3, 4] hs 2, .label .y "probability"] ∧ ¬ BarsApart ([2, 3, 4] : List ℚ) 2 := by
  obtain ⟨C, h1, h2⟩ := Ex.CpOk_iff.1 (show Ex.CpOk (cpFit Ex.cpIn 1 cpApart)
    (fun C => match C.R.hpd with
      | some D => match getDDPlot C D ["a", "b"] with
        | .ok [.bars xs _ w, .label .y s] => decide (xs = [2, 3, 4] ∧ w = 2 ∧ s = "probability")
        | _ => false
      | none => false) = true by decide +kernel)
  split at h2
  · rename_i D hD
    split at h2
    · rename_i xs hs w s hp
      obtain ⟨rfl, rfl, rfl⟩ := of_decide_eq_true h2
      refine ⟨C, D, hs, h1, hD, hp, ?_⟩
      intro h
      have := h 0 1 2 3 (by simp) rfl rfl
      norm_num at this
    · cases h2
  · cases h2

/-- **C92 refuted** (single data point): the distribution can be queried and plotted for the time stamp, but not as evolution. -/
theorem C92_single_refuted : let F : Fitted ℚ gs2 := ⟨fun _ => "x", grid gs2, fun _ => 1, [1], [some (v2 (3 / 4) (1 / 4))], fun _ => [1 / 4], true⟩
    (F.plot id "x" none true).2 = .error .indexError ∧ F.distribution (.at 1) "x" false = .ok ([0, 1], some [3 / 4, 1 / 4]) ∧ F.meanValues "x" = .ok [1 / 4] := by
  refine ⟨rfl, ok_of_toOption (by decide +kernel), rfl⟩

end Props
