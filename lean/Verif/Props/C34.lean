import Verif.Lemmas.ND
import Verif.Props.C32

/-! # C34-C36: marginal and joint hyper-parameter distributions -/

set_option linter.unusedSectionVars false

namespace Spec
variable {K : Type} [Field K] [DecidableEq K]

/-- Total probability of the combinations (rows of the hyper-grid with their densities `D`; `c` is the cell of the grid) whose value at
position `a` is `x`. -/
def probOf (rows : List (List K)) (D : List K) (c : K) (a : ℕ) (x : K) : K :=
  (((rows.zip D).filter fun q => q.1[a]? = some x).map fun q => q.2 * c).sum

/-- Total probability of the combinations with value `x` at position `a` and `y` at position `b`. -/
def probOf₂ (rows : List (List K)) (D : List K) (c : K) (a b : ℕ) (x y : K) : K :=
  (((rows.zip D).filter fun q => q.1[a]? = some x ∧ q.1[b]? = some y).map fun q => q.2 * c).sum

end Spec

namespace Props
open BL Spec

variable {K : Type} [Field K] [LinearOrder K] [IsStrictOrderedRing K] {d : ℕ} {gs : Fin d → ℕ}

theorem steps_eq {tm : TM K} {ts : List K} {g : HyperGrid K} (hp : Proper tm) (hg : createHyperGrid tm ts = .ok g) :
    g.flat.map gridSteps = (axes tm ts).map List.length := by
  rw [(createHyperGrid_eq hp hg).1]
  unfold createHyperGrid at hg
  simp only [bind, Except.bind] at hg
  cases ha : mapE axisValues (tm.flatValues.map (expandAll ts)) with
  | error e => rw [ha] at hg; cases hg
  | ok ax =>
      have hax := axesOK ha
      have : axes tm ts = ax := by rw [hax, entries_values tm hp, axes, List.map_map]; rfl
      rw [this]
      rw [mapE_ok] at ha
      generalize tm.flatValues.map (expandAll ts) = vs at ha
      clear hg hax this
      induction ha with
      | nil => rfl
      | cons h1 _ ih =>
          rw [List.map_cons, List.map_cons, ih]
          congr 1
          rename_i v l _ _ _
          cases v <;> simp [axisValues, gridSteps] at h1 ⊢ <;> rw [← h1] <;> rfl

theorem filter_map_sum {α : Type} (l : List α) (P : α → Prop) [DecidablePred P] (f : α → K) :
    ((l.filter fun q => decide (P q)).map f).sum = (l.map fun q => if P q then f q else 0).sum := by
  induction l with
  | nil => rfl
  | cons a l ih =>
      by_cases h : P a
      · simp [h, ih]
      · simp [h, ih]

/-- selections of rows and of multi-indices -/
theorem rows_total (ls : List (List K)) (D : List K) (c : K) (hD : D.length = (ls.map List.length).prod)
    (P : List K → Prop) [DecidablePred P] (Q : List ℕ → Prop) [DecidablePred Q]
    (hPQ : ∀ idx ∈ indices (ls.map List.length), P (rowOf ls idx) ↔ Q idx) :
    ((((cart ls).zip D).filter fun q => decide (P q.1)).map fun q => q.2 * c).sum =
      total (ls.map List.length) (fun idx => if Q idx then D.getD (ravel (ls.map List.length) idx) 0 else 0) * c := by
  rw [filter_map_sum, cart_indices ls]
  conv_lhs => rw [← map_ravel D _ hD]
  rw [List.zip_map', List.map_map, total, ← List.sum_map_mul_right]
  congr 1
  apply List.map_congr_left
  intro idx hidx
  simp only [Function.comp, hPQ idx hidx, ite_mul, zero_mul]

theorem total_single {shape : List ℕ} {P : List ℕ → Prop} [DecidablePred P] {f : List ℕ → K} {j : List ℕ} (hj : j ∈ indices shape)
    (hP : ∀ idx ∈ indices shape, P idx ↔ idx = j) : total shape (fun idx => if P idx then f idx else 0) = f j := by
  unfold total
  have hnd : (indices shape).Nodup := cart_nodup _ (by
    intro l hl
    obtain ⟨n, -, rfl⟩ := List.mem_map.1 hl
    exact List.nodup_range)
  have h : ∀ l : List (List ℕ), l.Nodup → (∀ idx ∈ l, P idx ↔ idx = j) → (l.map fun idx => if P idx then f idx else 0).sum = if j ∈ l then f j else 0 := by
    intro l
    induction l with
    | nil => intro _ _; simp
    | cons a l ih =>
        intro hn hP
        rw [List.nodup_cons] at hn
        rw [List.map_cons, List.sum_cons, ih hn.2 fun idx h => hP idx (by simp [h])]
        by_cases ha : a = j
        · subst ha
          have : P a := (hP a (by simp)).2 rfl
          simp [this, hn.1]
        · have : ¬ P a := fun h => ha ((hP a (by simp)).1 h)
          simp [this, Ne.symm ha]
  rw [h _ hnd hP, if_pos hj]

theorem index_of_entry {tm : TM K} (hp : Proper tm) (hnd : ((entries tm).map (·.1)).Nodup) {a : ℕ} {name : String} {v : HVal K}
    (he : (entries tm)[a]? = some (name, v)) : tm.hyperIndex name = .ok a := by
  have hn : ((entries tm).map (·.1))[a]? = some name := by rw [List.getElem?_map, he]; rfl
  obtain ⟨ha, hn⟩ := List.getElem?_eq_some_iff.1 hn
  unfold TM.hyperIndex
  rw [entries_names tm hp, if_pos (by rw [← hn]; exact List.getElem_mem ha)]
  congr 1
  rw [← hn]
  exact hnd.idxOf_getElem a ha

theorem axes_get {tm : TM K} {ts : List K} {a : ℕ} {name : String} {v : HVal K} (he : (entries tm)[a]? = some (name, v)) :
    (axes tm ts)[a]? = some (valuesOf ts v) := by
  rw [axes, List.getElem?_map, he]; rfl

theorem row_value {ls : List (List K)} {a : ℕ} {l : List K} (hl : ls[a]? = some l) (hnd : l.Nodup) {i : ℕ} {x : K} (hx : l[i]? = some x)
    (idx : List ℕ) (hidx : idx ∈ indices (ls.map List.length)) : (rowOf ls idx)[a]? = some x ↔ idx[a]? = some i := by
  have ha : a < ls.length := (List.getElem?_eq_some_iff.1 hl).1
  rw [rowOf_get ls idx hidx a ha, hl, Option.bind_some]
  constructor
  · intro h
    obtain ⟨j, hj, h⟩ := Option.bind_eq_some_iff.1 h
    rw [hj]
    congr 1
    obtain ⟨h1, h2⟩ := List.getElem?_eq_some_iff.1 h
    obtain ⟨h3, h4⟩ := List.getElem?_eq_some_iff.1 hx
    exact (List.Nodup.getElem_inj_iff hnd).1 (h2.trans h4.symm)
  · intro h
    rw [h, Option.bind_some, hx]

/-- the marginal of one hyper-parameter -/
theorem marginalise_flat {tm : TM K} {ts : List K} {g : HyperGrid K} {D : List K} {name : String} {v : HVal K} {a : ℕ} (hp : Proper tm)
    (hg : createHyperGrid tm ts = .ok g) (hD : D.length = g.rows.length)
    (he : (entries tm)[a]? = some (name, v)) (hv : (valuesOf ts v).Nodup) :
    (marginalise g D ((List.range g.names.length).erase a)).1.flat = (valuesOf ts v).map (probOf g.rows D g.hgc.prod a) ∧
      (marginalise g D ((List.range g.names.length).erase a)).1.flat.sum = (D.map (· * g.hgc.prod)).sum ∧
      (1 < (entries tm).length → (List.range g.names.length).erase a ≠ []) := by
  obtain ⟨-, e2, -, e4⟩ := createHyperGrid_eq hp hg
  have ha : a < (entries tm).length := (List.getElem?_eq_some_iff.1 he).1
  have hne : entries tm ≠ [] := by intro h; rw [h] at ha; simp at ha
  rw [if_neg hne] at e4
  have hst := steps_eq hp hg
  have hlen : (axes tm ts).length = (entries tm).length := by simp [axes]
  have hD' : D.length = ((axes tm ts).map List.length).prod := by rw [hD, e4, cart_length]
  have hbs : ∀ b, b ∈ (List.range g.names.length).erase a ↔ b < (entries tm).length ∧ b ≠ a := by
    intro b
    rw [List.nodup_range.mem_erase_iff, List.mem_range, e2, List.length_map]
    tauto
  set bs := (List.range g.names.length).erase a with hbsd
  set B := (ND.reshape D ((axes tm ts).map List.length)).sumAxes bs with hB
  have hm : (marginalise g D bs).1.flat = B.flat.map (· * g.hgc.prod) := by
    unfold marginalise
    rw [scale_flat, squeeze_flat', hst]
  have hblt : ∀ b ∈ bs, b < (ND.reshape D ((axes tm ts).map List.length)).shape.length := by
    intro b hb
    simp only [ND.reshape, List.length_map, hlen]
    exact ((hbs b).1 hb).1
  obtain ⟨s1, s2⟩ := sumAxes_shape bs (ND.reshape D ((axes tm ts).map List.length))
  have hl0 : (ND.reshape D ((axes tm ts).map List.length)).shape.length = (entries tm).length := by simp [ND.reshape, hlen]
  rw [hl0] at s1 s2
  have hax := axes_get (ts := ts) he
  have hsa : B.shape[a]? = some (valuesOf ts v).length := by
    rw [s2 a ha, if_neg (by rw [hbs]; simp)]
    simp [ND.reshape, hax]
  have hso : ∀ b m, b ≠ a → B.shape[b]? = some m → m = 1 := by
    intro b m hb h
    have hblen : b < (entries tm).length := by
      rw [← s1]; exact (List.getElem?_eq_some_iff.1 h).1
    rw [s2 b hblen, if_pos ((hbs b).2 ⟨hblen, hb⟩)] at h
    exact (Option.some.inj h).symm
  have hidx := indices_one B.shape a _ hsa hso
  refine ⟨?_, ?_, ?_⟩
  · rw [hm, ND.flat, hidx, List.map_map, List.map_map]
    apply List.ext_getElem?
    intro i
    by_cases hi : i < (valuesOf ts v).length
    · rw [List.getElem?_map, List.getElem?_map, List.getElem?_range hi, List.getElem?_eq_getElem hi]
      simp only [Option.map_some, Function.comp]
      congr 1
      have hmem : (List.replicate B.shape.length 0).set a i ∈ indices B.shape := by
        rw [hidx, List.mem_map]; exact ⟨i, List.mem_range.2 hi, rfl⟩
      have hPj : ∀ idx ∈ indices B.shape, idx[a]? = some i ↔ idx = (List.replicate B.shape.length 0).set a i := by
        intro idx h
        rw [hidx, List.mem_map] at h
        obtain ⟨k, hk, rfl⟩ := h
        have hal : a < B.shape.length := by rw [s1]; exact ha
        constructor
        · intro h
          rw [List.getElem?_set_self (by simpa using hal)] at h
          rw [Option.some.inj h]
        · intro h
          rw [h, List.getElem?_set_self (by simpa using hal)]
      rw [← total_single (P := fun idx => idx[a]? = some i) (f := B.get) hmem hPj]
      rw [total_sumAxes (fun idx => idx[a]? = some i) bs _ hblt (by
        intro b hb idx j
        rw [List.getElem?_set_ne ((hbs b).1 hb).2])]
      unfold probOf
      rw [e4, rows_total (axes tm ts) D g.hgc.prod hD' (fun row => row[a]? = some (valuesOf ts v)[i]) (fun idx => idx[a]? = some i)
        (fun idx h => row_value hax hv (List.getElem?_eq_getElem hi) idx h)]
      rfl
    · rw [List.getElem?_eq_none (by simp; omega), List.getElem?_eq_none (by simp; omega)]
  · rw [hm, List.sum_map_mul_right, List.sum_map_mul_right]
    simp only [List.map_id']
    congr 1
    have h1 := total_sumAxes (fun _ => True) bs (ND.reshape D ((axes tm ts).map List.length)) hblt (by simp)
    simp only [↓reduceIte] at h1
    have h2 : B.flat.sum = total B.shape B.get := rfl
    rw [h2, h1]
    have h3 : total (ND.reshape D ((axes tm ts).map List.length)).shape (ND.reshape D ((axes tm ts).map List.length)).get =
      ((indices ((axes tm ts).map List.length)).map fun idx => D.getD (ravel ((axes tm ts).map List.length) idx) 0).sum := rfl
    rw [h3, map_ravel D _ hD']
  · intro h1
    intro h0
    obtain ⟨b, hb⟩ : ∃ b, b ∈ bs := by
      by_cases h : a = 0
      · exact ⟨1, (hbs 1).2 ⟨h1, by omega⟩⟩
      · exact ⟨0, (hbs 0).2 ⟨by omega, by omega⟩⟩
    rw [h0] at hb
    simp at hb

/-- **C34.** Every transition model with distinct hyper-parameter names, grid shape, distribution `D` and position `a` of the name: the call succeeds,
returns the values of this hyper-parameter, and for each value the total probability of all combinations with this value; the returned
probabilities have the same sum as those of all combinations. -/
theorem C34 (tm : TM K) (ts : List K) (g : HyperGrid K) (D : List K) (name : String) (v : HVal K) (a : ℕ) (hp : Proper tm)
    (hnd : ((entries tm).map (·.1)).Nodup) (hg : createHyperGrid tm ts = .ok g) (hr : 2 ≤ g.rows.length) (hD : D.length = g.rows.length)
    (he : (entries tm)[a]? = some (name, v)) (hv : (valuesOf ts v).Nodup) :
    ∃ D' A, getHPD tm g D name = (D', .ok (expandAll ts v, A)) ∧
      A.flat = (valuesOf ts v).map (probOf g.rows D g.hgc.prod a) ∧ A.flat.sum = (D.map (· * g.hgc.prod)).sum ∧
      (1 < (entries tm).length → D' = D) := by
  obtain ⟨e1, e2, -, e4⟩ := createHyperGrid_eq hp hg
  have ha : a < (entries tm).length := (List.getElem?_eq_some_iff.1 he).1
  have hne : entries tm ≠ [] := by intro h; rw [h] at ha; simp at ha
  rw [if_neg hne] at e4
  have hst := steps_eq hp hg
  have hD' : D.length = ((axes tm ts).map List.length).prod := by rw [hD, e4, cart_length]
  have hflat : g.flat[a]? = some (expandAll ts v) := by
    rw [e1, entries_values tm hp, List.getElem?_map, List.getElem?_map, he]; rfl
  obtain ⟨m1, m2, m3⟩ := marginalise_flat hp hg hD he hv
  refine ⟨(marginalise g D ((List.range g.names.length).erase a)).2, (marginalise g D ((List.range g.names.length).erase a)).1, ?_, m1, m2, ?_⟩
  · unfold getHPD
    rw [if_neg (by omega), index_of_entry hp hnd he]
    simp only [removeE]
    rw [if_pos (by rw [List.mem_range, e2, List.length_map]; exact ha)]
    simp only
    rw [if_neg (by rw [hst, hD']; simp), hflat]
  · intro h1
    exact if_neg (m3 h1)

/-- **C34 after a fit** (with the restrictions of C31): the returned probabilities sum to one. -/
theorem C34_fit_partial (I : FitIn K gs) (nJobs : ℕ) (H R : HState K gs) (g : HyperGrid K) (ps : List K) (hb : Built H.tm)
    (hnd : ((entries H.tm).map (·.1)).Nodup)
    (hsp : " " ∉ (entries H.tm).map (·.1)) (hn : H.S.prior.isArray = false) (hcell : 0 ≤ I.E.cell)
    (hg : createHyperGrid H.tm I.ts = .ok g) (hps : g.priors = some ps) (hr : 1 < g.rows.length) (hnn : ∀ p ∈ ps, 0 ≤ p)
    (h : hyperFit I nJobs H = .ok (some R)) (hpos : R.S.logEv ≠ LogV.ninf) (name : String) (v : HVal K) (a : ℕ)
    (he : (entries H.tm)[a]? = some (name, v)) (hv : (valuesOf I.ts v).Nodup) :
    ∃ D D' A, R.hpd = some D ∧ getHPD H.tm g D name = (D', .ok (expandAll I.ts v, A)) ∧
      A.flat = (valuesOf I.ts v).map (probOf g.rows D g.hgc.prod a) ∧ A.flat.sum = 1 := by
  obtain ⟨As, W, D, c1, c2, c3, c4, c5, c6, c7, c8⟩ := C31_partial I nJobs H R g ps hb hsp hn hcell hg hps hr hnn h hpos
  have hD : D.length = g.rows.length := by rw [← c5, ← c3, List.length_map]
  obtain ⟨D', A, h1, h2, h3, -⟩ := C34 H.tm I.ts g D name v a (Built.matched hb).proper hnd hg hr hD he hv
  exact ⟨D, D', A, c2, h1, h2, by rw [h3, c3, c6]⟩

/-! ## C36 -/

/-- the joint distribution for names in the order of the model -/
theorem joint_sorted (tm : TM K) (ts : List K) (g : HyperGrid K) (D : List K) (n1 n2 : String) (v1 v2 : HVal K) (a b : ℕ) (hp : Proper tm)
    (hg : createHyperGrid tm ts = .ok g) (hD : D.length = g.rows.length) (hab : a < b)
    (h1 : (entries tm)[a]? = some (n1, v1)) (h2 : (entries tm)[b]? = some (n2, v2))
    (hv1 : (valuesOf ts v1).Nodup) (hv2 : (valuesOf ts v2).Nodup) (bs : List ℕ)
    (hbs : ∀ c, c ∈ bs ↔ c < (entries tm).length ∧ c ≠ a ∧ c ≠ b) :
    (marginalise g D bs).1.shape = [(valuesOf ts v1).length, (valuesOf ts v2).length].filter (· ≠ 1) ∧
    (marginalise g D bs).1.flat =
      (valuesOf ts v1).flatMap fun x => (valuesOf ts v2).map fun y => probOf₂ g.rows D g.hgc.prod a b x y := by
  obtain ⟨e1, e2, -, e4⟩ := createHyperGrid_eq hp hg
  have ha : a < (entries tm).length := (List.getElem?_eq_some_iff.1 h1).1
  have hb : b < (entries tm).length := (List.getElem?_eq_some_iff.1 h2).1
  have hne : entries tm ≠ [] := by intro h; rw [h] at ha; simp at ha
  rw [if_neg hne] at e4
  have hst := steps_eq hp hg
  have hlen : (axes tm ts).length = (entries tm).length := by simp [axes]
  have hD' : D.length = ((axes tm ts).map List.length).prod := by rw [hD, e4, cart_length]
  set B := (ND.reshape D ((axes tm ts).map List.length)).sumAxes bs with hB
  have hm : (marginalise g D bs).1 = B.squeeze.scale g.hgc.prod := by
    unfold marginalise
    rw [hst]
  have hblt : ∀ c ∈ bs, c < (ND.reshape D ((axes tm ts).map List.length)).shape.length := by
    intro c hc
    simp only [ND.reshape, List.length_map, hlen]
    exact ((hbs c).1 hc).1
  obtain ⟨s1, s2⟩ := sumAxes_shape bs (ND.reshape D ((axes tm ts).map List.length))
  have hl0 : (ND.reshape D ((axes tm ts).map List.length)).shape.length = (entries tm).length := by simp [ND.reshape, hlen]
  rw [hl0] at s1 s2
  have hax1 := axes_get (ts := ts) h1
  have hax2 := axes_get (ts := ts) h2
  have hsa : B.shape[a]? = some (valuesOf ts v1).length := by
    rw [s2 a ha, if_neg (by rw [hbs]; simp)]
    simp [ND.reshape, hax1]
  have hsb : B.shape[b]? = some (valuesOf ts v2).length := by
    rw [s2 b hb, if_neg (by rw [hbs]; simp)]
    simp [ND.reshape, hax2]
  have hso : ∀ c m, c ≠ a → c ≠ b → B.shape[c]? = some m → m = 1 := by
    intro c m hca hcb h
    have hclen : c < (entries tm).length := by
      rw [← s1]; exact (List.getElem?_eq_some_iff.1 h).1
    rw [s2 c hclen, if_pos ((hbs c).2 ⟨hclen, hca, hcb⟩)] at h
    exact (Option.some.inj h).symm
  have hidx := indices_two B.shape a b _ _ hab hsa hsb hso
  constructor
  · rw [hm]
    exact filter_two B.shape a b _ _ hab hsa hsb hso
  · rw [hm, scale_flat, squeeze_flat', ND.flat, hidx, List.map_flatMap, List.map_flatMap, flatMap_range (l := valuesOf ts v1)]
    apply List.flatMap_congr
    intro i hi
    have hi' := List.mem_range.1 hi
    rw [List.getElem?_eq_getElem hi']
    simp only
    rw [List.map_map, List.map_map]
    apply List.ext_getElem?
    intro j
    by_cases hj : j < (valuesOf ts v2).length
    · rw [List.getElem?_map, List.getElem?_map, List.getElem?_range hj, List.getElem?_eq_getElem hj]
      simp only [Option.map_some, Function.comp]
      congr 1
      have hal : a < B.shape.length := by rw [s1]; exact ha
      have hbl : b < B.shape.length := by rw [s1]; exact hb
      have hmem : ((List.replicate B.shape.length 0).set a i).set b j ∈ indices B.shape := by
        rw [hidx, List.mem_flatMap]
        exact ⟨i, hi, List.mem_map.2 ⟨j, List.mem_range.2 hj, rfl⟩⟩
      have hget : ∀ k l : ℕ, (((List.replicate B.shape.length 0).set a k).set b l)[a]? = some k ∧
          (((List.replicate B.shape.length 0).set a k).set b l)[b]? = some l := by
        intro k l
        refine ⟨?_, ?_⟩
        · rw [List.getElem?_set_ne (by omega), List.getElem?_set_self (by simpa using hal)]
        · rw [List.getElem?_set_self (by simpa using hbl)]
      have hPj : ∀ idx ∈ indices B.shape, (idx[a]? = some i ∧ idx[b]? = some j) ↔ idx = ((List.replicate B.shape.length 0).set a i).set b j := by
        intro idx h
        rw [hidx, List.mem_flatMap] at h
        obtain ⟨k, -, h⟩ := h
        obtain ⟨l, -, rfl⟩ := List.mem_map.1 h
        rw [(hget k l).1, (hget k l).2]
        constructor
        · rintro ⟨h1, h2⟩
          rw [Option.some.inj h1, Option.some.inj h2]
        · intro h
          have h1 := (hget k l).1
          have h2 := (hget k l).2
          rw [h, (hget i j).1] at h1
          rw [h, (hget i j).2] at h2
          exact ⟨h1.symm, h2.symm⟩
      rw [← total_single (P := fun idx => idx[a]? = some i ∧ idx[b]? = some j) (f := B.get) hmem hPj]
      rw [total_sumAxes (fun idx => idx[a]? = some i ∧ idx[b]? = some j) bs _ hblt (by
        intro c hc idx k
        rw [List.getElem?_set_ne ((hbs c).1 hc).2.1, List.getElem?_set_ne ((hbs c).1 hc).2.2])]
      unfold probOf₂
      rw [e4, rows_total (axes tm ts) D g.hgc.prod hD'
        (fun row => row[a]? = some (valuesOf ts v1)[i] ∧ row[b]? = some (valuesOf ts v2)[j]) (fun idx => idx[a]? = some i ∧ idx[b]? = some j)
        (fun idx h => and_congr (row_value hax1 hv1 (List.getElem?_eq_getElem hi') idx h)
          (row_value hax2 hv2 (List.getElem?_eq_getElem hj) idx h))]
      rfl
    · rw [List.getElem?_eq_none (by simp; omega), List.getElem?_eq_none (by simp; omega)]

theorem get_of_flat (A : ND K) (n m : ℕ) (hs : A.shape = [n, m]) (f : ℕ → ℕ → K)
    (h : A.flat = (List.range n).flatMap fun i => (List.range m).map fun j => f i j) (i j : ℕ) (hi : i < n) (hj : j < m) :
    A.get [i, j] = f i j := by
  have hm : 0 < m := by omega
  have hidx : indices [n, m] = (List.range n).flatMap fun i => (List.range m).map fun j => [i, j] := by
    simp only [indices, List.map_cons, List.map_nil, cart]
    apply List.flatMap_congr
    intro i _
    rw [List.map_flatMap]
    simp only [List.map_cons, List.map_nil]
    exact List.flatMap_pure_eq_map _ _
  have h1 : A.flat = (List.range n).flatMap fun i => (List.range m).map fun j => A.get [i, j] := by
    rw [ND.flat, hs, hidx, List.map_flatMap]
    apply List.flatMap_congr
    intro i _
    rw [List.map_map]; rfl
  have key : ∀ g : ℕ → ℕ → K, ((List.range n).flatMap fun i => (List.range m).map fun j => g i j)[i * m + j]? = some (g i j) := by
    intro g
    rw [flatMap_getElem? _ m hm _ (by simp)]
    have e1 : (i * m + j) / m = i := by
      rw [Nat.add_comm, Nat.add_mul_div_right _ _ hm, Nat.div_eq_of_lt hj, Nat.zero_add]
    have e2 : (i * m + j) % m = j := by
      rw [Nat.add_comm, Nat.add_mul_mod_self_right, Nat.mod_eq_of_lt hj]
    rw [e1, e2, List.getElem?_range hi, Option.bind_some, List.getElem?_map, List.getElem?_range hj]
    rfl
  have h2 := key f
  rw [← h, h1, key fun i j => A.get [i, j]] at h2
  exact Option.some.inj h2

theorem flatMap_two (l m : List K) (f : K → K → K) : (l.flatMap fun x => m.map fun y => f x y) =
    (List.range l.length).flatMap fun i => (List.range m.length).map fun j => f (l.getD i 0) (m.getD j 0) := by
  rw [flatMap_range]
  apply List.flatMap_congr
  intro i hi
  rw [List.getElem?_eq_getElem (List.mem_range.1 hi)]
  simp only
  apply List.ext_getElem?
  intro j
  by_cases hj : j < m.length
  · rw [List.getElem?_map, List.getElem?_map, List.getElem?_range hj, List.getElem?_eq_getElem hj]
    simp [List.getD_eq_getElem?_getD, List.mem_range.1 hi, hj]
  · rw [List.getElem?_eq_none (by simp; omega), List.getElem?_eq_none (by simp; omega)]

theorem probOf₂_comm (rows : List (List K)) (D : List K) (c : K) (a b : ℕ) (x y : K) :
    probOf₂ rows D c a b x y = probOf₂ rows D c b a y x := by
  unfold probOf₂
  congr 3
  funext q
  rw [decide_eq_decide, and_comm]

theorem jointCheck_ok {ts : List K} {v w : HVal K} (hv : 2 ≤ (valuesOf ts v).length) (hw : 2 ≤ (valuesOf ts w).length) :
    jointCheck (expandAll ts v) (expandAll ts w) = .ok () := by
  cases v <;> cases w <;> simp [valuesOf, expandAll, jointCheck] at hv hw ⊢

/-- **C36 (part that holds: both hyper-parameters have at least two values).** Every number and order of hyper-parameters, grid shape and distribution: the
entry at `(i, j)` is the total probability of the combinations with the `i`-th value of the first and the `j`-th value of the second named hyper-parameter. -/
theorem C36_partial (tm : TM K) (ts : List K) (g : HyperGrid K) (D : List K) (n1 n2 : String) (v1 v2 : HVal K) (a b : ℕ) (hp : Proper tm)
    (hnd : ((entries tm).map (·.1)).Nodup) (hg : createHyperGrid tm ts = .ok g) (hr : 2 ≤ g.rows.length) (hD : D.length = g.rows.length)
    (hab : a ≠ b) (h1 : (entries tm)[a]? = some (n1, v1)) (h2 : (entries tm)[b]? = some (n2, v2))
    (hv1 : (valuesOf ts v1).Nodup) (hv2 : (valuesOf ts v2).Nodup) (hl1 : 2 ≤ (valuesOf ts v1).length) (hl2 : 2 ≤ (valuesOf ts v2).length) :
    ∃ D' Z, getJHPD tm g D [n1, n2] = (D', .ok (expandAll ts v1, expandAll ts v2, Z)) ∧
      Z.shape = [(valuesOf ts v1).length, (valuesOf ts v2).length] ∧
      (∀ (i j : ℕ) x y, (valuesOf ts v1)[i]? = some x → (valuesOf ts v2)[j]? = some y → Z.get [i, j] = probOf₂ g.rows D g.hgc.prod a b x y) ∧
      (2 < (entries tm).length → D' = D) := by
  obtain ⟨e1, e2, -, e4⟩ := createHyperGrid_eq hp hg
  have ha : a < (entries tm).length := (List.getElem?_eq_some_iff.1 h1).1
  have hb : b < (entries tm).length := (List.getElem?_eq_some_iff.1 h2).1
  have hne : entries tm ≠ [] := by intro h; rw [h] at ha; simp at ha
  rw [if_neg hne] at e4
  have hDp : D.length = (g.flat.map gridSteps).prod := by rw [steps_eq hp hg, hD, e4, cart_length]
  have hflat : ∀ (c : ℕ) n v, (entries tm)[c]? = some (n, v) → g.flat[c]? = some (expandAll ts v) := by
    intro c n v h
    rw [e1, entries_values tm hp, List.getElem?_map, List.getElem?_map, h]; rfl
  have hrem : ∀ p q, p < (entries tm).length → q < (entries tm).length → p ≠ q →
      ∃ bs, (removeE (List.range g.names.length) p).bind (fun bs => removeE bs q) = .ok bs ∧
        ∀ c, c ∈ bs ↔ c < (entries tm).length ∧ c ≠ p ∧ c ≠ q := by
    intro p q hp' hq hpq
    have hn : g.names.length = (entries tm).length := by rw [e2, List.length_map]
    refine ⟨((List.range g.names.length).erase p).erase q, ?_, fun c => ?_⟩
    · unfold removeE
      rw [if_pos (by rw [List.mem_range, hn]; exact hp')]
      simp only [Except.bind]
      rw [if_pos]
      rw [List.nodup_range.mem_erase_iff, List.mem_range, hn]
      exact ⟨hpq.symm, hq⟩
    · rw [(List.nodup_range.erase p).mem_erase_iff, List.nodup_range.mem_erase_iff, List.mem_range, hn]
      tauto
  have hD2 : ∀ bs : List ℕ, (∀ c, c ∈ bs ↔ c < (entries tm).length ∧ c ≠ a ∧ c ≠ b) → 2 < (entries tm).length → (marginalise g D bs).2 = D := by
    intro bs hbs h3
    unfold marginalise
    simp only
    rw [if_neg]
    intro h0
    obtain ⟨c, hc⟩ : ∃ c, c ∈ bs := by
      by_cases h0 : a ≠ 0 ∧ b ≠ 0
      · exact ⟨0, (hbs 0).2 ⟨by omega, h0.1.symm, h0.2.symm⟩⟩
      · by_cases h1 : a ≠ 1 ∧ b ≠ 1
        · exact ⟨1, (hbs 1).2 ⟨by omega, h1.1.symm, h1.2.symm⟩⟩
        · exact ⟨2, (hbs 2).2 ⟨by omega, by omega, by omega⟩⟩
    rw [h0] at hc
    simp at hc
  have hget : ∀ {l : List K} {i : ℕ} {x : K}, l[i]? = some x → i < l.length ∧ l.getD i 0 = x := by
    intro l i x h
    exact ⟨(List.getElem?_eq_some_iff.1 h).1, by rw [List.getD_eq_getElem?_getD, h]; rfl⟩
  rcases Nat.lt_or_gt_of_ne hab with hlt | hgt
  · obtain ⟨bs, hb1, hb2⟩ := hrem a b ha hb hab
    obtain ⟨j1, j2⟩ := joint_sorted tm ts g D n1 n2 v1 v2 a b hp hg hD hlt h1 h2 hv1 hv2 bs hb2
    have hshape : (marginalise g D bs).1.shape = [(valuesOf ts v1).length, (valuesOf ts v2).length] := by
      rw [j1, List.filter_cons_of_pos (by simp; omega), List.filter_cons_of_pos (by simp; omega)]; rfl
    refine ⟨(marginalise g D bs).2, (marginalise g D bs).1, ?_, hshape, ?_, hD2 bs hb2⟩
    · unfold getJHPD
      rw [if_neg (by omega)]
      simp only [index_of_entry hp hnd h1, index_of_entry hp hnd h2]
      simp only [hlt, decide_true, Bool.not_true, Bool.false_eq_true, ↓reduceIte, hb1, hDp, ne_eq, not_true_eq_false,
        hflat a n1 v1 h1, hflat b n2 v2 h2, jointCheck_ok hl1 hl2]
      rfl
    · intro i j x y hx hy
      obtain ⟨hi, hx'⟩ := hget hx
      obtain ⟨hj, hy'⟩ := hget hy
      rw [flatMap_two] at j2
      rw [get_of_flat _ _ _ hshape _ j2 i j hi hj, hx', hy']
  · obtain ⟨bs, hb1, hb2⟩ := hrem b a hb ha hab.symm
    obtain ⟨j1, j2⟩ := joint_sorted tm ts g D n2 n1 v2 v1 b a hp hg hD hgt h2 h1 hv2 hv1 bs hb2
    have hshape : (marginalise g D bs).1.shape = [(valuesOf ts v2).length, (valuesOf ts v1).length] := by
      rw [j1, List.filter_cons_of_pos (by simp; omega), List.filter_cons_of_pos (by simp; omega)]; rfl
    refine ⟨(marginalise g D bs).2, (marginalise g D bs).1.transpose, ?_, ?_, ?_, hD2 bs (by intro c; rw [hb2]; tauto)⟩
    · unfold getJHPD
      rw [if_neg (by omega)]
      simp only [index_of_entry hp hnd h1, index_of_entry hp hnd h2]
      have : ¬ a < b := by omega
      simp only [this, decide_false, Bool.not_false, ↓reduceIte, hb1, hDp, ne_eq, not_true_eq_false,
        hflat a n1 v1 h1, hflat b n2 v2 h2, jointCheck_ok hl2 hl1]
      rfl
    · rw [ND.transpose, hshape]; rfl
    · intro i j x y hx hy
      obtain ⟨hi, hx'⟩ := hget hx
      obtain ⟨hj, hy'⟩ := hget hy
      rw [flatMap_two] at j2
      change (marginalise g D bs).1.get [j, i] = _
      rw [get_of_flat _ _ _ hshape _ j2 j i hj hi, hx', hy', probOf₂_comm]

/-- **C36 (transposition).** Exchanging the names transposes the result. -/
theorem C36_transpose_partial (tm : TM K) (ts : List K) (g : HyperGrid K) (D : List K) (n1 n2 : String) (v1 v2 : HVal K) (a b : ℕ) (hp : Proper tm)
    (hnd : ((entries tm).map (·.1)).Nodup) (hg : createHyperGrid tm ts = .ok g) (hr : 2 ≤ g.rows.length) (hD : D.length = g.rows.length)
    (hab : a ≠ b) (h1 : (entries tm)[a]? = some (n1, v1)) (h2 : (entries tm)[b]? = some (n2, v2))
    (hv1 : (valuesOf ts v1).Nodup) (hv2 : (valuesOf ts v2).Nodup) (hl1 : 2 ≤ (valuesOf ts v1).length) (hl2 : 2 ≤ (valuesOf ts v2).length) :
    ∃ D' D'' Z Z', getJHPD tm g D [n1, n2] = (D', .ok (expandAll ts v1, expandAll ts v2, Z)) ∧
      getJHPD tm g D [n2, n1] = (D'', .ok (expandAll ts v2, expandAll ts v1, Z')) ∧
      Z.shape = [(valuesOf ts v1).length, (valuesOf ts v2).length] ∧ Z'.shape = [(valuesOf ts v2).length, (valuesOf ts v1).length] ∧
      ∀ i j, i < (valuesOf ts v1).length → j < (valuesOf ts v2).length → Z'.get [j, i] = Z.get [i, j] := by
  obtain ⟨D', Z, z1, z2, z3, -⟩ := C36_partial tm ts g D n1 n2 v1 v2 a b hp hnd hg hr hD hab h1 h2 hv1 hv2 hl1 hl2
  obtain ⟨D'', Z', y1, y2, y3, -⟩ := C36_partial tm ts g D n2 n1 v2 v1 b a hp hnd hg hr hD hab.symm h2 h1 hv2 hv1 hl2 hl1
  refine ⟨D', D'', Z, Z', z1, y1, z2, y2, fun i j hi hj => ?_⟩
  rw [z3 i j _ _ (List.getElem?_eq_getElem hi) (List.getElem?_eq_getElem hj),
    y3 j i _ _ (List.getElem?_eq_getElem hj) (List.getElem?_eq_getElem hi), probOf₂_comm]

/-- **C36 (marginals).** The sum of the joint probabilities over all values of the second hyper-parameter is the probability of the first. -/
theorem C36_marginal (tm : TM K) (ts : List K) (g : HyperGrid K) (D : List K) (n2 : String) (v2 : HVal K) (a b : ℕ) (hp : Proper tm)
    (hg : createHyperGrid tm ts = .ok g)
    (h2 : (entries tm)[b]? = some (n2, v2)) (hv2 : (valuesOf ts v2).Nodup) (x : K) :
    ((valuesOf ts v2).map fun y => probOf₂ g.rows D g.hgc.prod a b x y).sum = probOf g.rows D g.hgc.prod a x := by
  obtain ⟨-, -, -, e4⟩ := createHyperGrid_eq hp hg
  have hb : b < (entries tm).length := (List.getElem?_eq_some_iff.1 h2).1
  have hne : entries tm ≠ [] := by intro h; rw [h] at hb; simp at hb
  rw [if_neg hne] at e4
  have hrow : ∀ q ∈ g.rows.zip D, ∃ y ∈ valuesOf ts v2, q.1[b]? = some y := by
    intro q hq
    have h := (List.of_mem_zip hq).1
    rw [e4, cart_mem] at h
    have hl : q.1.length = (axes tm ts).length := h.length_eq
    have hbq : b < q.1.length := by rw [hl, axes, List.length_map]; exact hb
    refine ⟨q.1[b], ?_, List.getElem?_eq_getElem hbq⟩
    have := (List.forall₂_iff_get.1 h).2 b hbq (by rw [← hl]; exact hbq)
    have hax := axes_get (ts := ts) h2
    rw [List.getElem?_eq_some_iff] at hax
    obtain ⟨hax1, hax2⟩ := hax
    simp only [List.get_eq_getElem] at this
    rw [hax2] at this
    exact this
  unfold probOf probOf₂
  generalize g.rows.zip D = l at hrow
  generalize g.hgc.prod = c
  simp only [filter_map_sum]
  induction l with
  | nil => simp
  | cons q l ih =>
      have ih := ih fun q hq => hrow q (by simp [hq])
      simp only [List.map_cons, List.sum_cons]
      rw [List.sum_map_add, ih]
      congr 1
      obtain ⟨y, hy, hqy⟩ := hrow q (by simp)
      rw [hqy]
      by_cases hx : q.1[a]? = some x
      · simp only [hx, true_and, Option.some.injEq, ↓reduceIte]
        clear ih hrow
        generalize valuesOf ts v2 = m at hy hv2
        induction m with
        | nil => simp at hy
        | cons z m ihm =>
            rw [List.nodup_cons] at hv2
            rw [List.map_cons, List.sum_cons]
            rcases List.mem_cons.1 hy with rfl | hy
            · have : (m.map fun z => if y = z then q.2 * c else 0).sum = 0 := by
                apply List.sum_eq_zero
                intro w hw
                obtain ⟨z, hz, rfl⟩ := List.mem_map.1 hw
                rw [if_neg]
                rintro rfl
                exact hv2.1 hz
              simp [this]
            · rw [ihm hy hv2.2, if_neg (show ¬ y = z from fun h => hv2.1 (h ▸ hy)), zero_add]
      · simp [hx]

/-! ## C35 -/

end Props

namespace Spec
open BL
variable {K : Type} [Field K] [LinearOrder K]

/-- queries for hyper-parameter distributions -/
inductive HyperQuery
  | marginal (name : String)
  | joint (names : List String)

/-- what a query leaves in the study -/
def afterQuery (tm : TM K) (g : HyperGrid K) (D : List K) : HyperQuery → List K
  | .marginal n => (getHPD tm g D n).1
  | .joint ns => (getJHPD tm g D ns).1

end Spec

namespace Props
open BL Spec
variable {K : Type} [Field K] [LinearOrder K] [IsStrictOrderedRing K] {d : ℕ} {gs : Fin d → ℕ}

theorem marginalise_keep {g : HyperGrid K} {D : List K} {bs : List ℕ} (h : g.hgc.prod = 1 ∨ bs ≠ []) : (marginalise g D bs).2 = D := by
  unfold marginalise
  simp only
  rcases h with h | h
  · rw [h]; simp
  · rw [if_neg h]

/-- **C35 (part that holds).** If the grid constant is one, or there are more than two hyper-parameters, or there are two and only marginal distributions
are queried: after any sequence of successful or failing queries the stored distribution, and hence the answer to every query, is the same as before. -/
theorem C35_partial (tm : TM K) (g : HyperGrid K) (D : List K) (qs : List HyperQuery)
    (h : g.hgc.prod = 1 ∨ 2 < g.names.length ∨ (g.names.length = 2 ∧ ∀ q ∈ qs, ∃ n, q = .marginal n)) :
    qs.foldl (afterQuery tm g) D = D ∧
      (∀ n, getHPD tm g (qs.foldl (afterQuery tm g) D) n = getHPD tm g D n) ∧
      ∀ ns, getJHPD tm g (qs.foldl (afterQuery tm g) D) ns = getJHPD tm g D ns := by
  have key : qs.foldl (afterQuery tm g) D = D := by
    have hone : ∀ q ∈ qs, ∀ D, afterQuery tm g D q = D := by
      intro q hq D
      have herase : ∀ a, (List.range g.names.length).erase a = [] → g.names.length ≤ 1 := by
        intro a h0
        have := List.length_erase (a := a) (l := List.range g.names.length)
        rw [h0] at this
        simp only [List.length_nil, List.length_range] at this
        split at this <;> omega
      cases q with
      | marginal n =>
          have hk : ∀ a bs, removeE (List.range g.names.length) a = .ok bs → (marginalise g D bs).2 = D := by
            intro a bs hbs
            apply marginalise_keep
            rcases h with h | h
            · exact .inl h
            · right
              intro h0
              unfold removeE at hbs
              split at hbs
              · have := herase a (by rw [Except.ok.inj hbs, h0])
                rcases h with h | h
                · omega
                · have := h.1; omega
              · cases hbs
          change (getHPD tm g D n).1 = D
          unfold getHPD
          split
          · rfl
          · split
            · rfl
            · split
              · rfl
              · rename_i a _ _ bs hbs
                split
                · rfl
                · split
                  · rfl
                  · exact hk _ bs hbs
      | joint ns =>
          have h' : g.hgc.prod = 1 ∨ 2 < g.names.length := by
            rcases h with h | h | h
            · exact .inl h
            · exact .inr h
            · obtain ⟨n, hn⟩ := h.2 _ hq
              cases hn
          have hk : ∀ a b bs, (removeE (List.range g.names.length) a).bind (fun bs => removeE bs b) = .ok bs → (marginalise g D bs).2 = D := by
            intro a b bs hbs
            apply marginalise_keep
            rcases h' with h | h
            · exact .inl h
            · right
              intro h0
              unfold removeE at hbs
              split at hbs
              · simp only [Except.bind] at hbs
                split at hbs
                · have := Except.ok.inj hbs
                  rw [h0] at this
                  have l1 := List.length_erase (a := b) (l := (List.range g.names.length).erase a)
                  have l2 := List.length_erase (a := a) (l := List.range g.names.length)
                  rw [this] at l1
                  simp only [List.length_nil, List.length_range] at l1 l2
                  split at l1 <;> split at l2 <;> omega
                · cases hbs
              · simp [Except.bind] at hbs
          change (getJHPD tm g D ns).1 = D
          unfold getJHPD
          split
          · rfl
          · split
            · split
              · rfl
              · rfl
              · simp only
                split
                · rfl
                · rename_i bs hbs
                  split
                  · rfl
                  · split
                    · exact hk _ _ bs hbs
                    · rfl
            · rfl
    clear h
    induction qs generalizing D with
    | nil => rfl
    | cons q qs ih =>
        rw [List.foldl_cons, hone q (by simp)]
        exact ih D fun q hq => hone q (by simp [hq])
  exact ⟨key, fun n => by rw [key], fun ns => by rw [key]⟩

end Props

namespace Ex
open BL Spec

/-- two hyper-parameters with two and three values -/
def pairTM : TM ℚ := .combined [.leaf (.grw "x") ["s1"] [.array [0, 1]] (some (.item .none)),
  .leaf (.grw "x") ["s2"] [.array [0, 2, 4]] (some (.item .none))]
/-- one hyper-parameter with spacing 1/2 -/
def halfTM : TM ℚ := .leaf (.grw "x") ["s"] [.array [0, 1 / 2]] (some (.item .none))
/-- two hyper-parameters, one of them with a single value -/
def oneTM : TM ℚ := .combined [.leaf (.grw "x") ["s1"] [.array [5]] (some (.item .none)),
  .leaf (.grw "x") ["s2"] [.array [1, 2]] (some (.item .none))]

end Ex

namespace Props
open BL Spec

/-- hypotheses of C34 and C36 are met; probabilities of the second of two hyper-parameters -/
example : ∃ g, createHyperGrid Ex.pairTM [1, 2] = .ok g ∧ g.rows.length = 6 ∧ Proper Ex.pairTM ∧ ((entries Ex.pairTM).map (·.1)).Nodup ∧
    (entries Ex.pairTM)[1]? = some ("s2", .array [0, 2, 4]) ∧
    ∃ x A, (getHPD Ex.pairTM g [1 / 12, 1 / 12, 1 / 12, 1 / 12, 1 / 12, 1 / 12] "s2").2 = .ok (x, A) ∧ A.flat = [1 / 3, 1 / 3, 1 / 3] := by
  refine ⟨_, rfl, by decide +kernel, ?_, by decide, rfl, _, _, rfl, by decide +kernel⟩
  simp [Ex.pairTM, Proper, ProperAll, Plain]

/-- **C35 refuted** (one hyper-parameter, spacing not one): asking twice gives different answers, because the first query changes the stored
distribution in place. -/
theorem C35_refuted : ∃ g, createHyperGrid Ex.halfTM [1, 2] = .ok g ∧ ∃ x A y B, (getHPD Ex.halfTM g [1, 1] "s").2 = .ok (x, A) ∧
    (getHPD Ex.halfTM g (getHPD Ex.halfTM g [1, 1] "s").1 "s").2 = .ok (y, B) ∧ A.flat = [1 / 2, 1 / 2] ∧ B.flat = [1 / 4, 1 / 4] :=
  ⟨_, rfl, _, _, _, _, rfl, rfl, by decide +kernel, by decide +kernel⟩

/-- **C35 refuted** for the joint distribution of two hyper-parameters -/
theorem C35_joint_refuted : ∃ g, createHyperGrid Ex.pairTM [1, 2] = .ok g ∧
    ∃ x y A x' y' B, (getJHPD Ex.pairTM g [1 / 12, 1 / 12, 1 / 12, 1 / 12, 1 / 12, 1 / 12] ["s1", "s2"]).2 = .ok (x, y, A) ∧
    (getJHPD Ex.pairTM g (getJHPD Ex.pairTM g [1 / 12, 1 / 12, 1 / 12, 1 / 12, 1 / 12, 1 / 12] ["s1", "s2"]).1 ["s1", "s2"]).2 = .ok (x', y', B) ∧
    A.flat.sum = 1 ∧ B.flat.sum = 2 :=
  ⟨_, rfl, _, _, _, _, _, _, rfl, rfl, by decide +kernel, by decide +kernel⟩

/-- **C36 refuted** for a hyper-parameter with a single value: its axis is dropped from the result, which is no table any more. -/
theorem C36_refuted : ∃ g, createHyperGrid Ex.oneTM [1, 2] = .ok g ∧ ∃ x y A, (getJHPD Ex.oneTM g [1 / 2, 1 / 2] ["s1", "s2"]).2 = .ok (x, y, A) ∧
    A.shape = [2] :=
  ⟨_, rfl, _, _, _, rfl, by decide +kernel⟩

end Props
