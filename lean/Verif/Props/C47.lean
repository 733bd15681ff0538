import Verif.Lemmas.ParserLoad
import Mathlib.Algebra.BigOperators.Fin
import Mathlib.Tactic.FinCases
import Mathlib.Tactic.NormNum

/-! # C47, C48: parameters of different studies and parameters of one study in queries -/

set_option linter.unusedSectionVars false

namespace BL
open Spec
variable {K : Type} [Field K] [LinearOrder K] [IsStrictOrderedRing K]

theorem sum_filter {α : Type} (l : List α) (p : α → Bool) (f : α → K) : ((l.filter p).map f).sum = (l.map fun q => if p q then f q else 0).sum := by
  induction l with
  | nil => rfl
  | cons a l ih =>
      rw [List.filter_cons]
      split
      · rename_i h; simp [ih, h]
      · rename_i h; simp [ih, h]

theorem maskedSum_eq (o : PObj K) (p : List K) (ho : o.prob = .dist p) (hl : p.length = o.vals.length) (test : FV K → Bool) :
    maskedSum o test = .ok (some ((o.vals.zip p).map fun q => if test q.1 then q.2 else 0).sum) := by
  unfold maskedSum
  rw [ho]
  simp only [hl, ne_eq, not_true_eq_false, ↓reduceIte]
  rw [sum_filter]

theorem ask_eq (X : PExt K) (n : ℕ) {ss : List (PStudy K)} {t : Option K} {ns : List String} {l : List (PObj K)} (hn : parserNames ss = .ok ns)
    (hl : loadAll ss t = .ok l) (left : Side K) (rel : Rel) (right : Query K) :
    ask X n ss t left rel right = relQuery ⟨X, ss.map PStudy.ts, l⟩ n rel left.head.tree left.rest right.tree := by
  unfold ask Parser.prob
  rw [hn, hl]; rfl

theorem reads_time {ss : List (PStudy K)} {t : Option K} {r : String × Option K} {k : ℕ} {hy : Bool} {τ : Option K} {vals probs : List K}
    (hr : Reads ss t r k hy τ vals probs) : hy = true ∨ τ.isSome := by
  cases hr <;> simp

theorem exists_ne_zero {w : List K} (hw : Dist w) : ∃ i, ∃ h : i < w.length, w[i] ≠ 0 := by
  by_contra hc
  push Not at hc
  have : w.sum = 0 := List.sum_eq_zero fun x hx => by
    obtain ⟨i, hi, rfl⟩ := List.getElem_of_mem hx
    exact hc i hi
  rw [hw.2] at this
  exact one_ne_zero this

theorem test_indicator (X : PExt K) (ρ : String × Option K → K) (ρ' : String × Option K → FV K) (left : Side K) (rel : Rel) (right : Query K)
    (hρ : ∀ r ∈ left.refs ++ right.refs, ρ' r = .fin (ρ r)) (hl : (left.value X ρ).isSome) (hr : (right.value X ρ).isSome) (p : K) :
    (if rel.test (fvQ X ρ' (.chain (reducedChain left.head left.tail right))) then p else 0) = p * indicator rel (left.value X ρ) (right.value X ρ) := by
  obtain ⟨x, hx⟩ := Option.isSome_iff_exists.1 hl
  obtain ⟨y, hy⟩ := Option.isSome_iff_exists.1 hr
  have h1 : fvQ X ρ' (.chain (reducedChain left.head left.tail right)) = .fin (x - y) := by
    rw [fvQ_congr X ρ' (fun r => .fin (ρ r))]
    · exact fv_valueC X ρ _ _ (reducedChain_value X ρ left right x y hx hy)
    · intro r hr
      apply hρ
      simp only [Query.refs, reducedChain_refs] at hr
      rw [List.mem_append] at hr ⊢
      exact hr.symm
  rw [h1, test_sub, hx, hy, indicator]
  by_cases h : Holds rel x y <;> simp [h]

theorem sum_flatMap' {α : Type} (l : List α) (f : α → List K) : (l.flatMap f).sum = (l.map fun a => (f a).sum).sum := by
  induction l with
  | nil => rfl
  | cons a l ih => rw [List.flatMap_cons, List.sum_append, ih, List.map_cons, List.sum_cons]

/-- sum over rows = iterated expectation -/
theorem expect_rows (T : String × Option K → List (K × K)) : ∀ (refs : List (String × Option K)) (f : (String × Option K → K) → K),
    expect (refs.map fun r => (r, T r)) f = ((cart (refs.map T)).map fun row => rowWeight row * f (rowEnv 0 refs row)).sum
  | [], f => by
      simp only [List.map_nil, expect, cart, List.map_cons, List.sum_cons, List.sum_nil, rowWeight, List.prod_nil, one_mul, add_zero]
      rfl
  | r :: refs, f => by
      simp only [List.map_cons, expect, cart, List.map_flatMap, List.map_map]
      rw [sum_flatMap']
      congr 1
      apply List.map_congr_left
      intro q _
      rw [expect_rows T refs, ← List.sum_map_mul_left]
      congr 1
      apply List.map_congr_left
      intro row _
      simp only [Function.comp, rowWeight, List.map_cons, List.prod_cons, mul_assoc]
      congr 3
      funext r'
      by_cases h : r' = r
      · subst h; simp [rowEnv]
      · rw [Function.update_of_ne h]
        have : (r' == r) = false := by simpa using h
        simp [rowEnv, List.lookup_cons, this]

theorem row_weight_factor {row : List (K × K)} (h : rowWeight row ≠ 0) : ∀ q ∈ row, q.2 ≠ 0 := by
  intro q hq h0
  exact h (List.prod_eq_zero (List.mem_map.2 ⟨q, hq, h0⟩))

theorem lookup_mem {refs : List (String × Option K)} {T : String × Option K → List (K × K)} {row : List (K × K)}
    (h : List.Forall₂ (· ∈ ·) row (refs.map T)) : ∀ r ∈ refs, ∃ q ∈ row, (refs.zip row).lookup r = some q ∧ q ∈ T r := by
  induction refs generalizing row with
  | nil => simp
  | cons r0 refs ih =>
      cases h with
      | cons h1 h2 =>
          rename_i q row
          intro r hr
          by_cases h : r = r0
          · subst h
            exact ⟨q, by simp, by simp, h1⟩
          · obtain ⟨q', m1, m2, m3⟩ := ih h2 r (by simpa [h] using hr)
            have : (r == r0) = false := by simpa using h
            exact ⟨q', by simp [m1], by simp [List.lookup_cons, this, m2], m3⟩

end BL

namespace Props
open BL Spec
variable {K : Type} [Field K] [LinearOrder K] [IsStrictOrderedRing K]

/-- **C47 (all separate parameters).** For every query `left rel right` in which any two parameters (or hyper-parameters) belong to different studies, or are one parameter at different
time steps, or are a parameter and a hyper-parameter, and whose two sides are defined for all
combinations of values with non-vanishing probabilities: if the recursion limit is not reached, the result is the probability of `left rel right` for independent
parameters with the distributions of their studies. -/
theorem C47_separate (X : PExt K) (ss : List (PStudy K)) (t : Option K) (hA : Accepts ss t) (hS : Stamps ss t) (left : Side K) (rel : Rel) (right : Query K)
    (st : String × Option K → ℕ) (hy : String × Option K → Bool) (τ : String × Option K → Option K) (V W : String × Option K → List K)
    (hne : right.refs ++ left.refs ≠ [])
    (hst : (right.refs ++ left.refs).Pairwise (Separate hy τ st))
    (hr : ∀ r ∈ right.refs ++ left.refs, Reads ss t r (st r) (hy r) (τ r) (V r) (W r) ∧ (V r).length = (W r).length ∧ Dist (W r))
    (hdef : ∀ ρ : String × Option K → K, (∀ r ∈ right.refs ++ left.refs, ∃ p ≠ 0, (ρ r, p) ∈ (V r).zip (W r)) →
      (left.value X ρ).isSome ∧ (right.value X ρ).isSome) :
    ∃ n0, ∀ n ≥ n0, ask X n ss t left rel right =
      .ok (some (expect ((right.refs ++ left.refs).map fun r => (r, (V r).zip (W r))) fun ρ => indicator rel (left.value X ρ) (right.value X ρ))) := by
  obtain ⟨⟨ns, hn⟩, l, hl⟩ := hA
  let E : PEnv K := ⟨X, ss.map PStudy.ts, l⟩
  let T : String × Option K → List (K × K) := fun r => (V r).zip (W r)
  let T' : String × Option K → List (FV K × K) := fun r => (T r).map fun q => (.fin q.1, q.2)
  let c := reducedChain left.head left.tail right
  have hrefs : c.refs = right.refs ++ left.refs := reducedChain_refs left right
  have hsnd : ∀ r ∈ right.refs ++ left.refs, (T' r).map (·.2) = W r := by
    intro r h
    have h2 := (hr r h).2.1
    simp only [T', T, List.map_map]
    change ((V r).zip (W r)).map Prod.snd = W r
    rw [List.map_snd_zip]; omega
  have hfst : ∀ r ∈ right.refs ++ left.refs, (T' r).map (·.1) = (V r).map .fin := by
    intro r h
    have h2 := (hr r h).2.1
    simp only [T', T, List.map_map]
    change ((V r).zip (W r)).map (FV.fin ∘ Prod.fst) = (V r).map .fin
    rw [← List.map_map, List.map_fst_zip (by omega)]
  have hG : IndepRefs E T' hy τ st c.refs := by
    rw [hrefs]
    refine ⟨hst, fun r h => ⟨⟨?_, reads_time (hr r h).1⟩, ?_⟩⟩
    · rw [hfst r h, hsnd r h]
      exact reads_ref X hn hl hS (hr r h).1
    · rw [hsnd r h]; exact (hr r h).2.2.2
  have hrows : refRows T' c.refs = (cart ((right.refs ++ left.refs).map T)).map (List.map fun q : K × K => ((.fin q.1 : FV K), q.2)) := by
    rw [refRows, hrefs]
    have : (right.refs ++ left.refs).map T' = ((right.refs ++ left.refs).map T).map (List.map fun q : K × K => ((.fin q.1 : FV K), q.2)) := by
      rw [List.map_map]; rfl
    rw [this, cart_map]
  have hwt : ∀ row : List (K × K), rowWeight (row.map fun q : K × K => ((.fin q.1 : FV K), q.2)) = rowWeight row := by
    intro row; simp only [rowWeight, List.map_map]; rfl
  -- values in a row
  have hin : ∀ row ∈ cart ((right.refs ++ left.refs).map T), rowWeight row ≠ 0 →
      ∀ r ∈ right.refs ++ left.refs, ∃ p ≠ 0, (rowEnv 0 (right.refs ++ left.refs) row r, p) ∈ (V r).zip (W r) := by
    intro row hrow hw r h
    obtain ⟨q, m1, m2, m3⟩ := lookup_mem ((cart_mem _ _).1 hrow) r h
    refine ⟨q.2, row_weight_factor hw q m1, ?_⟩
    rw [rowEnv, m2]
    exact m3
  -- some row has positive probability
  have hsum : ((cart ((right.refs ++ left.refs).map T)).map rowWeight).sum = 1 := by
    have := rows_weight_sum T' c.refs fun r h => by
      rw [hrefs] at h; rw [hsnd r h]; exact (hr r h).2.2.2
    rw [hrows, List.map_map] at this
    rw [← this]
    congr 1
    apply List.map_congr_left
    intro row _
    exact (hwt row).symm
  obtain ⟨row0, hrow0, hw0⟩ : ∃ row ∈ cart ((right.refs ++ left.refs).map T), rowWeight row ≠ 0 := by
    by_contra hc
    push Not at hc
    rw [List.sum_eq_zero] at hsum
    · exact zero_ne_one hsum
    · intro x hx
      obtain ⟨row, h1, rfl⟩ := List.mem_map.1 hx
      exact hc row h1
  have hd0 := hdef _ (hin row0 hrow0 hw0)
  obtain ⟨x0, hx0⟩ := Option.isSome_iff_exists.1 hd0.1
  obtain ⟨y0, hy0⟩ := Option.isSome_iff_exists.1 hd0.2
  refine ⟨depthC c, fun n hnn => ?_⟩
  obtain ⟨v, hv⟩ := run_totalC (indep_total E T' hy τ st) _ c (x0 - y0) hG (reducedChain_value X _ left right x0 y0 hx0 hy0) n hnn
  have hres := (indep_total E T' hy τ st).inv n (.chain c) v hG hv
  rcases hres with ⟨h0, -⟩ | ⟨hy', nm, τ', s, rfl, -⟩
  · exact absurd (hrefs ▸ h0) hne
  rw [ask_eq X n hn hl, relQuery_eq]
  change (run E n (.chain c) >>= _) = _
  rw [hv]
  simp only [bind, Except.bind]
  rw [maskedSum_eq _ _ rfl (by simp)]
  congr 2
  rw [expect_rows T]
  simp only [Query.refs, hrows, List.map_map]
  rw [List.zip_map', List.map_map]
  congr 1
  apply List.map_congr_left
  intro row hrow
  simp only [Function.comp, hwt]
  by_cases hw : rowWeight row = 0
  · simp [hw]
  have hd := hdef _ (hin row hrow hw)
  refine test_indicator X (rowEnv 0 (right.refs ++ left.refs) row) _ left rel right ?_ hd.1 hd.2 _
  intro r hr'
  have hr'' : r ∈ right.refs ++ left.refs := by rw [List.mem_append] at hr' ⊢; exact hr'.symm
  rw [hrefs]
  obtain ⟨q, m1, m2, m3⟩ := lookup_mem ((cart_mem _ _).1 hrow) r hr''
  simp only [rowEnv, m2, Option.elim_some]
  have : ∀ (a : List (String × Option K)) (row : List (K × K)), (a.zip (row.map fun q : K × K => ((.fin q.1 : FV K), q.2))).lookup r =
      ((a.zip row).lookup r).map fun q => ((.fin q.1 : FV K), q.2) := by
    intro a
    induction a with
    | nil => intro row; rfl
    | cons x a ih =>
        intro row
        cases row with
        | nil => rfl
        | cons y row =>
            simp only [List.map_cons, List.zip_cons_cons, List.lookup_cons]
            cases r == x
            · exact ih row
            · rfl
  rw [this, m2]
  rfl

/-- **C47.** For every query `left rel right` in which all parameters (or hyper-parameters) belong to different studies, and whose two sides are defined for all
combinations of values with non-vanishing probabilities: if the recursion limit is not reached, the result is the probability of `left rel right` for independent
parameters with the distributions of their studies. -/
theorem C47 (X : PExt K) (ss : List (PStudy K)) (t : Option K) (hA : Accepts ss t) (hS : Stamps ss t) (left : Side K) (rel : Rel) (right : Query K)
    (st : String × Option K → ℕ) (hy : String × Option K → Bool) (τ : String × Option K → Option K) (V W : String × Option K → List K)
    (hne : right.refs ++ left.refs ≠ [])
    (hst : (right.refs ++ left.refs).Pairwise fun r r' => st r ≠ st r')
    (hr : ∀ r ∈ right.refs ++ left.refs, Reads ss t r (st r) (hy r) (τ r) (V r) (W r) ∧ (V r).length = (W r).length ∧ Dist (W r))
    (hdef : ∀ ρ : String × Option K → K, (∀ r ∈ right.refs ++ left.refs, ∃ p ≠ 0, (ρ r, p) ∈ (V r).zip (W r)) →
      (left.value X ρ).isSome ∧ (right.value X ρ).isSome) :
    ∃ n0, ∀ n ≥ n0, ask X n ss t left rel right =
      .ok (some (expect ((right.refs ++ left.refs).map fun r => (r, (V r).zip (W r))) fun ρ => indicator rel (left.value X ρ) (right.value X ρ))) := by
  exact C47_separate X ss t hA hS left rel right st hy τ V W hne (hst.imp fun h => .inl h) hr hdef

/-- **C48 (partial).** For every query `left rel right` in which all parameters belong to one study and one time step (or all are hyper-parameters of one study
and one time step), and whose two sides are defined in all cells of the grid with non-vanishing probability: if the recursion limit is not reached, the
result is the probability of `left rel right` under the joint distribution `w` of the parameters.  Missing: parameters of one study at different time steps, and
queries which combine parameters of several studies and use a study more than once (`C48_refuted`). -/
theorem C48_partial (X : PExt K) (ss : List (PStudy K)) (t : Option K) (hA : Accepts ss t) (hS : Stamps ss t) (left : Side K) (rel : Rel) (right : Query K)
    (k : ℕ) (hy : Bool) (τ : Option K) (V : String × Option K → List K) (w : List K) (hw : Dist w) (hne : left.refs ++ right.refs ≠ [])
    (hr : ∀ r ∈ left.refs ++ right.refs, Reads ss t r k hy τ (V r) w ∧ (V r).length = w.length)
    (hdef : ∀ (i : ℕ) (h : i < w.length), w[i] ≠ 0 → (left.value X fun r => (V r).getD i 0).isSome ∧ (right.value X fun r => (V r).getD i 0).isSome) :
    ∃ n0, ∀ n ≥ n0, ask X n ss t left rel right =
      .ok (some (∑ i : Fin w.length, w[i] * indicator rel (left.value X fun r => (V r).getD i 0) (right.value X fun r => (V r).getD i 0))) := by
  obtain ⟨⟨ns, hn⟩, l, hl⟩ := hA
  let E : PEnv K := ⟨X, ss.map PStudy.ts, l⟩
  let V' : String × Option K → List (FV K) := fun r => (V r).map .fin
  let c := reducedChain left.head left.tail right
  have hrefs : c.refs = right.refs ++ left.refs := reducedChain_refs left right
  have hmem : ∀ r, r ∈ c.refs ↔ r ∈ left.refs ++ right.refs := by
    intro r; rw [hrefs, List.mem_append, List.mem_append, or_comm]
  obtain ⟨r0, hr0⟩ := List.exists_mem_of_ne_nil _ hne
  have hG : SameRefs E hy w.length w τ k V' c.refs := by
    intro r h
    have h' := hr r ((hmem r).1 h)
    exact ⟨reads_ref X hn hl hS h'.1, by simp [V', h'.2]⟩
  obtain ⟨i0, hi0, hwi0⟩ := exists_ne_zero hw
  have hd0 := hdef i0 hi0 hwi0
  obtain ⟨x0, hx0⟩ := Option.isSome_iff_exists.1 hd0.1
  obtain ⟨y0, hy0⟩ := Option.isSome_iff_exists.1 hd0.2
  have C := same_total E hy w.length w τ k V' (reads_time (hr r0 hr0).1)
  refine ⟨depthC c, fun n hnn => ?_⟩
  obtain ⟨v, hv⟩ := run_totalC C _ c (x0 - y0) hG (reducedChain_value X _ left right x0 y0 hx0 hy0) n hnn
  have hres := C.inv n (.chain c) v hG hv
  rcases hres with ⟨h0, -⟩ | ⟨nm, rfl⟩
  · exfalso
    have := (hmem r0).2 hr0
    rw [show c.refs = [] from h0] at this
    simp at this
  rw [ask_eq X n hn hl, relQuery_eq]
  change (run E n (.chain c) >>= _) = _
  rw [hv]
  simp only [bind, Except.bind]
  rw [maskedSum_eq _ _ rfl (by simp)]
  congr 2
  rw [← List.sum_ofFn]
  congr 1
  apply List.ext_getElem
  · simp
  intro i h1 h2
  simp only [List.length_ofFn] at h2
  simp only [List.getElem_map, List.getElem_zip, List.getElem_range, List.getElem_ofFn, Fin.getElem_fin]
  by_cases hz : w[i] = 0
  · simp [hz]
  have hd := hdef i h2 hz
  refine test_indicator X _ _ left rel right ?_ hd.1 hd.2 _
  intro r hr'
  have hlen := (hr r hr').2
  simp only [cellEnv, V', List.getElem?_map, List.getD_eq_getElem?_getD]
  rw [List.getElem?_eq_getElem (by omega)]
  rfl

end Props

namespace Ex
open BL Spec

/-- external functions for examples: no powers, absolute value -/
def pext : PExt ℚ where
  pow := fun _ _ => .nan
  fn := fun s => if s = "abs" then some fun v => match v with
    | .fin x => .fin |x|
    | v => v
    else none

/-- a study with two parameters on a grid of four cells, two time steps -/
def studyA : PStudy ℚ where
  names := ["x", "y"]
  values := [[0, 0, 1, 1], [0, 1, 0, 1]]
  ts := [1, 2]
  store := true
  posts := [[1/2, 1/4, 1/8, 1/8], [0, 1/2, 1/2, 0]]
  current := []
  hyper := .none

/-- a hyper-study with one parameter and one hyper-parameter -/
def studyB : PStudy ℚ where
  names := ["z"]
  values := [[-1, 0, 1]]
  ts := [1, 2]
  store := true
  posts := [[1/2, 1/4, 1/4], [1/3, 1/3, 1/3]]
  current := []
  hyper := .static [("sigma", [1, 2])] [1, 3]

theorem stampsAB (t : Option ℚ) : Stamps [studyA, studyB] t where
  nodup := by intro s hs; fin_cases hs <;> simp [studyA, studyB]
  same := by intro _ s hs s' hs'; fin_cases hs <;> fin_cases hs' <;> rfl

theorem acceptsAB : Accepts [studyA, studyB] none := ⟨⟨_, rfl⟩, _, rfl⟩

/-- `abs(z@2) + x@1 > 1/2` for the studies above -/
example : ∃ n0, ∀ n ≥ n0, ask pext n [studyA, studyB] none ⟨.fn "abs" (.at "z" 2), [(true, .at "x" 1)]⟩ .gt (.num (1/2)) = .ok (some (3/4)) := by
  have := Props.C47 pext [studyA, studyB] none acceptsAB (stampsAB _) ⟨.fn "abs" (.at "z" 2), [(true, .at "x" 1)]⟩ .gt (.num (1/2))
    (fun r => if r.1 = "x" then 0 else 1) (fun _ => false) (fun r => r.2) (fun r => if r.1 = "x" then [0, 0, 1, 1] else [-1, 0, 1])
    (fun r => if r.1 = "x" then [1/2, 1/4, 1/8, 1/8] else [1/3, 1/3, 1/3]) (by simp [Side.refs, Query.refs]) (by simp [Side.refs, Query.refs])
    (by
      intro r hr
      simp [Side.refs, Query.refs] at hr
      rcases hr with rfl | rfl
      · exact ⟨.at (s := studyB) (a := 0) (i := 1) rfl rfl rfl rfl rfl rfl rfl, rfl, by simp, by decide +kernel⟩
      · exact ⟨.at (s := studyA) (a := 0) (i := 0) rfl rfl rfl rfl rfl rfl rfl, rfl, by simp, by norm_num⟩)
    (by intro ρ _; exact ⟨rfl, rfl⟩)
  refine this.imp fun n0 h n hn => ?_
  rw [h n hn]
  decide +kernel

/-- `x@1 > x@2`: one parameter at two time steps -/
example : ∃ n0, ∀ n ≥ n0, ask pext n [studyA, studyB] none ⟨.at "x" 1, []⟩ .gt (.at "x" 2) = .ok (some (1/8)) := by
  have := Props.C47_separate pext [studyA, studyB] none acceptsAB (stampsAB _) ⟨.at "x" 1, []⟩ .gt (.at "x" 2)
    (fun _ => 0) (fun _ => false) (fun r => r.2) (fun _ => [0, 0, 1, 1])
    (fun r => if r.2 = some 1 then [1/2, 1/4, 1/8, 1/8] else [0, 1/2, 1/2, 0]) (by simp [Side.refs, Query.refs]) (by simp [Side.refs, Query.refs, Separate])
    (by
      intro r hr
      simp [Side.refs, Query.refs] at hr
      rcases hr with rfl | rfl
      · exact ⟨.at (s := studyA) (a := 0) (i := 1) rfl rfl rfl rfl rfl rfl rfl, rfl, by decide +kernel, by decide +kernel⟩
      · exact ⟨.at (s := studyA) (a := 0) (i := 0) rfl rfl rfl rfl rfl rfl rfl, rfl, by simp, by norm_num⟩)
    (by intro ρ _; exact ⟨rfl, rfl⟩)
  refine this.imp fun n0 h n hn => ?_
  rw [h n hn]
  decide +kernel

/-- `x@1 * y@1 == 0` for the study above -/
example : ∃ n0, ∀ n ≥ n0, ask pext n [studyA, studyB] none ⟨.chain (.two (.at "x" 1) .mul (.at "y" 1)), []⟩ .eq (.num 0) = .ok (some (7/8)) := by
  have := Props.C48_partial pext [studyA, studyB] none acceptsAB (stampsAB _) ⟨.chain (.two (.at "x" 1) .mul (.at "y" 1)), []⟩ .eq (.num 0)
    0 false (some 1) (fun r => if r.1 = "x" then [0, 0, 1, 1] else [0, 1, 0, 1]) [1/2, 1/4, 1/8, 1/8] ⟨by simp, by norm_num⟩ (by simp [Side.refs, Query.refs, Chain.refs])
    (by
      intro r hr
      simp [Side.refs, Query.refs, Chain.refs] at hr
      rcases hr with rfl | rfl
      · exact ⟨.at (s := studyA) (a := 0) (i := 0) rfl rfl rfl rfl rfl rfl rfl, rfl⟩
      · exact ⟨.at (s := studyA) (a := 1) (i := 0) rfl rfl rfl rfl rfl rfl rfl, rfl⟩)
    (by intro i _ _; exact ⟨rfl, rfl⟩)
  refine this.imp fun n0 h n hn => ?_
  rw [h n hn]
  decide +kernel

/-- the study above, with certainty at both time steps: `x = y = 0` at the first, `y = 1` at the second -/
def studyC : PStudy ℚ := { studyA with posts := [[1, 0, 0, 0], [0, 1, 0, 0]] }

end Ex

namespace Props
open BL Spec Ex

/-- **C48 (refuted).** (1) Different parameters of one study at different time steps: the parameter on the right gets the probabilities of the one on the left.  In
the example `x@1` is certainly 0 and `y@2` certainly 1, but `x@1 + y@2 > 1/2` gets probability 0.  (2) A study which is used twice in a query with another study: the
second occurrence is treated as independent.  In the example `z@1 + x@1 >= x@1` gets probability 35/64, while `z@1 >= 0` has probability 1/2. -/
theorem C48_refuted :
    (Accepts [studyC] none ∧ Stamps [studyC] none ∧
      (∀ i : Fin 4, (studyC.posts.getD 0 []).getD i 0 ≠ 0 → (studyC.values.getD 0 []).getD i 0 = 0) ∧
      (∀ i : Fin 4, (studyC.posts.getD 1 []).getD i 0 ≠ 0 → (studyC.values.getD 1 []).getD i 0 = 1) ∧
      ask pext 10 [studyC] none ⟨.at "x" 1, [(true, .at "y" 2)]⟩ .gt (.num (1/2)) = .ok (some 0)) ∧
    (ask pext 10 [studyA, studyB] none ⟨.at "z" 1, []⟩ .ge (.num 0) = .ok (some (1/2)) ∧
      ask pext 10 [studyA, studyB] none ⟨.at "z" 1, [(true, .at "x" 1)]⟩ .ge (.at "x" 1) = .ok (some (35/64))) := by
  refine ⟨⟨⟨⟨_, rfl⟩, _, rfl⟩, ⟨?_, ?_⟩, ?_, ?_, ?_⟩, ?_, ?_⟩
  · intro s hs; fin_cases hs; simp [studyC, studyA]
  · intro h; simp at h
  all_goals decide +kernel

end Props

namespace BL
open Spec
variable {K : Type} [Field K] [LinearOrder K] [IsStrictOrderedRing K]

/-- all pairs: values with products of probabilities -/
theorem zip_pairs (f : FV K → FV K → FV K) (b : List (FV K)) (wb : List K) (hb : b.length = wb.length) : ∀ (a : List (FV K)) (wa : List K), a.length = wa.length →
    (a.flatMap fun x => b.map fun y => f x y).zip (wa.flatMap fun x => wb.map fun y => x * y) =
      (a.zip wa).flatMap fun x => (b.zip wb).map fun y => (f x.1 y.1, x.2 * y.2)
  | [], wa, _ => by simp
  | x :: a, [], h => by simp at h
  | x :: a, u :: wa, h => by
      rw [List.flatMap_cons, List.flatMap_cons, List.zip_append (by simp [hb]), zip_pairs f b wb hb a wa (by simpa using h), List.zip_cons_cons, List.flatMap_cons, List.zip_map]
      rfl

end BL

namespace Props
open BL Spec
variable {K : Type} [Field K] [LinearOrder K] [IsStrictOrderedRing K]

/-- **C47, a single operation.** If an arithmetic operation on two (hyper-)parameters of different studies with probability distributions succeeds, then it yields every pair of values with the
product of the probabilities, and these are a probability distribution; it belongs to neither of the studies. -/
theorem C47_operation (E : PEnv K) (o : Arith) (a b : PObj K) (wa wb : List K) (ha : a.prob = .dist wa) (hb : b.prob = .dist wb) (da : Dist wa) (db : Dist wb)
    (la : a.vals.length = wa.length) (lb : b.vals.length = wb.length) (hst : a.study ≠ b.study) (v : PVal K)
    (h : operate E o.op (.obj a) (.obj b) = .ok v) :
    ∃ r w, v = .obj r ∧ r.prob = .dist w ∧ r.study = none ∧ Dist w ∧
      r.vals.zip w = (a.vals.zip wa).flatMap fun x => (b.vals.zip wb).map fun y => (fvOp E.ext o x.1 y.1, x.2 * y.2) := by
  rw [operate_arith] at h
  have hs : (wa.flatMap fun x => wb.map fun y => x * y).sum = 1 := by rw [sum_prod_pairs, da.2, db.2, mul_one]
  rcases arithOp_obj_obj h with ⟨-, rfl⟩ | ⟨hc, -⟩
  · refine ⟨_, wa.flatMap fun x => wb.map fun y => x * y, rfl, ?_, rfl, ⟨?_, hs⟩, zip_pairs _ _ _ lb _ _ la⟩
    · simp [compoundOp, productProb, ha, hb, Prob.flat, hs]
    · intro x hx
      obtain ⟨y, hy, hx⟩ := List.mem_flatMap.1 hx
      obtain ⟨z, hz, rfl⟩ := List.mem_map.1 hx
      exact mul_nonneg (da.1 y hy) (db.1 z hz)
  · exfalso
    revert hc
    unfold compound
    cases a.hyper <;> cases b.hyper <;> simp [hst]

/-- the hypotheses are met: `x@1 * y@1` -/
example : operate (K := ℚ) ⟨Ex.pext, [[1], [1]], []⟩ Arith.mul.op (.obj ⟨false, [.fin 1, .fin 2], .dist [1/4, 3/4], some "x", some 1, some 0⟩)
    (.obj ⟨false, [.fin 3, .fin 5], .dist [1/2, 1/2], some "y", some 1, some 1⟩) =
    .ok (.obj ⟨false, [.fin 3, .fin 5, .fin 6, .fin 10], .dist [1/8, 1/8, 3/8, 3/8], none, none, none⟩) := by decide +kernel

end Props
