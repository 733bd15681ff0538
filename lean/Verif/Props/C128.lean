import Verif.Props.C127

/-! # C128: equivalent and weaker queries -/

set_option linter.unusedSectionVars false

namespace Spec
open BL

/-- the relation with the two sides exchanged -/
def turned : Rel → Rel
  | .ge => .le
  | .gt => .lt
  | .le => .ge
  | .lt => .gt
  | .eq => .eq

end Spec

namespace BL
open Spec
variable {K : Type} [Field K] [LinearOrder K] [IsStrictOrderedRing K]

theorem xholds_turned (rel : Rel) (x y : XNum K) : XHolds (turned rel) y x ↔ XHolds rel x y := by
  cases rel <;> simp [XHolds, turned, eq_comm]

theorem xindicator_turned (rel : Rel) (x y : Option (XNum K)) : xindicator (turned rel) y x = xindicator rel x y := by
  rcases x with _ | x <;> rcases y with _ | y <;> simp [xindicator, xholds_turned]

theorem xindicator_le {rel rel' : Rel} {x y x' y' : Option (XNum K)}
    (h : (∃ a b, x = some a ∧ y = some b ∧ XHolds rel a b) → ∃ a b, x' = some a ∧ y' = some b ∧ XHolds rel' a b) : xindicator rel x y ≤ xindicator rel' x' y' := by
  have h0 : 0 ≤ xindicator rel' x' y' := by
    rcases x' with _ | x' <;> rcases y' with _ | y' <;> simp only [xindicator, le_refl]
    split_ifs <;> simp
  rcases x with _ | x
  · simpa [xindicator] using h0
  rcases y with _ | y
  · simpa [xindicator] using h0
  by_cases hh : XHolds rel x y
  · obtain ⟨a, b, rfl, rfl, h'⟩ := h ⟨x, y, rfl, rfl, hh⟩
    simp [xindicator, hh, h']
  · simpa [xindicator, hh] using h0

theorem sum_swap {α β : Type} (g : α → β → K) (a : List α) (b : List β) : (a.map fun x => (b.map fun y => g x y).sum).sum = (b.map fun y => (a.map fun x => g x y).sum).sum := by
  induction a with
  | nil => simp
  | cons x a ih => simp only [List.map_cons, List.sum_cons, ih, List.sum_map_add]

/-- the order of independent variables does not matter -/
theorem expect_perm {R : Type} [DecidableEq R] {l l' : List (R × List (K × K))} (h : l.Perm l') : ∀ (_ : (l.map (·.1)).Nodup) (f : (R → K) → K), expect l f = expect l' f := by
  induction h with
  | nil => intro _ _; rfl
  | cons a _ ih =>
      intro hn f
      obtain ⟨r, tab⟩ := a
      simp only [expect]
      congr 1
      refine List.map_congr_left fun q _ => ?_
      rw [ih (by simpa using (List.nodup_cons.1 hn).2)]
  | swap a b l =>
      intro hn f
      obtain ⟨r, tab⟩ := a
      obtain ⟨r', tab'⟩ := b
      have hne : r' ≠ r := by
        intro h
        subst h
        simp at hn
      simp only [expect, ← List.sum_map_mul_left]
      rw [sum_swap]
      congr 1
      refine List.map_congr_left fun q _ => ?_
      congr 1
      refine List.map_congr_left fun q' _ => ?_
      rw [← mul_assoc, ← mul_assoc, mul_comm q'.2]
      congr 1
      congr 1
      funext ρ
      rw [Function.update_comm hne]
  | trans h1 _ ih1 ih2 =>
      intro hn f
      rw [ih1 hn, ih2 ((h1.map _).nodup_iff.1 hn)]

end BL

namespace Props
open BL Spec
variable {K : Type} [Field K] [LinearOrder K] [IsStrictOrderedRing K]

/-- **C128 (partial), weaker statements.** Let all parameters of two queries belong to one study and one time step (or be hyper-parameters of one study and one time step).  If for all values of the parameters (with non-vanishing probability) the first statement
implies the second one, the first answer is not larger than the second one.  Infinite and undefined values as in C127. -/
theorem C128_partial (X : PExt K) (ss : List (PStudy K)) (t : Option K) (hS : Stamps ss t) (left left' : Side K) (rel rel' : Rel) (right right' : Query K)
    (k : ℕ) (hy : Bool) (τ : Option K) (V : String × Option K → List K) (w : List K) (hw : ∀ x ∈ w, 0 ≤ x) (hne : left.refs ++ right.refs ≠ []) (hne' : left'.refs ++ right'.refs ≠ [])
    (hr : ∀ r ∈ (left.refs ++ right.refs) ++ (left'.refs ++ right'.refs), Reads ss t r k hy τ (V r) w ∧ (V r).length = w.length)
    (hc : ∀ (i : ℕ) (h : i < w.length), w[i] ≠ 0 → Comparable (left.extended X fun r => (V r).getD i 0) (right.extended X fun r => (V r).getD i 0) ∧
      Comparable (left'.extended X fun r => (V r).getD i 0) (right'.extended X fun r => (V r).getD i 0) ∧
      ((∃ a b, left.extended X (fun r => (V r).getD i 0) = some a ∧ right.extended X (fun r => (V r).getD i 0) = some b ∧ XHolds rel a b) →
        ∃ a b, left'.extended X (fun r => (V r).getD i 0) = some a ∧ right'.extended X (fun r => (V r).getD i 0) = some b ∧ XHolds rel' a b))
    (n n' : ℕ) (p p' : Option K) (ha : ask X n ss t left rel right = .ok p) (ha' : ask X n' ss t left' rel' right' = .ok p') :
    ∃ x x', p = some x ∧ p' = some x' ∧ x ≤ x' := by
  refine ⟨_, _, C127_partial X ss t hS left rel right k hy τ V w hne (fun r h => hr r (List.mem_append_left _ h)) (fun i h h0 => (hc i h h0).1) n p ha,
    C127_partial X ss t hS left' rel' right' k hy τ V w hne' (fun r h => hr r (List.mem_append_right _ h)) (fun i h h0 => (hc i h h0).2.1) n' p' ha', ?_⟩
  refine Finset.sum_le_sum fun i _ => ?_
  by_cases h0 : w[i] = 0
  · rw [h0, zero_mul, zero_mul]
  · exact mul_le_mul_of_nonneg_left (xindicator_le (hc i i.2 h0).2.2) (hw _ (List.getElem_mem _))

/-- **C128 (partial), sides exchanged, parameters of one study.** `a rel b` and `b rel' a` with the relation turned round (`<` for `>`, …) have the same probability. -/
theorem C128_swap_partial (X : PExt K) (ss : List (PStudy K)) (t : Option K) (hS : Stamps ss t) (a b : Query K) (rel : Rel)
    (k : ℕ) (hy : Bool) (τ : Option K) (V : String × Option K → List K) (w : List K) (hne : a.refs ++ b.refs ≠ [])
    (hr : ∀ r ∈ a.refs ++ b.refs, Reads ss t r k hy τ (V r) w ∧ (V r).length = w.length)
    (hc : ∀ (i : ℕ) (h : i < w.length), w[i] ≠ 0 → Comparable (a.extended X fun r => (V r).getD i 0) (b.extended X fun r => (V r).getD i 0))
    (n n' : ℕ) (p p' : Option K) (ha : ask X n ss t ⟨a, []⟩ rel b = .ok p) (ha' : ask X n' ss t ⟨b, []⟩ (turned rel) a = .ok p') : p = p' := by
  have e : ∀ q : Query K, (Side.mk q []).refs = q.refs := fun q => by simp [Side.refs]
  rw [C127_partial X ss t hS ⟨a, []⟩ rel b k hy τ V w (by rwa [e]) (by rwa [e]) hc n p ha,
    C127_partial X ss t hS ⟨b, []⟩ (turned rel) a k hy τ V w (by rw [e]; intro h; apply hne; simp only [List.append_eq_nil_iff] at h ⊢; exact h.symm)
      (by rw [e]; intro r h; exact hr r (by rw [List.mem_append] at h ⊢; exact h.symm)) (fun i h h0 => by
        obtain ⟨c1, c2⟩ := hc i h h0
        exact ⟨fun h => c1 h.symm, fun h => c2 h.symm⟩) n' p' ha']
  congr 1
  refine Finset.sum_congr rfl fun i _ => ?_
  congr 1
  exact (xindicator_turned rel _ _).symm

/-- **C128 (partial), sides exchanged, separate parameters.** The same if any two parameters (or hyper-parameters) of the query belong to different studies, or are one parameter at different time steps, or are a parameter and a hyper-parameter.  Missing: different
parameters of one study at different time steps (`C128_refuted`). -/
theorem C128_swap_separate_partial (X : PExt K) (ss : List (PStudy K)) (t : Option K) (hS : Stamps ss t) (a b : Query K) (rel : Rel)
    (st : String × Option K → ℕ) (hy : String × Option K → Bool) (τ : String × Option K → Option K) (V W : String × Option K → List K) (hne : b.refs ++ a.refs ≠ [])
    (hst : (b.refs ++ a.refs).Pairwise (Separate hy τ st))
    (hr : ∀ r ∈ b.refs ++ a.refs, Reads ss t r (st r) (hy r) (τ r) (V r) (W r) ∧ (V r).length = (W r).length ∧ Dist (W r))
    (hc : ∀ ρ : String × Option K → K, (∀ r ∈ b.refs ++ a.refs, ∃ p ≠ 0, (ρ r, p) ∈ (V r).zip (W r)) → Comparable (a.extended X ρ) (b.extended X ρ))
    (n n' : ℕ) (p p' : Option K) (ha : ask X n ss t ⟨a, []⟩ rel b = .ok p) (ha' : ask X n' ss t ⟨b, []⟩ (turned rel) a = .ok p') : p = p' := by
  have e : ∀ q : Query K, (Side.mk q []).refs = q.refs := fun q => by simp [Side.refs]
  have sym : ∀ r r', Separate hy τ st r r' → Separate hy τ st r' r := by
    rintro r r' (h | h | ⟨h1, h2, h3⟩)
    · exact .inl h.symm
    · exact .inr (.inl h.symm)
    · by_cases hh : hy r = hy r'
      · exact .inr (.inr ⟨hh ▸ h1, h2.symm, h3.symm⟩)
      · exact .inr (.inl fun h => hh h.symm)
  have hperm : (b.refs ++ a.refs).Perm (a.refs ++ b.refs) := List.perm_append_comm
  have hnd : (b.refs ++ a.refs).Nodup := hst.imp fun {r r'} h heq => by
    subst heq
    rcases h with h | h | ⟨-, -, h⟩ <;> exact h rfl
  rw [C127_separate_partial X ss t hS ⟨a, []⟩ rel b st hy τ V W (by rwa [e]) (by rwa [e]) (by rwa [e]) (by rwa [e]) n p ha,
    C127_separate_partial X ss t hS ⟨b, []⟩ (turned rel) a st hy τ V W (by rw [e]; intro h; apply hne; simp only [List.append_eq_nil_iff] at h ⊢; exact h.symm)
      (by rw [e]; exact hperm.pairwise hst (fun {_ _} h => sym _ _ h)) (by rw [e]; intro r h; exact hr r (hperm.mem_iff.2 h)) (by
        rw [e]
        intro ρ h
        obtain ⟨c1, c2⟩ := hc ρ fun r hr => h r (hperm.mem_iff.1 hr)
        exact ⟨fun h => c1 h.symm, fun h => c2 h.symm⟩) n' p' ha']
  rw [e, e, expect_perm (hperm.map fun r => (r, (V r).zip (W r))) (by simpa [List.map_map, Function.comp_def] using hnd)]
  congr 2
  funext ρ
  exact (xindicator_turned rel _ _).symm

end Props

namespace Ex
open BL Spec

/-- `1/x > 5` implies `x < 1`, for two parameters of a study at the first time step -/
example (p p' : Option ℚ) (h : ask pext 10 [studyA, studyB] none ⟨.chain (.two (.num 1) .div (.at "x" 1)), []⟩ .gt (.num 5) = .ok p)
    (h' : ask pext 10 [studyA, studyB] none ⟨.at "x" 1, []⟩ .lt (.num 1) = .ok p') : ∃ x x', p = some x ∧ p' = some x' ∧ x ≤ x' := by
  refine Props.C128_partial pext [studyA, studyB] none (stampsAB _) _ _ _ _ _ _ 0 false (some 1) (fun _ => [0, 0, 1, 1]) [1/2, 1/4, 1/8, 1/8] (by norm_num) (by simp [Side.refs, Query.refs, Chain.refs]) (by simp [Side.refs, Query.refs])
    ?_ ?_ 10 10 p p' h h'
  · intro r hr
    simp [Side.refs, Query.refs, Chain.refs] at hr
    subst hr
    exact ⟨.at (s := studyA) (a := 0) (i := 0) rfl rfl rfl rfl rfl rfl rfl, rfl⟩
  · intro i hi _
    refine ⟨by simp [Comparable, Query.extended], by simp [Comparable, Query.extended], ?_⟩
    rintro ⟨a, b, h1, h2, h3⟩
    refine ⟨_, _, rfl, rfl, ?_⟩
    simp only [List.length_cons, List.length_nil] at hi
    have : ∀ i : Fin 4, xindicator (K := ℚ) .gt ((Side.mk (.chain (.two (.num 1) .div (.at "x" 1))) []).extended pext fun _ => ([0, 0, 1, 1] : List ℚ).getD i 0) (some (.num 5)) ≤
        xindicator .lt (some (.num (([0, 0, 1, 1] : List ℚ).getD i 0))) (some (.num 1)) := by decide +kernel
    have h4 := this ⟨i, hi⟩
    cases h2
    rw [h1] at h4
    by_contra h5
    have h6 : ¬ XHolds .lt (XNum.num (([0, 0, 1, 1] : List ℚ).getD i 0)) (.num 1) := h5
    simp only [xindicator, h3, h6, if_true, if_false] at h4
    norm_num at h4

/-- both are answered -/
example : ask pext 10 [studyA, studyB] none ⟨.chain (.two (.num 1) .div (.at "x" 1)), []⟩ .gt (.num 5) = .ok (some (3/4)) ∧ ask pext 10 [studyA, studyB] none ⟨.at "x" 1, []⟩ .lt (.num 1) = .ok (some (3/4)) := by
  constructor <;> decide +kernel

/-- parameters of one study -/
example (p p' : Option ℚ) (h : ask pext 10 [studyA, studyB] none ⟨.at "x" 1, []⟩ .gt (.at "y" 1) = .ok p) (h' : ask pext 10 [studyA, studyB] none ⟨.at "y" 1, []⟩ .lt (.at "x" 1) = .ok p') : p = p' := by
  refine Props.C128_swap_partial pext [studyA, studyB] none (stampsAB _) (.at "x" 1) (.at "y" 1) .gt 0 false (some 1) (fun r => if r.1 = "x" then [0, 0, 1, 1] else [0, 1, 0, 1]) [1/2, 1/4, 1/8, 1/8]
    (by simp [Query.refs]) ?_ (by intro i _ _; simp [Comparable, Query.extended]) 10 10 p p' h h'
  intro r hr
  simp [Query.refs] at hr
  rcases hr with rfl | rfl
  · exact ⟨.at (s := studyA) (a := 0) (i := 0) rfl rfl rfl rfl rfl rfl rfl, rfl⟩
  · exact ⟨.at (s := studyA) (a := 1) (i := 0) rfl rfl rfl rfl rfl rfl rfl, rfl⟩

/-- parameters of two studies -/
example (p p' : Option ℚ) (h : ask pext 10 [studyA, studyB] none ⟨.at "x" 1, []⟩ .gt (.at "z" 2) = .ok p) (h' : ask pext 10 [studyA, studyB] none ⟨.at "z" 2, []⟩ .lt (.at "x" 1) = .ok p') : p = p' := by
  refine Props.C128_swap_separate_partial pext [studyA, studyB] none (stampsAB _) (.at "x" 1) (.at "z" 2) .gt
    (fun r => if r.1 = "x" then 0 else 1) (fun _ => false) (fun r => r.2) (fun r => if r.1 = "x" then [0, 0, 1, 1] else [-1, 0, 1])
    (fun r => if r.1 = "x" then [1/2, 1/4, 1/8, 1/8] else [1/3, 1/3, 1/3]) (by simp [Query.refs]) (by simp [Query.refs, Separate]) ?_ (by intro ρ _; simp [Comparable, Query.extended]) 10 10 p p' h h'
  intro r hr
  simp [Query.refs] at hr
  rcases hr with rfl | rfl
  · exact ⟨.at (s := studyB) (a := 0) (i := 1) rfl rfl rfl rfl rfl rfl rfl, rfl, by simp, by decide +kernel⟩
  · exact ⟨.at (s := studyA) (a := 0) (i := 0) rfl rfl rfl rfl rfl rfl rfl, rfl, by simp, by norm_num⟩

/-- the four queries are answered -/
example : ask pext 10 [studyA, studyB] none ⟨.at "x" 1, []⟩ .gt (.at "y" 1) = .ok (some (1/8)) ∧ ask pext 10 [studyA, studyB] none ⟨.at "y" 1, []⟩ .lt (.at "x" 1) = .ok (some (1/8)) ∧
    ask pext 10 [studyA, studyB] none ⟨.at "x" 1, []⟩ .gt (.at "z" 2) = .ok (some (5/12)) ∧ ask pext 10 [studyA, studyB] none ⟨.at "z" 2, []⟩ .lt (.at "x" 1) = .ok (some (5/12)) := by
  refine ⟨?_, ?_, ?_, ?_⟩ <;> decide +kernel

end Ex

namespace Props
open BL Spec Ex

/-- **C128 is false for different parameters of one study at different time steps:** `x@1 < y@2` and `y@2 > x@1` say the same, but get different probabilities (the distribution of the parameter which is evaluated first is used). -/
theorem C128_refuted : Accepts [studyA] none ∧ Stamps [studyA] none ∧ ∃ p p', p ≠ p' ∧
    ask pext 10 [studyA] none ⟨.at "x" 1, []⟩ .lt (.at "y" 2) = .ok (some p) ∧ ask pext 10 [studyA] none ⟨.at "y" 2, []⟩ (turned .lt) (.at "x" 1) = .ok (some p') := by
  refine ⟨⟨⟨_, rfl⟩, _, rfl⟩, ⟨?_, ?_⟩, 1/2, 1/4, by norm_num, by decide +kernel, by decide +kernel⟩
  · intro s hs; fin_cases hs; simp [studyA]
  · intro h; simp at h

end Props
