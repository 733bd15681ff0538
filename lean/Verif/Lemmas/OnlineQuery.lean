import Verif.Props.C43
import Verif.Props.C34

/-! # Lemmas on the queries of online studies -/

set_option linter.unusedSectionVars false

namespace BL
open Spec Props
variable {K D : Type} [Field K] [LinearOrder K] [IsStrictOrderedRing K] {d : ℕ} {gs : Fin d → ℕ}

theorem stamps_nodup (n : ℕ) : (stamps n : List K).Nodup := by
  unfold stamps
  exact List.nodup_range.map (fun a b h => by exact_mod_cast h)

theorem stamps_get (n s k : ℕ) (hk : k + s < n) : ((stamps n : List K).drop s)[k]? = some ((k + s : ℕ) : K) := by
  rw [List.getElem?_drop, stamps, List.getElem?_map, List.getElem?_range (by omega), Option.map_some, Nat.add_comm]

/-- position of a time stamp -/
theorem stamp_index (n s k : ℕ) (hk : k + s < n) : indexOf? ((stamps n : List K).drop s) ((k + s : ℕ) : K) = some k := by
  have h := stamps_get (K := K) n s k hk
  obtain ⟨hl, h⟩ := List.getElem?_eq_some_iff.1 h
  unfold indexOf?
  rw [if_pos (by rw [← h]; exact List.getElem_mem hl), ← h, List.Nodup.idxOf_getElem]
  exact (stamps_nodup n).sublist (List.drop_sublist _ _)

theorem paramIndex_some {names : Fin d → String} {name : String} (h : ∃ a, names a = name) : ∃ a, paramIndex names name = some a ∧ names a = name := by
  obtain ⟨a, ha⟩ := h
  unfold paramIndex
  have key : ∀ (l : List (Fin d)) (acc : Option (Fin d)), (∀ b, acc = some b → names b = name) → (acc ≠ none ∨ a ∈ l) →
      ∃ b, l.foldl (fun acc i => if names i = name then some i else acc) acc = some b ∧ names b = name := by
    intro l
    induction l with
    | nil =>
        intro acc h1 h2
        rcases h2 with h2 | h2
        · cases acc with
          | none => exact absurd rfl h2
          | some b => exact ⟨b, rfl, h1 b rfl⟩
        · simp at h2
    | cons i l ih =>
        intro acc h1 h2
        rw [List.foldl_cons]
        by_cases hi : names i = name
        · rw [if_pos hi]
          exact ih _ (fun b hb => by cases hb; exact hi) (Or.inl (by simp))
        · rw [if_neg hi]
          refine ih _ h1 ?_
          rcases h2 with h2 | h2
          · exact Or.inl h2
          · rcases List.mem_cons.1 h2 with rfl | h2
            · exact absurd ha hi
            · exact Or.inr h2
  exact key _ none (by simp) (Or.inr (List.mem_finRange a))

theorem findHyper_some {Ms : List (OModelSt K gs)} {name : String} {i a : ℕ} {m : OModelSt K gs} (hm : Ms[i]? = some m) (ha : m.tm.hyperIndex name = .ok a)
    (ho : ∀ j m', j ≠ i → Ms[j]? = some m' → ∃ e, m'.tm.hyperIndex name = .error e) : findHyper Ms name = some (i, a) := by
  have key : ∀ (l : List (OModelSt K gs)) (s : ℕ) (acc : Option (ℕ × ℕ)), (∀ (j : ℕ) (m' : OModelSt K gs), l[j]? = some m' → s + j ≠ i → ∃ e, m'.tm.hyperIndex name = .error e) →
      (∀ (j : ℕ) (m' : OModelSt K gs), l[j]? = some m' → s + j = i → m'.tm.hyperIndex name = .ok a) →
      (acc = some (i, a) ∨ (s ≤ i ∧ i < s + l.length)) →
      (l.zipIdx s).foldl (fun acc q => match q.1.tm.hyperIndex name with
        | .ok a => some (q.2, a)
        | .error _ => acc) acc = some (i, a) := by
    intro l
    induction l with
    | nil =>
        intro s acc _ _ h3
        rcases h3 with h3 | h3
        · exact h3
        · simp at h3; omega
    | cons b l ih =>
        intro s acc h1 h2 h3
        rw [List.zipIdx_cons, List.foldl_cons]
        apply ih (s + 1)
        · intro j m' h h'
          exact h1 (j + 1) m' (by simpa using h) (by omega)
        · intro j m' h h'
          exact h2 (j + 1) m' (by simpa using h) (by omega)
        · by_cases hs : s = i
          · subst hs
            left
            simp [h2 0 b (by simp) (by simp)]
          · obtain ⟨e, he⟩ := h1 0 b (by simp) (by simpa using hs)
            simp only [he]
            rcases h3 with h3 | h3
            · exact Or.inl h3
            · rw [List.length_cons] at h3
              right; omega
  unfold findHyper
  refine key Ms 0 none ?_ ?_ ?_
  · intro j m' h h'
    exact ho j m' (by simpa using h') h
  · intro j m' h h'
    rw [Nat.zero_add] at h'
    subst h'
    rw [hm] at h
    cases h
    exact ha
  · right
    exact ⟨by omega, by rw [Nat.zero_add]; exact (List.getElem?_eq_some_iff.1 hm).1⟩

theorem sameShape_names {tm tm' : TM K} (hp : Proper tm) (h : SameShape tm tm') : tm'.flatNames = (entries tm).map (·.1) := by
  obtain ⟨g, hg, rfl⟩ := h
  rw [entries_names _ (proper_withValues g hg tm hp), entries_withValues, List.map_map]
  rfl

theorem hyperIndex_shape {tm tm' : TM K} (hp : Proper tm) (h : SameShape tm tm') (name : String) : tm'.hyperIndex name = tm.hyperIndex name := by
  unfold TM.hyperIndex
  rw [sameShape_names hp h, entries_names tm hp]

theorem runSteps_snoc {c : OConf K D gs} {x : D} : ∀ {xs : List D} {S S' : OState K D gs}, runSteps c S (xs ++ [x]) = .ok S' →
    ∃ T, runSteps c S xs = .ok T ∧ T.step (some c) x = (S', none)
  | [], S, S', h => by
      simp only [List.nil_append, runSteps] at h
      split at h
      · cases h
      · rename_i T hT
        cases h
        exact ⟨S, rfl, hT⟩
  | y :: ys, S, S', h => by
      simp only [List.cons_append, runSteps] at h ⊢
      split at h
      · cases h
      · exact runSteps_snoc h

theorem runSteps_hist {c : OConf K D gs} {store : Bool} (h1 : 1 ≤ c.seg) {S : OState K D gs} (hi : HInv c store [] S) :
    ∀ (xs : List D) (S' : OState K D gs), runSteps c S xs = .ok S' → HInv c store xs S' := by
  intro xs
  induction xs using List.reverseRecOn with
  | nil => intro S' h; cases h; exact hi
  | append_singleton xs x ih =>
      intro S' h
      obtain ⟨T, t1, t2⟩ := runSteps_snoc h
      exact (step_hist h1 (ih T t1) t2).2

theorem setup_hist {c : OConf K D gs} {store : Bool} {prior : PriorSpec K gs} {ms : List (String × TM K)} {p : Option (List K)} {S : OState K D gs} (h1 : 1 ≤ c.seg)
    (h : setup store prior ms p = .ok S) : HInv c store [] S := by
  obtain ⟨i, -, e, -, -, a1, a2, a3, a4, a5⟩ := setup_inv h1 h
  have h0 : (if store then ([] : List D).length + 1 - c.seg else 0) = 0 := by
    cases store
    · rfl
    · simp only [↓reduceIte, List.length_nil]; omega
  refine ⟨e, i.raw, fun h => absurd rfl h, ?_, ?_, ?_, ?_, ?_⟩ <;> rw [h0]
  · rw [a1]; rfl
  · rw [a2]; rfl
  · rw [a3]; rfl
  · rw [a4]; rfl
  · rw [a5]; rfl

/-- distribution of the hyper-parameter values of a finished model -/
theorem Finished.hpd_facts {m : OModelSt K gs} (hf : Finished m) {D : List K} (h : m.hpd = some D) :
    D.length = m.hyps.length ∧ m.grid.hgc.prod ≠ 0 ∧ (D.map (· * m.grid.hgc.prod)).sum = 1 ∧ ∀ x ∈ D.map (· * m.grid.hgc.prod), 0 ≤ x := by
  obtain ⟨ps0, p1, p2, p3⟩ := hf.priors
  rw [show m.hpd = (m.finish m.tm m.hyps).hpd from congrArg OModelSt.hpd hf.eq] at h
  simp only [OModelSt.finish] at h
  cases hw : hypWeights m.hyps m.grid.priors with
  | none => simp [hw] at h
  | some w =>
      obtain ⟨es, ps, e1, e2, e3⟩ := hypWeights_some hw
      rw [p1] at e2
      cases e2
      have el : es.length = m.hyps.length := by
        have := congrArg List.length e1
        simpa using this.symm
      have ee : ∀ e ∈ es, 0 ≤ e := by
        intro e he
        have : some e ∈ m.hyps.map (fun h => h.ev.map LogV.exp) := by rw [e1]; exact List.mem_map_of_mem he
        obtain ⟨h', hh, hev⟩ := List.mem_map.1 this
        cases hv : h'.ev with
        | none => simp [hv] at hev
        | some l =>
            rw [hv] at hev
            cases hev
            exact hf.evs h' hh l hv
      simp only [hw, Option.bind_some] at h
      cases hn : normWeights w with
      | none => simp [hn] at h
      | some r =>
          have wn : ∀ x ∈ w, 0 ≤ x := by rw [e3]; exact zipWith_nonneg ee p3
          obtain ⟨n1, n2, n3⟩ := normWeights_eq wn hn
          simp only [hn, Option.bind_some] at h
          by_cases h0 : m.grid.hgc.prod = 0
          · simp [h0] at h
          · simp only [h0, ↓reduceIte, Option.some.injEq] at h
            have hr : D.map (· * m.grid.hgc.prod) = r := by
              rw [← h, List.map_map]
              conv_rhs => rw [← List.map_id r]
              apply List.map_congr_left
              intro x _
              simp only [Function.comp, id]
              field_simp
            refine ⟨?_, h0, by rw [hr]; exact n3, ?_⟩
            · rw [← h, List.length_map, n1, normalised, List.length_map, e3, List.length_zipWith, el, p2, min_self]
            · rw [hr, n1]
              intro x hx
              obtain ⟨y, hy, rfl⟩ := List.mem_map.1 hx
              exact div_nonneg (wn y hy) n2.le

/-- entries of the history of hyper-parameter distributions -/
theorem hpds_inv {c : OConf K D gs} (h1 : 1 ≤ c.seg) (hcell : 0 ≤ c.E.cell) {ms : List (String × TM K)} (hg : GoodModels ms) (hnn : NonnegPriors ms)
    (hne : ms ≠ []) {store : Bool} {prior : PriorSpec K gs} {p : Option (List K)} {S : OState K D gs} (hs : setup store prior ms p = .ok S) :
    ∀ (xs : List D) (S' : OState K D gs), runSteps c S xs = .ok S' → ∀ Ds ∈ S'.hpds, ∃ Ms : List (OModelSt K gs), Ds = Ms.map OModelSt.hpd ∧
      List.Forall₂ (fun q m => createHyperGrid q.2 [] = .ok m.grid ∧ Finished m) ms Ms := by
  intro xs
  induction xs using List.reverseRecOn with
  | nil =>
      intro S' h Ds hD
      cases h
      rw [(setup_inv h1 hs).2.2.2.2.2.2.2.1] at hD
      simp at hD
  | append_singleton xs x ih =>
      intro S' h Ds hD
      obtain ⟨T, t1, t2⟩ := runSteps_snoc h
      have hh := (step_hist h1 (runSteps_hist h1 (setup_hist h1 hs) xs T t1) t2).1.hpds
      rw [hh, List.mem_append] at hD
      rcases hD with hD | hD
      · exact ih T t1 Ds hD
      · by_cases hc : (T.store && decide (c.seg ≤ (xs ++ [x]).length)) = true
        · rw [if_pos hc, List.mem_singleton] at hD
          refine ⟨S'.models, hD, ?_⟩
          have := (online_facts h1 hcell hg hnn hne hs h (by
            rw [Bool.and_eq_true] at hc; exact of_decide_eq_true hc.2)).1
          exact this.imp fun q m h => h.2
        · rw [if_neg hc] at hD
          simp at hD

theorem Finished.len {q : String × TM K} {m : OModelSt K gs} (hb : OnePrior q.2) (hgr : createHyperGrid q.2 [] = .ok m.grid) (hf : Finished m) (hne : entries q.2 ≠ []) :
    m.hyps.length = m.grid.rows.length := by
  obtain ⟨ps, p1, p2, -⟩ := hf.priors
  rw [← p2]
  exact weights_len hb hne hgr p1

/-- summing over the values sums over everything -/
theorem sum_by_value {α : Type} (f : α → K) (w : α → K) (vals : List K) (hnd : vals.Nodup) : ∀ L : List α, (∀ q ∈ L, f q ∈ vals) →
    (vals.map fun v => (L.map fun q => if f q = v then w q else 0).sum).sum = (L.map w).sum
  | [], _ => by simp
  | q :: L, h => by
      have ih := sum_by_value f w vals hnd L fun q hq => h q (by simp [hq])
      simp only [List.map_cons, List.sum_cons]
      rw [List.sum_map_add, ih]
      congr 1
      have hq := h q (by simp)
      clear ih h
      induction vals with
      | nil => simp at hq
      | cons v vals ihv =>
          rw [List.nodup_cons] at hnd
          rw [List.map_cons, List.sum_cons]
          by_cases hv : f q = v
          · rw [if_pos hv]
            have : (vals.map fun v => if f q = v then w q else 0).sum = 0 := by
              apply List.sum_eq_zero
              intro y hy
              obtain ⟨v', hv', rfl⟩ := List.mem_map.1 hy
              rw [if_neg]
              rintro rfl
              exact hnd.1 (hv ▸ hv')
            rw [this, add_zero]
          · rw [if_neg hv, zero_add]
            exact ihv hnd.2 (by
              rcases List.mem_cons.1 hq with h | h
              · exact absurd h hv
              · exact h)

theorem sortedValues_mem {l : List K} {x : K} : x ∈ sortedValues l ↔ x ∈ l := by
  unfold sortedValues
  rw [List.mem_insertionSort, List.mem_dedup]

theorem sortedValues_sorted (l : List K) : (sortedValues l).Pairwise (· < ·) := by
  unfold sortedValues
  have h1 : (l.dedup.insertionSort (· ≤ ·)).Pairwise (· ≤ ·) := List.pairwise_insertionSort _ _
  have h2 : (l.dedup.insertionSort (· ≤ ·)).Nodup := (List.perm_insertionSort _ _).nodup_iff.2 l.nodup_dedup
  exact (h1.and h2).imp fun h => lt_of_le_of_ne h.1 h.2

theorem probOf_scale (rows : List (List K)) (D : List K) (c : K) (a : ℕ) (x : K) : probOf rows D c a x = probOf rows D 1 a x * c := by
  unfold probOf
  rw [← List.sum_map_mul_right]
  simp

/-- one row of `getHyperParameterDistributions` -/
theorem marginalRow_eq {rows : List (List K)} {D : List K} {a : ℕ} {c : K} (hlen : D.length = rows.length) (hr : ∀ r ∈ rows, a < r.length)
    (hc : (D.map (· * c)).sum = 1) :
    marginalRow rows a (sortedValues (rows.map fun r => r.getD a 0)) D =
      some ((sortedValues (rows.map fun r => r.getD a 0)).map (probOf rows D c a)) ∧
    ((sortedValues (rows.map fun r => r.getD a 0)).map (probOf rows D c a)).sum = 1 := by
  set vals := sortedValues (rows.map fun r => r.getD a 0) with hv
  have hnd : vals.Nodup := (sortedValues_sorted _).imp fun h => ne_of_lt h
  have hp : ∀ v, ((rows.zip D).map fun q => if q.1.getD a 0 = v then q.2 else 0).sum = probOf rows D 1 a v := by
    intro v
    unfold probOf
    rw [filter_map_sum]
    congr 1
    apply List.map_congr_left
    intro q hq
    have ha := hr q.1 (List.of_mem_zip hq).1
    rw [List.getElem?_eq_getElem ha, List.getD_eq_getElem?_getD, List.getElem?_eq_getElem ha]
    simp
  have hs : (vals.map (probOf rows D 1 a)).sum = D.sum := by
    have h1 := sum_by_value (fun q : List K × K => q.1.getD a 0) (fun q => q.2) vals hnd (rows.zip D) (by
      intro q hq
      rw [hv, sortedValues_mem, List.mem_map]
      exact ⟨q.1, (List.of_mem_zip hq).1, rfl⟩)
    rw [← List.map_congr_left (fun v _ => hp v), h1]
    congr 1
    exact List.map_snd_zip (by omega)
  have hc' : D.sum * c = 1 := by
    rw [← hc, List.sum_map_mul_right]; simp
  have hD0 : D.sum ≠ 0 := by rintro h; rw [h, zero_mul] at hc'; exact zero_ne_one hc'
  have he : ∀ v, probOf rows D 1 a v / D.sum = probOf rows D c a v := by
    intro v
    rw [probOf_scale rows D c, div_eq_iff hD0, mul_assoc, mul_comm c, hc', mul_one]
  refine ⟨?_, ?_⟩
  · unfold marginalRow
    simp only [hp]
    rw [hs, if_neg hD0, List.map_map]
    congr 1
    apply List.map_congr_left
    intro v _
    exact he v
  · rw [List.map_congr_left (fun v _ => probOf_scale rows D c a v), List.sum_map_mul_right, hs, hc']

end BL
