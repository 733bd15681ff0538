import Verif.Model.Changepoint
import Verif.Spec.Changepoint
import Verif.Lemmas.HyperAvg
import Verif.Props.C29
import Mathlib.Tactic.Ring

/-! # Change-point studies: masks, order and names of the points -/

set_option linter.unusedSectionVars false

namespace BL
open Spec
variable {K : Type} [Field K] [LinearOrder K] [IsStrictOrderedRing K] {d : ℕ} {gs : Fin d → ℕ}

theorem ordered_iff : ∀ (n : ℕ) (x : List K), x.length = n → (ordered n x = true ↔ x.Pairwise (· < ·))
  | 0, [], _ => by simp [ordered]
  | 1, [a], _ => by simp [ordered]
  | n + 2, a :: b :: l, h => by
      rw [ordered, Bool.and_eq_true, ordered_iff (n + 1) (b :: l) (by simpa using h), decide_eq_true_iff, List.pairwise_cons (a := a)]
      constructor
      · rintro ⟨h1, h2⟩
        refine ⟨fun c hc => ?_, h2⟩
        rcases List.mem_cons.1 hc with rfl | hc
        · exact h1
        · exact h1.trans ((List.pairwise_cons.1 h2).1 c hc)
      · rintro ⟨h1, h2⟩
        exact ⟨h1 b (by simp), h2⟩

theorem select_map {α : Type} (f : α → Bool) (l : List α) : select (l.map f) l = l.filter f := by
  induction l with
  | nil => rfl
  | cons a l ih =>
      cases h : f a <;> simp [select, h, ih]

/-- values that belong to accepted elements -/
theorem select_zip {α β : Type} (f : α → Bool) : ∀ (l : List α) (r : List β), r.length = l.length →
    (l.zip r).filter (fun p => f p.1) = (l.filter f).zip (select (l.map f) r)
  | [], _, _ => by simp
  | a :: l, [], h => by simp at h
  | a :: l, b :: r, h => by
      have ih := select_zip f l r (by simpa using h)
      cases hf : f a <;> simp [select, hf, ih]

theorem select_length {α β : Type} (f : α → Bool) : ∀ (l : List α) (r : List β), r.length = l.length →
    (select (l.map f) r).length = (l.filter f).length
  | [], [], _ => rfl
  | [], _ :: _, _ => by simp [select]
  | a :: l, [], h => by simp at h
  | a :: l, b :: r, h => by
      have ih := select_length f l r (by simpa using h)
      cases hf : f a <;> simp [select, hf, ih]

theorem scatter_length : ∀ (m : List Bool) (l : List K), (scatter m l).length = m.length
  | [], _ => by cases ‹List K› <;> rfl
  | true :: m, [] => by simp [scatter, scatter_length m]
  | true :: m, a :: l => by simp [scatter, scatter_length m]
  | false :: m, l => by simp [scatter, scatter_length m]

theorem scatter_sum {α : Type} (f : α → Bool) : ∀ (l : List α) (q : List K), q.length = (l.filter f).length →
    (scatter (l.map f) q).sum = q.sum
  | [], [], _ => rfl
  | [], _ :: _, h => by simp at h
  | a :: l, q, h => by
      cases hf : f a with
      | false =>
          rw [List.filter_cons_of_neg (by simp [hf])] at h
          simp [scatter, hf, scatter_sum f l q h]
      | true =>
          rw [List.filter_cons_of_pos (by simp [hf])] at h
          cases q with
          | nil => simp at h
          | cons x q => simp [scatter, hf, scatter_sum f l q (by simpa using h)]

/-- on accepted elements the scattered list is the original list -/
theorem scatter_zip {α : Type} (f : α → Bool) : ∀ (l : List α) (q : List K), q.length = (l.filter f).length →
    (l.zip (scatter (l.map f) q)).filter (fun p => f p.1) = (l.filter f).zip q
  | [], [], _ => rfl
  | [], _ :: _, h => by simp at h
  | a :: l, q, h => by
      cases hf : f a with
      | false =>
          rw [List.filter_cons_of_neg (by simp [hf])] at h
          simp [scatter, hf, scatter_zip f l q h]
      | true =>
          rw [List.filter_cons_of_pos (by simp [hf])] at h
          cases q with
          | nil => simp at h
          | cons x q => simp [scatter, hf, scatter_zip f l q (by simpa using h)]

/-- elsewhere it is zero -/
theorem scatter_zero {α : Type} (f : α → Bool) : ∀ (l : List α) (q : List K), ∀ p ∈ l.zip (scatter (l.map f) q), f p.1 = false → p.2 = 0
  | [], _, p, hp, _ => by simp at hp
  | a :: l, q, p, hp, h0 => by
      cases hf : f a with
      | false =>
          rw [List.map_cons, hf, scatter, List.zip_cons_cons, List.mem_cons] at hp
          rcases hp with rfl | hp
          · rfl
          · exact scatter_zero f l q p hp h0
      | true =>
          cases q with
          | nil =>
              rw [List.map_cons, hf, scatter, List.zip_cons_cons, List.mem_cons] at hp
              rcases hp with rfl | hp
              · rfl
              · exact scatter_zero f l [] p hp h0
          | cons x q =>
              rw [List.map_cons, hf, scatter, List.zip_cons_cons, List.mem_cons] at hp
              rcases hp with rfl | hp
              · rw [hf] at h0; cases h0
              · exact scatter_zero f l q p hp h0

theorem scatter_map (c : K) : ∀ (m : List Bool) (q : List K), (scatter m q).map (· * c) = scatter m (q.map (· * c))
  | [], _ => by cases ‹List K› <;> rfl
  | true :: m, [] => by simpa [scatter] using scatter_map c m []
  | true :: m, a :: l => by simp [scatter, scatter_map c m]
  | false :: m, l => by simp [scatter, scatter_map c m]

mutual
theorem pointNames_mem (n : String) : ∀ tm : TM K, n ∈ pointNames tm ↔ n ∈ flatten tm.cpNameTree ∨ n ∈ flatten tm.bpNameTree
  | .leaf k names vals pr => by
      cases k <;> simp [pointNames, TM.cpNameTree, TM.bpNameTree, flatten_items, flatten]
  | .combined ms => by rw [pointNames, TM.cpNameTree, TM.bpNameTree, pointNamesAll_mem n ms]
  | .serial names vals pr mask ms => by
      rw [pointNames, TM.cpNameTree, TM.bpNameTree, flatten_append, flatten_items, List.mem_append, List.mem_append, pointNamesAll_mem n ms]
      tauto
theorem pointNamesAll_mem (n : String) : ∀ ms : List (TM K),
    n ∈ pointNamesAll ms ↔ n ∈ flatten (TM.cpNameTrees ms) ∨ n ∈ flatten (TM.bpNameTrees ms)
  | [] => by simp [pointNamesAll, TM.cpNameTrees, TM.bpNameTrees, flatten]
  | m :: ms => by
      have h1 := pointNames_mem n m
      have h2 := pointNamesAll_mem n ms
      simp only [pointNamesAll, TM.cpNameTrees, TM.bpNameTrees, flatten, Nest.flat, List.mem_append, h1, h2]
      tauto
end

mutual
theorem cpNames_sub : ∀ tm : TM K, Proper tm → (flatten tm.cpNameTree).Sublist tm.flatNames
  | .leaf k names vals pr, hp => by
      rw [TM.flatNames, nameTree_leaf hp, flatten_items]
      cases k <;> first | exact List.nil_sublist _ | (rw [TM.cpNameTree, flatten_items])
  | .combined ms, hp => cpNamesAll_sub ms hp
  | .serial names vals pr mask ms, hp => by
      rw [TM.flatNames, TM.nameTree, TM.cpNameTree, flatten_append]
      exact (cpNamesAll_sub ms hp.2.2).trans (List.sublist_append_left _ _)
theorem cpNamesAll_sub : ∀ ms : List (TM K), ProperAll ms → (flatten (TM.cpNameTrees ms)).Sublist (flatten (TM.nameTrees ms))
  | [], _ => List.Sublist.refl _
  | m :: ms, hp => by
      rw [TM.cpNameTrees, TM.nameTrees, flatten, flatten, Nest.flat, Nest.flat]
      exact (cpNames_sub m hp.1).append (cpNamesAll_sub ms hp.2)
end

mutual
theorem bpNames_sub : ∀ tm : TM K, Proper tm → (flatten tm.bpNameTree).Sublist tm.flatNames
  | .leaf k names vals pr, hp => List.nil_sublist _
  | .combined ms, hp => bpNamesAll_sub ms hp
  | .serial names vals pr mask ms, hp => by
      rw [TM.flatNames, TM.nameTree, TM.bpNameTree, flatten_append, flatten_append]
      exact (bpNamesAll_sub ms hp.2.2).append (List.Sublist.refl _)
theorem bpNamesAll_sub : ∀ ms : List (TM K), ProperAll ms → (flatten (TM.bpNameTrees ms)).Sublist (flatten (TM.nameTrees ms))
  | [], _ => List.Sublist.refl _
  | m :: ms, hp => by
      rw [TM.bpNameTrees, TM.nameTrees, flatten, flatten, Nest.flat, Nest.flat]
      exact (bpNames_sub m hp.1).append (bpNamesAll_sub ms hp.2)
end

/-- in a list without repetitions, a sub-list is found by membership -/
theorem sublist_filter {α : Type} [DecidableEq α] {l r : List α} (h : l.Sublist r) (hn : r.Nodup) : r.filter (fun a => decide (a ∈ l)) = l := by
  induction h with
  | slnil => rfl
  | @cons l r a hs ih =>
      have ha : a ∉ l := fun h' => (List.nodup_cons.1 hn).1 (hs.subset h')
      rw [List.filter_cons_of_neg (by simp [ha]), ih (List.nodup_cons.1 hn).2]
  | @cons_cons l r a hs ih =>
      have ha := (List.nodup_cons.1 hn).1
      rw [List.filter_cons_of_pos (by simp)]
      congr 1
      rw [← ih (List.nodup_cons.1 hn).2]
      apply List.filter_congr
      intro b hb
      have : b ≠ a := fun h' => ha (h' ▸ hb)
      simp [ih (List.nodup_cons.1 hn).2, this]

theorem pointValues_length {names points : List String} (h : points.Sublist names) (hn : names.Nodup) {x : List K} (hx : x.length = names.length) :
    (pointValues names points x).length = points.length := by
  have h1 := sublist_filter h hn
  have h2 : (names.zip x).map (·.1) = names := List.map_fst_zip (by omega)
  rw [pointValues, List.length_map]
  conv_rhs => rw [← h1, ← h2, List.filter_map, List.length_map]
  rfl

end BL
