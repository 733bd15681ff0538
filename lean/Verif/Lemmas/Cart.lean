import Verif.Model.HyperStudy
import Verif.Spec.Hyper
import Mathlib.Tactic.Ring
import Mathlib.Tactic.Linarith
import Mathlib.Algebra.BigOperators.Ring.List

/-! # Cartesian products of lists -/

set_option linter.unusedSectionVars false

namespace BL
open Spec
variable {α β : Type}

theorem flatMap_getElem? (f : α → List β) (m : ℕ) (hm : 0 < m) : ∀ (l : List α), (∀ x ∈ l, (f x).length = m) → ∀ k,
    (l.flatMap f)[k]? = (l[k / m]?).bind fun x => (f x)[k % m]?
  | [], _, k => by simp
  | x :: l, h, k => by
      have hx := h x (by simp)
      have ih := flatMap_getElem? f m hm l fun y hy => h y (by simp [hy])
      rw [List.flatMap_cons]
      by_cases hk : k < m
      · rw [List.getElem?_append_left (by omega), Nat.div_eq_of_lt hk, Nat.mod_eq_of_lt hk]
        rfl
      · rw [List.getElem?_append_right (by omega), ih, hx]
        obtain ⟨j, rfl⟩ : ∃ j, k = j + m := ⟨k - m, by omega⟩
        rw [Nat.add_sub_cancel, Nat.add_div_right _ hm, Nat.add_mod_right]
        rfl

theorem cart_length : ∀ ls : List (List α), (cart ls).length = (ls.map List.length).prod
  | [] => rfl
  | a :: r => by
      rw [cart, List.length_flatMap, List.map_cons, List.prod_cons, ← cart_length r]
      simp

theorem cart_mem : ∀ (ls : List (List α)) (row : List α), row ∈ cart ls ↔ List.Forall₂ (· ∈ ·) row ls
  | [], row => by simp [cart]
  | a :: r, row => by
      rw [cart, List.mem_flatMap]
      constructor
      · rintro ⟨x, hx, h⟩
        obtain ⟨y, hy, rfl⟩ := List.mem_map.1 h
        exact .cons hx ((cart_mem r y).1 hy)
      · intro h
        cases h with
        | cons h1 h2 => exact ⟨_, h1, List.mem_map.2 ⟨_, (cart_mem r _).2 h2, rfl⟩⟩

theorem cart_nodup : ∀ ls : List (List α), (∀ l ∈ ls, l.Nodup) → (cart ls).Nodup
  | [], _ => by simp [cart]
  | a :: r, h => by
      rw [cart, List.nodup_flatMap]
      refine ⟨fun x _ => (cart_nodup r fun l hl => h l (by simp [hl])).map (fun _ _ e => by simpa using e), ?_⟩
      refine (h a (by simp)).imp fun {x y} hxy => ?_
      intro z h1 h2
      obtain ⟨u, -, rfl⟩ := List.mem_map.1 h1
      obtain ⟨v, -, h3⟩ := List.mem_map.1 h2
      exact hxy (by simpa using (List.cons.inj h3).1.symm)

theorem digit_zero (n : ℕ) (ns : List ℕ) (k : ℕ) (h : k < n * ns.prod) : digit (n :: ns) k 0 = k / ns.prod := by
  simp only [digit, Nat.zero_add, List.drop_succ_cons, List.drop_zero, List.getElem?_cons_zero, Option.getD_some]
  exact Nat.mod_eq_of_lt (Nat.div_lt_of_lt_mul (by rwa [Nat.mul_comm] at h))

theorem digit_succ (n : ℕ) (ns : List ℕ) (k a : ℕ) (ha : a < ns.length) : digit (n :: ns) k (a + 1) = digit ns (k % ns.prod) a := by
  simp only [digit, List.drop_succ_cons, List.getElem?_cons_succ]
  have hs : ns.prod = (ns.drop (a + 1)).prod * (ns[a]?.getD 1 * (ns.take a).prod) := by
    conv_lhs => rw [← List.take_append_drop a ns, List.prod_append, List.drop_eq_getElem_cons ha, List.prod_cons]
    rw [List.getElem?_eq_getElem ha, Option.getD_some]
    ring
  rw [hs, Nat.mod_mul_right_div_self, Nat.mod_mul_right_mod]

/-- the `k`-th row -/
theorem cart_get : ∀ (ls : List (List α)) (k : ℕ), k < (ls.map List.length).prod →
    ∃ row, (cart ls)[k]? = some row ∧ row.length = ls.length ∧
      ∀ a, a < ls.length → row[a]? = (ls[a]?).bind fun l => l[digit (ls.map List.length) k a]?
  | [], k, h => by
      simp only [List.map_nil, List.prod_nil, Nat.lt_one_iff] at h
      subst h
      exact ⟨[], rfl, rfl, by simp⟩
  | a :: r, k, h => by
      rw [List.map_cons, List.prod_cons] at h
      set m := (r.map List.length).prod with hm
      have hm0 : 0 < m := by
        rcases Nat.eq_zero_or_pos m with h0 | h0
        · rw [h0] at h; simp at h
        · exact h0
      have hd : k / m < a.length := Nat.div_lt_of_lt_mul (by rwa [Nat.mul_comm])
      obtain ⟨row, h1, h2, h3⟩ := cart_get r (k % m) (Nat.mod_lt _ hm0)
      refine ⟨a[k / m] :: row, ?_, by simp [h2], ?_⟩
      · rw [cart, flatMap_getElem? _ m hm0 a (fun x _ => by simp [cart_length, hm]), List.getElem?_eq_getElem hd]
        simp only [Option.bind_some, List.getElem?_map, h1, Option.map_some]
      · intro i hi
        cases i with
        | zero =>
            rw [List.map_cons, digit_zero _ _ _ h]
            simp [hm, List.getElem?_eq_getElem hd]
        | succ i =>
            rw [List.map_cons, digit_succ _ _ _ _ (by simpa using hi), List.getElem?_cons_succ, List.getElem?_cons_succ,
              h3 i (by simpa using hi)]

theorem cart_map {f : α → β} : ∀ ls : List (List α), cart (ls.map (List.map f)) = (cart ls).map (List.map f)
  | [] => rfl
  | a :: r => by
      rw [List.map_cons, cart, cart, cart_map r, List.map_flatMap, List.flatMap_map]
      simp [Function.comp_def]

variable {K : Type} [CommSemiring K]

theorem cart_sum : ∀ ls : List (List K), ((cart ls).map List.prod).sum = (ls.map List.sum).prod
  | [] => by simp [cart]
  | a :: r => by
      rw [cart, List.map_flatMap, List.map_cons, List.prod_cons, ← cart_sum r]
      induction a with
      | nil => simp
      | cons x a ih =>
          rw [List.flatMap_cons, List.sum_append, ih, List.sum_cons, add_mul, List.map_map]
          congr 1
          rw [← List.sum_map_mul_left]
          rfl

end BL
