import Verif.Spec.Grammar
import Mathlib.Tactic.Ring
import Mathlib.Tactic.Linarith

/-! # Lemmas on the grammar: amount of text consumed, independence of the bounds -/

set_option linter.unusedSectionVars false

namespace BL
open Spec

theorem skip_le (s : List Char) : (skip s).length ≤ s.length := by
  unfold skip
  exact (List.dropWhile_suffix _).length_le

theorem longest_mem : ∀ {l : List (List Char)} {w : List Char}, longest l = some w → w ∈ l
  | [], w, h => by simp [longest] at h
  | v :: l, w, h => by
      simp only [longest] at h
      cases hl : longest l with
      | none => simp only [hl, Option.some.injEq] at h; simp [h]
      | some u =>
          simp only [hl] at h
          split at h
          · simp only [Option.some.injEq] at h; simp [h]
          · simp only [Option.some.injEq] at h; subst h
            exact List.mem_cons_of_mem _ (longest_mem hl)

theorem longest_none : ∀ {l : List (List Char)}, longest l = none ↔ l = []
  | [] => by simp [longest]
  | v :: l => by
      simp only [longest]
      cases longest l with
      | none => simp
      | some u => simp only []; split <;> simp

theorem longest_le : ∀ {l : List (List Char)} {w : List Char}, longest l = some w → ∀ v ∈ l, v.length ≤ w.length
  | [], w, h => by simp
  | u :: l, w, h => by
      intro v hv
      simp only [longest] at h
      cases hl : longest l with
      | none =>
          simp only [hl, Option.some.injEq] at h
          rw [longest_none.1 hl] at hv
          simp only [List.mem_singleton] at hv
          rw [hv, h]
      | some x =>
          have ih := longest_le hl
          simp only [hl] at h
          split at h
          · rename_i hx
            simp only [Option.some.injEq] at h; subst h
            rcases List.mem_cons.1 hv with rfl | hv
            · exact le_refl _
            · exact (ih v hv).trans hx
          · rename_i hx
            simp only [Option.some.injEq] at h; subst h
            rcases List.mem_cons.1 hv with rfl | hv
            · exact (not_le.1 hx).le
            · exact ih v hv

theorem oneOf_some {l : List (List Char)} {s w r : List Char} (h : oneOf l s = some (w, r)) : w ∈ l ∧ skip s = w ++ r ∧ ∀ v ∈ l, v <+: skip s → v.length ≤ w.length := by
  unfold oneOf at h
  split at h
  · cases h
  · rename_i v hv
    simp only [Option.some.injEq, Prod.mk.injEq] at h
    obtain ⟨rfl, rfl⟩ := h
    have hm := longest_mem hv
    simp only [List.mem_filter, List.isPrefixOf_iff_prefix] at hm
    refine ⟨hm.1, ?_, ?_⟩
    · obtain ⟨t, ht⟩ := hm.2
      rw [← ht]; simp
    · intro u hu hp
      exact longest_le hv u (by simp [List.mem_filter, hu, hp])

theorem oneOf_none {l : List (List Char)} {s : List Char} : oneOf l s = none ↔ ∀ v ∈ l, ¬ v <+: skip s := by
  unfold oneOf
  split
  · rename_i h
    rw [longest_none, List.filter_eq_nil_iff] at h
    simp only [List.isPrefixOf_iff_prefix] at h
    exact ⟨fun _ => h, fun _ => rfl⟩
  · rename_i w h
    have hm := longest_mem h
    simp only [List.mem_filter, List.isPrefixOf_iff_prefix] at hm
    exact ⟨(fun h => by cases h), (fun h => absurd hm.2 (h w hm.1))⟩

/-- the longest candidate is found -/
theorem oneOf_eq {l : List (List Char)} {s w r : List Char} (hw : w ∈ l) (hs : skip s = w ++ r) (hm : ∀ v ∈ l, v <+: skip s → v.length ≤ w.length) : oneOf l s = some (w, r) := by
  cases h : oneOf l s with
  | none => exact absurd (⟨r, hs.symm⟩ : w <+: skip s) (oneOf_none.1 h w hw)
  | some q =>
      obtain ⟨v, r'⟩ := q
      obtain ⟨h1, h2, h3⟩ := oneOf_some h
      have a1 := h3 w hw ⟨r, hs.symm⟩
      have a2 := hm v h1 ⟨r', h2.symm⟩
      have : w = v := (List.append_inj (hs.symm.trans h2) (le_antisymm a1 a2)).1
      subst this
      rw [hs] at h2
      rw [List.append_cancel_left h2]

theorem oneOf_len {l : List (List Char)} (hl : [] ∉ l) {s w r : List Char} (h : oneOf l s = some (w, r)) : r.length < s.length := by
  obtain ⟨h1, h2, -⟩ := oneOf_some h
  have := skip_le s
  rw [h2, List.length_append] at this
  have : w ≠ [] := fun h => hl (h ▸ h1)
  have : 0 < w.length := List.length_pos_iff.2 this
  omega

theorem oneOf_skip {l : List (List Char)} {s s' : List Char} (h : skip s = skip s') : oneOf l s = oneOf l s' := by
  unfold oneOf; rw [h]

theorem literal_some {w s r : List Char} (h : literal w s = some r) : skip s = w ++ r := by
  unfold literal at h
  split at h
  · rename_i hp
    simp only [Option.some.injEq] at h
    rw [List.isPrefixOf_iff_prefix] at hp
    obtain ⟨t, ht⟩ := hp
    rw [← h, ← ht]; simp
  · cases h

theorem literal_eq {w s r : List Char} (h : skip s = w ++ r) : literal w s = some r := by
  unfold literal
  rw [h, if_pos (by rw [List.isPrefixOf_iff_prefix]; exact ⟨r, rfl⟩)]
  simp

theorem literal_len {w s r : List Char} (h : literal w s = some r) : r.length + w.length ≤ s.length := by
  have h1 := literal_some h
  have := skip_le s
  rw [h1, List.length_append] at this
  omega

theorem fraction_le (s : List Char) : (fraction s).2.length ≤ s.length := by
  unfold fraction
  split
  · simp only [List.length_cons]
    exact (List.dropWhile_suffix _).length_le.trans (Nat.le_succ _)
  · exact le_refl _

theorem exponent_le (s : List Char) : (exponent s).2.length ≤ s.length := by
  unfold exponent
  split
  · split
    · simp only [List.length_cons]
      exact (List.dropWhile_suffix _).length_le.trans (by omega)
    · exact le_refl _
  · exact le_refl _

theorem number_len {s w r : List Char} (h : number s = some (w, r)) : r.length < s.length := by
  unfold number at h
  have hs := skip_le s
  split at h
  · cases h
  · rename_i c t ht
    rw [ht, List.length_cons] at hs
    split at h
    · simp only [Option.some.injEq, Prod.mk.injEq] at h
      rw [← h.2]
      have h1 : (t.dropWhile isNum).length ≤ t.length := (List.dropWhile_suffix _).length_le
      have h2 := fraction_le (t.dropWhile isNum)
      have h3 := exponent_le (fraction (t.dropWhile isNum)).2
      omega
    · cases h

theorem many_le {op : List Char → Option (List Char × List Char)} {arg : List Char → Option (STree × List Char)} (hop : ∀ s o r, op s = some (o, r) → r.length < s.length)
    (harg : ∀ s t r, arg s = some (t, r) → r.length < s.length) : ∀ (n : ℕ) (s : List Char), (many op arg n s).2.length ≤ s.length
  | 0, s => le_refl _
  | n + 1, s => by
      simp only [many]
      cases h : op s with
      | none => exact le_refl _
      | some q =>
          obtain ⟨o, r⟩ := q
          simp only []
          cases h' : arg r with
          | none => exact le_refl _
          | some p =>
              obtain ⟨t, r'⟩ := p
              simp only []
              have := many_le hop harg n r'
              have := hop s o r h
              have := harg r t r' h'
              omega

/-- the operators of the levels are not empty -/
theorem ops_ne : ([] : List Char) ∉ [['@']] ∧ ([] : List Char) ∉ [['^']] ∧ ([] : List Char) ∉ [['+'], ['-']] ∧ ([] : List Char) ∉ [['*'], ['/']] := by simp

theorem base_len {names : List (List Char)} (hn : [] ∉ names) {ret : List Char → Option (STree × List Char)} (hr : ∀ s t r, ret s = some (t, r) → r.length < s.length) {s : List Char} {t : STree}
    {r : List Char} (h : base names ret s = some (t, r)) : r.length < s.length := by
  unfold base at h
  split at h
  · rename_i w r' hw
    simp only [Option.some.injEq, Prod.mk.injEq] at h
    rw [← h.2]; exact oneOf_len hn hw
  · split at h
    · rename_i w r' hw
      simp only [Option.some.injEq, Prod.mk.injEq] at h
      rw [← h.2]; exact number_len hw
    · split at h
      · cases h
      · rename_i r1 h1
        split at h
        · cases h
        · rename_i t1 r2 h2
          split at h
          · cases h
          · rename_i r3 h3
            simp only [Option.some.injEq, Prod.mk.injEq] at h
            rw [← h.2]
            have a1 := literal_len h1
            have a2 := hr _ _ _ h2
            have a3 := literal_len h3
            simp only [List.length_cons, List.length_nil] at a1 a3
            omega

theorem prefixed_len {op : List Char → Option (List Char × List Char)} {this last : List Char → Option (STree × List Char)} (hop : ∀ s o r, op s = some (o, r) → r.length < s.length)
    (ht : ∀ s t r, this s = some (t, r) → r.length < s.length) (hl : ∀ s t r, last s = some (t, r) → r.length < s.length) {s : List Char} {t : STree} {r : List Char}
    (h : prefixed op this last s = some (t, r)) : r.length < s.length := by
  unfold prefixed at h
  split at h
  · exact hl _ _ _ h
  · rename_i o r1 h1
    split at h
    · exact hl _ _ _ h
    · rename_i t2 r2 h2
      simp only [Option.some.injEq, Prod.mk.injEq] at h
      rw [← h.2]
      have := hop _ _ _ h1
      have := ht _ _ _ h2
      omega

theorem infixed_len {op : List Char → Option (List Char × List Char)} {arg last : List Char → Option (STree × List Char)} (hop : ∀ s o r, op s = some (o, r) → r.length < s.length)
    (ht : ∀ s t r, arg s = some (t, r) → r.length < s.length) (hl : ∀ s t r, last s = some (t, r) → r.length < s.length) {s : List Char} {t : STree} {r : List Char}
    (h : infixed op arg last s = some (t, r)) : r.length < s.length := by
  unfold infixed at h
  split at h
  · cases h
  · rename_i t1 r1 h1
    have a1 := hl _ _ _ h1
    have a2 := many_le hop ht r1.length r1
    split at h
    · simp only [Option.some.injEq, Prod.mk.injEq] at h
      rw [← h.2]; exact a1
    · rename_i l r2 h2 h3
      simp only [Option.some.injEq, Prod.mk.injEq] at h
      rw [h3] at a2
      rw [← h.2]
      simp only at a2
      omega

theorem level_len {names fs : List (List Char)} (hn : [] ∉ names) (hf : [] ∉ fs) : ∀ (n k : ℕ) (s : List Char) (t : STree) (r : List Char), level names fs n k s = some (t, r) → r.length < s.length := by
  obtain ⟨o1, o2, o3, o4⟩ := ops_ne
  intro n
  induction n with
  | zero => intro k s t r h; simp [level] at h
  | succ n ih =>
      intro k s t r h
      match k, h with
      | 0, h => exact base_len hn (ih 6) h
      | 1, h => exact prefixed_len (fun _ _ _ => oneOf_len hf) (ih 1) (ih 0) h
      | 2, h => exact infixed_len (fun _ _ _ => oneOf_len o1) (ih 1) (ih 1) h
      | 3, h => exact infixed_len (fun _ _ _ => oneOf_len o2) (ih 3) (ih 2) h
      | 4, h => exact prefixed_len (fun _ _ _ => oneOf_len o3) (ih 4) (ih 3) h
      | 5, h => exact infixed_len (fun _ _ _ => oneOf_len o4) (ih 4) (ih 4) h
      | k + 6, h => exact infixed_len (fun _ _ _ => oneOf_len o3) (ih 5) (ih 5) h

/-- `many` reads only shorter texts -/
theorem many_congr {op : List Char → Option (List Char × List Char)} {arg arg' : List Char → Option (STree × List Char)} (hop : ∀ s o r, op s = some (o, r) → r.length < s.length)
    (harg : ∀ s t r, arg s = some (t, r) → r.length < s.length) : ∀ (n : ℕ) (s : List Char), (∀ r : List Char, r.length < s.length → arg r = arg' r) → many op arg n s = many op arg' n s
  | 0, s, _ => rfl
  | n + 1, s, h => by
      simp only [many]
      cases h1 : op s with
      | none => rfl
      | some q =>
          obtain ⟨o, r⟩ := q
          have h2 := hop s o r h1
          simp only []
          rw [← h r h2]
          cases h3 : arg r with
          | none => rfl
          | some p =>
              obtain ⟨t, r'⟩ := p
              have h4 := harg r t r' h3
              simp only []
              rw [many_congr hop harg n r' fun x hx => h x (by omega)]

/-- the bound of `many` is large enough -/
theorem many_bound {op : List Char → Option (List Char × List Char)} {arg : List Char → Option (STree × List Char)} (hop : ∀ s o r, op s = some (o, r) → r.length < s.length)
    (harg : ∀ s t r, arg s = some (t, r) → r.length < s.length) : ∀ (n m : ℕ) (s : List Char), s.length ≤ n → s.length ≤ m → many op arg n s = many op arg m s
  | 0, 0, s, _, _ => rfl
  | 0, m + 1, s, hn, _ => by
      simp only [many]
      cases h1 : op s with
      | none => rfl
      | some q => have := hop s q.1 q.2 h1; omega
  | n + 1, 0, s, _, hm => by
      simp only [many]
      cases h1 : op s with
      | none => rfl
      | some q => have := hop s q.1 q.2 h1; omega
  | n + 1, m + 1, s, hn, hm => by
      simp only [many]
      cases h1 : op s with
      | none => rfl
      | some q =>
          obtain ⟨o, r⟩ := q
          simp only []
          have h2 := hop s o r h1
          cases h3 : arg r with
          | none => rfl
          | some p =>
              obtain ⟨t, r'⟩ := p
              have h4 := harg r t r' h3
              simp only []
              rw [many_bound hop harg n m r' (by omega) (by omega)]

theorem base_congr {names : List (List Char)} {ret ret' : List Char → Option (STree × List Char)} {s : List Char} (h : ∀ r : List Char, r.length < s.length → ret r = ret' r) :
    base names ret s = base names ret' s := by
  unfold base
  cases oneOf names s with
  | some q => rfl
  | none =>
      simp only []
      cases number s with
      | some q => rfl
      | none =>
          simp only []
          cases h1 : literal ['('] s with
          | none => rfl
          | some r =>
              have := literal_len h1
              simp only [List.length_cons, List.length_nil] at this
              simp only []
              rw [h r (by omega)]

theorem prefixed_congr {op : List Char → Option (List Char × List Char)} {this this' last last' : List Char → Option (STree × List Char)} (hop : ∀ s o r, op s = some (o, r) → r.length < s.length) {s : List Char}
    (h : ∀ r : List Char, r.length < s.length → this r = this' r) (hl : last s = last' s) : prefixed op this last s = prefixed op this' last' s := by
  unfold prefixed
  cases h1 : op s with
  | none => exact hl
  | some q =>
      obtain ⟨o, r⟩ := q
      simp only []
      rw [h r (hop s o r h1), hl]

theorem infixed_congr {op : List Char → Option (List Char × List Char)} {arg arg' last last' : List Char → Option (STree × List Char)} (hop : ∀ s o r, op s = some (o, r) → r.length < s.length)
    (harg : ∀ s t r, arg s = some (t, r) → r.length < s.length) (hlast : ∀ s t r, last s = some (t, r) → r.length < s.length) {s : List Char}
    (h : ∀ r : List Char, r.length < s.length → arg r = arg' r) (hl : last s = last' s) : infixed op arg last s = infixed op arg' last' s := by
  unfold infixed
  rw [← hl]
  cases h1 : last s with
  | none => rfl
  | some q =>
      obtain ⟨t, r⟩ := q
      have := hlast s t r h1
      simp only []
      rw [many_congr hop harg r.length r fun x hx => h x (by omega)]

/-- more nested calls than `8 * length + level + 1` change nothing -/
theorem level_stable {names fs : List (List Char)} (hn : [] ∉ names) (hf : [] ∉ fs) : ∀ (n k : ℕ) (s : List Char), k ≤ 6 → 8 * s.length + k + 1 ≤ n → level names fs (n + 1) k s = level names fs n k s := by
  obtain ⟨o1, o2, o3, o4⟩ := ops_ne
  intro n
  induction n with
  | zero => intro k s _ h; omega
  | succ n ih =>
      intro k s hk h
      have L := level_len hn hf
      match k, hk, h with
      | 0, _, h => exact base_congr fun r hr => ih 6 r (le_refl _) (by omega)
      | 1, _, h => exact prefixed_congr (fun _ _ _ => oneOf_len hf) (fun r hr => ih 1 r (by omega) (by omega)) (ih 0 s (by omega) (by omega))
      | 2, _, h => exact infixed_congr (fun _ _ _ => oneOf_len o1) (L _ 1) (L _ 1) (fun r hr => ih 1 r (by omega) (by omega)) (ih 1 s (by omega) (by omega))
      | 3, _, h => exact infixed_congr (fun _ _ _ => oneOf_len o2) (L _ 3) (L _ 2) (fun r hr => ih 3 r (by omega) (by omega)) (ih 2 s (by omega) (by omega))
      | 4, _, h => exact prefixed_congr (fun _ _ _ => oneOf_len o3) (fun r hr => ih 4 r (by omega) (by omega)) (ih 3 s (by omega) (by omega))
      | 5, _, h => exact infixed_congr (fun _ _ _ => oneOf_len o4) (L _ 4) (L _ 4) (fun r hr => ih 4 r (by omega) (by omega)) (ih 4 s (by omega) (by omega))
      | 6, _, h => exact infixed_congr (fun _ _ _ => oneOf_len o3) (L _ 5) (L _ 5) (fun r hr => ih 5 r (by omega) (by omega)) (ih 5 s (by omega) (by omega))

theorem level_enough {names fs : List (List Char)} (hn : [] ∉ names) (hf : [] ∉ fs) {k : ℕ} (hk : k ≤ 6) (s : List Char) {n m : ℕ} (h : 8 * s.length + k + 1 ≤ n) (hm : n ≤ m) :
    level names fs m k s = level names fs n k s := by
  induction m, hm using Nat.le_induction with
  | base => rfl
  | succ m hm ih => rw [level_stable hn hf m k s hk (h.trans hm), ih]

end BL
