import Verif.Lemmas.Changepoint

/-! # Distances between change-points -/

set_option linter.unusedSectionVars false

namespace BL
open Spec
variable {K : Type} [Field K] [LinearOrder K] [IsStrictOrderedRing K] {d : ℕ} {gs : Fin d → ℕ}

/-- distance between the entries `a` and `b` of a row -/
def gap (a b : ℕ) (r : List K) : K := r.getD b 0 - r.getD a 0

theorem unique_sorted (l : List K) : (unique l).Pairwise (· < ·) := by
  have h1 : (unique l).Pairwise (· ≤ ·) := List.pairwise_insertionSort (· ≤ ·) l.dedup
  have h2 : (unique l).Nodup := ((List.perm_insertionSort (· ≤ ·) l.dedup).nodup_iff).2 (List.nodup_dedup l)
  exact (h1.and h2).imp fun h => lt_of_le_of_ne h.1 h.2

theorem unique_nodup (l : List K) : (unique l).Nodup := (unique_sorted l).imp fun h => h.ne

theorem unique_mem (l : List K) (x : K) : x ∈ unique l ↔ x ∈ l := by
  rw [unique, (List.perm_insertionSort (· ≤ ·) l.dedup).mem_iff, List.mem_dedup]

theorem zipWith_zero (f : K → K) : ∀ dur acc : List K, (∀ e ∈ dur, f e = 0) → acc.length = dur.length → List.zipWith (fun e c => c + f e) dur acc = acc
  | [], [], _, _ => rfl
  | [], _ :: _, _, h => by simp at h
  | _ :: _, [], _, h => by simp at h
  | e :: dur, c :: acc, hf, h => by
      rw [List.zipWith_cons_cons, zipWith_zero f dur acc (fun e he => hf e (by simp [he])) (by simpa using h), hf e (by simp), add_zero]

theorem modify_idx (δ w : K) : ∀ (dur acc : List K), dur.Nodup → δ ∈ dur → acc.length = dur.length →
    acc.modify (dur.idxOf δ) (· + w) = List.zipWith (fun e c => c + if e = δ then w else 0) dur acc
  | [], _, _, h, _ => by simp at h
  | e :: dur, [], _, _, h => by simp at h
  | e :: dur, c :: acc, hn, hm, hl => by
      obtain ⟨h1, h2⟩ := List.nodup_cons.1 hn
      by_cases he : e = δ
      · subst he
        have := zipWith_zero (fun e' => if e' = e then w else 0) dur acc
          (fun x hx => if_neg fun h' : x = e => h1 (h' ▸ hx)) (by simpa using hl)
        simp [List.idxOf_cons_self, this]
      · have hm' : δ ∈ dur := by
          rcases List.mem_cons.1 hm with h' | h'
          · exact absurd h'.symm he
          · exact h'
        rw [List.idxOf_cons_ne _ he, List.modify_succ_cons, modify_idx δ w dur acc h2 hm' (by simpa using hl)]
        simp [he]

/-- weight of the rows with distance `δ` -/
def hits (a b : ℕ) (L : List (List K × K)) (δ : K) : K := ((L.filter fun q => decide (gap a b q.1 = δ)).map (·.2)).sum

theorem hits_cons (a b : ℕ) (q : List K × K) (L : List (List K × K)) (δ : K) :
    hits a b (q :: L) δ = (if gap a b q.1 = δ then q.2 else 0) + hits a b L δ := by
  by_cases h : gap a b q.1 = δ <;> simp [hits, h]

theorem zipWith_zipWith_add (f g : K → K) : ∀ dur acc : List K,
    List.zipWith (fun e c => c + f e) dur (List.zipWith (fun e c => c + g e) dur acc) = List.zipWith (fun e c => c + (g e + f e)) dur acc
  | [], _ => rfl
  | _ :: _, [] => rfl
  | e :: dur, c :: acc => by simp [zipWith_zipWith_add f g dur acc, add_assoc]

theorem durationLoop_spec (dur : List K) (a b : ℕ) (hn : dur.Nodup) : ∀ (L : List (List K × K)) (acc : List K), acc.length = dur.length →
    (∀ q ∈ L, a < q.1.length ∧ b < q.1.length) →
    if ∀ q ∈ L, 0 < gap a b q.1 → gap a b q.1 ∈ dur then
      durationLoop dur a b L acc = .ok (List.zipWith (fun e c => c + hits a b (L.filter fun q => decide (0 < gap a b q.1)) e) dur acc)
    else durationLoop dur a b L acc = .error .indexError
  | [], acc, hl, _ => by
      rw [if_pos (by simp), durationLoop]
      congr 1
      rw [zipWith_zero _ _ _ (by intro e _; simp [hits]) hl]
  | q :: L, acc, hl, hq => by
      obtain ⟨ha, hb⟩ := hq q (by simp)
      have hg : gap a b q.1 = q.1[b] - q.1[a] := by
        unfold gap
        simp [List.getD, List.getElem?_eq_getElem ha, List.getElem?_eq_getElem hb]
      have hpos : q.1[b] > q.1[a] ↔ 0 < gap a b q.1 := by rw [hg, sub_pos]
      rw [durationLoop, List.getElem?_eq_getElem ha, List.getElem?_eq_getElem hb]
      simp only [hpos, ← hg]
      have hq' : ∀ q ∈ L, a < q.1.length ∧ b < q.1.length := fun q hq'' => hq q (by simp [hq''])
      by_cases h0 : 0 < gap a b q.1
      · rw [if_pos h0]
        by_cases hm : gap a b q.1 ∈ dur
        · rw [if_pos hm, modify_idx _ _ _ _ hn hm hl]
          have ih := durationLoop_spec dur a b hn L (List.zipWith (fun e c => c + if e = gap a b q.1 then q.2 else 0) dur acc)
            (by simp [hl]) hq'
          by_cases hall : ∀ q ∈ L, 0 < gap a b q.1 → gap a b q.1 ∈ dur
          · rw [if_pos hall] at ih
            rw [if_pos (by
              intro p hp
              rcases List.mem_cons.1 hp with rfl | hp
              · exact fun _ => hm
              · exact hall p hp), ih, zipWith_zipWith_add, List.filter_cons_of_pos (by simp [h0])]
            congr 2
            funext e c
            rw [hits_cons]
            simp [eq_comm]
          · rw [if_neg hall] at ih
            rw [if_neg (fun h' => hall fun p hp => h' p (by simp [hp])), ih]
        · rw [if_neg hm, if_neg (fun h' => hm (h' q (by simp) h0))]
      · rw [if_neg h0]
        have ih := durationLoop_spec dur a b hn L acc hl hq'
        by_cases hall : ∀ q ∈ L, 0 < gap a b q.1 → gap a b q.1 ∈ dur
        · rw [if_pos hall] at ih
          rw [if_pos (by
            intro p hp
            rcases List.mem_cons.1 hp with rfl | hp
            · exact fun h' => absurd h' h0
            · exact hall p hp), ih, List.filter_cons_of_neg (by simpa using h0)]
        · rw [if_neg hall] at ih
          rw [if_neg (fun h' => hall fun p hp => h' p (by simp [hp])), ih]

theorem sum_ite_mem (x w : K) : ∀ dur : List K, dur.Nodup → (dur.map fun δ => if x = δ then w else 0).sum = if x ∈ dur then w else 0
  | [], _ => by simp
  | e :: dur, h => by
      obtain ⟨h1, h2⟩ := List.nodup_cons.1 h
      rw [List.map_cons, List.sum_cons, sum_ite_mem x w dur h2]
      by_cases he : x = e
      · subst he
        simp [h1]
      · simp [he]

theorem hits_sum (a b : ℕ) (dur : List K) (hn : dur.Nodup) : ∀ L : List (List K × K),
    (dur.map (hits a b L)).sum = ((L.filter fun q => decide (gap a b q.1 ∈ dur)).map (·.2)).sum
  | [] => by
      rw [List.sum_eq_zero (by intro x hx; obtain ⟨e, -, rfl⟩ := List.mem_map.1 hx; simp [hits])]
      simp
  | q :: L => by
      have : dur.map (hits a b (q :: L)) = dur.map fun δ => (if gap a b q.1 = δ then q.2 else 0) + hits a b L δ := by
        apply List.map_congr_left
        intro δ _
        exact hits_cons a b q L δ
      rw [this, List.sum_map_add, sum_ite_mem _ _ _ hn, hits_sum a b dur hn L]
      by_cases h : gap a b q.1 ∈ dur <;> simp [h]

end BL
