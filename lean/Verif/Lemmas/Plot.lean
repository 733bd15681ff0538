import Verif.Spec.Plot
import Verif.Lemmas.HyperAvg
import Mathlib.Tactic.Linarith
import Mathlib.Tactic.NormNum
import Mathlib.Tactic.FieldSimp

/-! # Lemmas on plots -/

set_option linter.unusedSectionVars false

namespace BL
open Spec
variable {K : Type} [Field K] [LinearOrder K] [IsStrictOrderedRing K] {d : ℕ} {gs : Fin d → ℕ}

theorem inPart_unique {lo hi x : K} {n i j : ℕ} (h1 : InPart lo hi n i x) (h2 : InPart lo hi n j x) : i = j := by
  have key : ∀ {i j : ℕ}, InPart lo hi n i x → InPart lo hi n j x → ¬ i < j := by
    intro i j h1 h2 h
    have hn : (0 : K) < n := by exact_mod_cast lt_of_le_of_lt (Nat.zero_le _) h2.1
    rcases h1.2.2 with h3 | h3
    · have : ((i + 1 : ℕ) : K) / n ≤ (j : K) / n := div_le_div_of_nonneg_right (by exact_mod_cast h) hn.le
      exact absurd (lt_of_lt_of_le h3 (le_trans this h2.2.1)) (lt_irrefl _)
    · have := h2.1; omega
  rcases Nat.lt_trichotomy i j with h | h | h
  · exact absurd h (key h1 h2)
  · exact h
  · exact absurd h (key h2 h1)

theorem showsAt_unique {img : Draw K} {x y b c : K} (h1 : ShowsAt img x y b) (h2 : ShowsAt img x y c) : b = c := by
  cases img with
  | image cols x0 x1 y0 y1 =>
      obtain ⟨i, j, l, a1, a2, a3, a4⟩ := h1
      obtain ⟨i', j', l', b1, b2, b3, b4⟩ := h2
      obtain rfl := inPart_unique a1 b1
      rw [a2] at b2
      simp only [Option.some.injEq] at b2
      subst b2
      obtain rfl := inPart_unique a3 b3
      rw [a4] at b4
      simpa using b4
  | _ => exact h1.elim

/-- In an image over the range of equally spaced values, the position of the `k`-th value lies in the `k`-th part. -/
theorem inPart_spaced {a s : K} (hs : s ≠ 0) {n k : ℕ} (hn : 2 ≤ n) (hk : k < n) : InPart a (a + ((n - 1 : ℕ) : K) * s) n k (a + k * s) := by
  have h1 : ((n - 1 : ℕ) : K) = (n : K) - 1 := by rw [Nat.cast_sub (by omega)]; simp
  have hn0 : (0 : K) < n := by exact_mod_cast (by omega : 0 < n)
  have hn1 : (0 : K) < (n : K) - 1 := by rw [← h1]; exact_mod_cast (by omega : 0 < n - 1)
  have e : (a + k * s - a) / (a + ((n - 1 : ℕ) : K) * s - a) = (k : K) / ((n : K) - 1) := by
    rw [h1, add_sub_cancel_left, add_sub_cancel_left, mul_div_mul_right _ _ hs]
  refine ⟨hk, ?_, ?_⟩
  · rw [e]
    exact div_le_div_of_nonneg_left (Nat.cast_nonneg _) hn1 (by simp)
  · by_cases hl : k + 1 = n
    · right
      refine ⟨hl, ?_⟩
      have : n - 1 = k := by omega
      rw [this]
    · left
      rw [e, div_lt_div_iff₀ hn1 hn0]
      push_cast
      have : (k : K) + 1 < n := by exact_mod_cast (by omega : k + 1 < n)
      nlinarith

theorem faded_clean (pmax p : K) : cleanValue (some pmax) p = faded pmax p := by
  unfold cleanValue faded
  have : p < pmax * (1 / 10 ^ 20) ↔ p * 10 ^ 20 < pmax := by
    rw [mul_one_div, lt_div_iff₀ (pow_pos (by norm_num) _)]
  simp only [this]

theorem ends_ok {l : List K} {n : ℕ} (hn : l.length = n) (h2 : 2 ≤ n) : ∃ a b, ends l = .ok (a, b) ∧ l[0]? = some a ∧ l[n - 1]? = some b := by
  subst hn
  unfold ends
  rw [List.head?_eq_getElem?, List.getLast?_eq_getElem?, List.getElem?_eq_getElem (by omega), List.getElem?_eq_getElem (by omega)]
  exact ⟨_, _, rfl, rfl, rfl⟩

theorem ends_spaced {l : List K} {n : ℕ} (hn : l.length = n) (h2 : 2 ≤ n) {a s : K} (h : ∀ (k : ℕ) (x : K), l[k]? = some x → x = a + k * s) :
    ends l = .ok (a, a + ((n - 1 : ℕ) : K) * s) := by
  obtain ⟨x, y, h1, h3, h4⟩ := ends_ok hn h2
  rw [h1, h _ _ h3, h _ _ h4]
  simp

/-- values of an image over equally spaced times and values -/
theorem image_shows {ts vals : List K} {rows : List (List K)} (hts : EquallySpaced ts) (hvals : EquallySpaced vals) (h2 : 2 ≤ ts.length) (hv2 : 2 ≤ vals.length)
    (hr : rows.length = ts.length) (hrow : ∀ r ∈ rows, r.length = vals.length) :
    ∃ t0 t1 v0 v1, ends ts = .ok (t0, t1) ∧ ends vals = .ok (v0, v1) ∧
      ∀ (k j : ℕ) (t v : K) (r : List K) (p : K), ts[k]? = some t → vals[j]? = some v → rows[k]? = some r → r[j]? = some p →
        ∀ b, ShowsAt (.image (rows.map some) t0 t1 v0 v1) t v b ↔ b = p := by
  obtain ⟨a, s, hs, hts⟩ := hts
  obtain ⟨a', s', hs', hvals⟩ := hvals
  refine ⟨_, _, _, _, ends_spaced rfl h2 hts, ends_spaced rfl hv2 hvals, ?_⟩
  intro k j t v r p hk hj hrk hp b
  have hkl : k < ts.length := (List.getElem?_eq_some_iff.1 hk).1
  have hjl : j < vals.length := (List.getElem?_eq_some_iff.1 hj).1
  have main : ShowsAt (.image (rows.map some) a (a + ((ts.length - 1 : ℕ) : K) * s) a' (a' + ((vals.length - 1 : ℕ) : K) * s')) t v p := by
    refine ⟨k, j, r, ?_, ?_, ?_, hp⟩
    · rw [hts k t hk, List.length_map, hr]
      exact inPart_spaced hs h2 hkl
    · rw [List.getElem?_map, hrk, Option.map_some]
    · rw [hvals j v hj, hrow r (List.mem_of_getElem? hrk)]
      exact inPart_spaced hs' hv2 hjl
  exact ⟨fun h => showsAt_unique h main, fun h => h ▸ main⟩

theorem max?_greatest {l : List K} {m : K} (h : listMax l = some m) : IsGreatest {p | p ∈ l} m := by
  unfold listMax at h
  rw [List.max?_eq_some_iff] at h
  exact ⟨h.1, fun p hp => h.2 p hp⟩

theorem imageMax_greatest {rows : List (List K)} {n m : ℕ} (hn : 0 < n) (hm : 0 < m) (hr : rows.length = n) (hrow : ∀ r ∈ rows, r.length = m) :
    ∃ pmax, imageMax (rows.map some) = some pmax ∧ IsGreatest {p | ∃ r ∈ rows, p ∈ r} pmax := by
  have hne : rows.flatten ≠ [] := by
    cases rows with
    | nil => simp at hr; omega
    | cons r rows =>
        have : r ≠ [] := by
          intro h
          have := hrow r (by simp)
          rw [h] at this
          simp at this
          omega
        simp [this]
  unfold imageMax
  rw [allSome_map]
  cases h : listMax rows.flatten with
  | none => exact absurd (List.max?_eq_none_iff.1 h) hne
  | some m' =>
      refine ⟨m', by simp [h], ?_⟩
      have := max?_greatest h
      simpa [List.mem_flatten] using this

theorem cleanUp_some (rows : List (List K)) : cleanUp (rows.map some) = (rows.map fun r => r.map (cleanValue (imageMax (rows.map some)))).map some := by
  simp [cleanUp, Function.comp_def]

/-- the picture of `evolutionDraws` -/
theorem evolutionDraws_shows (gamma : K → K) {ts vals : List K} {rows : List (List K)} {mv : List (Option K)} (name : String) (hts : EquallySpaced ts) (hvals : EquallySpaced vals)
    (h2 : 2 ≤ ts.length) (hv2 : 2 ≤ vals.length) (hr : rows.length = ts.length) (hrow : ∀ r ∈ rows, r.length = vals.length) (hm : mv.length = ts.length) :
    ∃ img v0 v1 pmax, evolutionDraws gamma (rows.map some) ts mv vals name = .ok [img, .curve ts mv, .limits v0 v1, .label .y name, .label .x "time step"] ∧
      ends vals = .ok (v0, v1) ∧ imageMax (rows.map some) = some pmax ∧ IsGreatest {p | ∃ r ∈ rows, p ∈ r} pmax ∧
      ∀ (k j : ℕ) (t v : K) (r : List K) (p : K), ts[k]? = some t → vals[j]? = some v → rows[k]? = some r → r[j]? = some p →
        ∀ b, ShowsAt img t v b ↔ b = gamma (faded pmax p) := by
  obtain ⟨pmax, hp1, hp2⟩ := imageMax_greatest (n := ts.length) (m := vals.length) (by omega) (by omega) hr hrow
  let rows' := rows.map fun r => (r.map (cleanValue (some pmax))).map gamma
  obtain ⟨t0, t1, v0, v1, e1, e2, h⟩ := image_shows (rows := rows') hts hvals h2 hv2 (by simp [rows', hr])
    (by intro r hr'; obtain ⟨q, hq, rfl⟩ := List.mem_map.1 hr'; simp [hrow q hq])
  refine ⟨.image (rows'.map some) t0 t1 v0 v1, v0, v1, pmax, ?_, e2, hp1, hp2, ?_⟩
  · unfold evolutionDraws
    rw [cleanUp_some, hp1, e1, e2]
    simp [bind, Except.bind, hm, rows', Function.comp_def]
  · intro k j t v r p a1 a2 a3 a4 b
    refine h k j t v _ _ a1 a2 (by simp only [rows', List.getElem?_map, a3]; rfl) ?_ b
    simp only [List.getElem?_map, a4, Option.map_some, faded_clean]

end BL
