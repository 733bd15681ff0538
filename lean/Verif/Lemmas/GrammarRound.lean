import Verif.Lemmas.Grammar
import Mathlib.Tactic.IntervalCases

/-! # Written expressions are parsed as intended -/

set_option linter.unusedSectionVars false

namespace BL
open Spec
variable {K : Type} [Field K] [LinearOrder K]

theorem isSpace_iff (c : Char) : isSpace c = true ↔ White c := by
  simp [isSpace, White, or_assoc]

theorem skip_cons_white {c : Char} (h : White c) (s : List Char) : skip (c :: s) = skip s := by
  simp [skip, List.dropWhile_cons, (isSpace_iff c).2 h]

theorem skip_cons {c : Char} (h : ¬ White c) (s : List Char) : skip (c :: s) = c :: s := by
  have : isSpace c = false := by
    rw [← Bool.not_eq_true, isSpace_iff]; exact h
  simp [skip, List.dropWhile_cons, this]

theorem skip_blank {w : List Char} (h : Blank w) (s : List Char) : skip (w ++ s) = skip s := by
  induction w with
  | nil => rfl
  | cons c w ih => rw [List.cons_append, skip_cons_white (h c (by simp)), ih fun x hx => h x (by simp [hx])]

theorem skip_skip (s : List Char) : skip (skip s) = skip s := by
  induction s with
  | nil => rfl
  | cons c s ih =>
      by_cases h : White c
      · rw [skip_cons_white h, ih]
      · rw [skip_cons h, skip_cons h]

theorem special_not_white {c : Char} (h : Special c) : ¬ White c := by
  unfold Special at h
  simp only [List.mem_cons, List.not_mem_nil, or_false] at h
  unfold White
  rcases h with rfl | rfl | rfl | rfl | rfl | rfl | rfl | rfl | rfl | rfl | rfl <;> decide

theorem skip_head {r : List Char} {c : Char} (h : (skip r).head? = some c) : ¬ White c := by
  induction r with
  | nil => simp [skip] at h
  | cons d r ih =>
      by_cases hd : White d
      · rw [skip_cons_white hd] at h; exact ih h
      · rw [skip_cons hd] at h; simp only [List.head?_cons, Option.some.injEq] at h; subst h; exact hd

/-- behind optional white space: the end of the text or a special symbol -/
def Ends (r : List Char) : Prop := ∀ c, (skip r).head? = some c → Special c

theorem ends_special {c : Char} (h : Special c) (r : List Char) : Ends (c :: r) := by
  intro x hx
  rw [skip_cons (special_not_white h)] at hx
  simp only [List.head?_cons, Option.some.injEq] at hx
  subst hx; exact h

theorem ends_nil : Ends [] := by intro c h; simp [skip] at h

theorem ends_blank {w r : List Char} (h : Blank w) (hr : Ends r) : Ends (w ++ r) := by
  intro c hc; rw [skip_blank h] at hc; exact hr c hc

theorem ends_head {r : List Char} (h : Ends r) {c : Char} {t : List Char} (hr : r = c :: t) : White c ∨ Special c := by
  subst hr
  by_cases hc : White c
  · exact Or.inl hc
  · exact Or.inr (h c (by rw [skip_cons hc]; rfl))

/-- a word that reaches across the end contains a special symbol or ends with white space -/
theorem no_cross : ∀ {r x : List Char}, Ends r → x ≠ [] → x <+: r → (∃ c ∈ x, Special c) ∨ ∃ c, x.getLast? = some c ∧ White c
  | [], x, _, hx, hp => absurd (List.prefix_nil.1 hp) hx
  | c :: r, x, hr, hx, hp => by
      cases x with
      | nil => exact absurd rfl hx
      | cons d x =>
          obtain ⟨rfl, hp'⟩ := List.cons_prefix_cons.1 hp
          by_cases hd : White d
          · by_cases h0 : x = []
            · subst h0; exact Or.inr ⟨d, rfl, hd⟩
            · have hr' : Ends r := by intro y hy; exact hr y (by rw [skip_cons_white hd]; exact hy)
              rcases no_cross hr' h0 hp' with ⟨y, h1, h2⟩ | ⟨y, h1, h2⟩
              · exact Or.inl ⟨y, by simp [h1], h2⟩
              · refine Or.inr ⟨y, ?_, h2⟩
                rw [List.getLast?_cons]
                simp [h1]
          · exact Or.inl ⟨d, by simp, (ends_head hr rfl).resolve_left hd⟩

theorem not_cross_name {v n r : List Char} (hv : GoodName v) (hr : Ends r) (hp : v <+: n ++ r) : v.length ≤ n.length ∧ v <+: n := by
  by_contra hcon
  have hlen : n.length < v.length := by
    by_contra h
    exact hcon ⟨not_lt.1 h, List.prefix_of_prefix_length_le hp (List.prefix_append n r) (not_lt.1 h)⟩
  obtain ⟨x, rfl⟩ := List.prefix_of_prefix_length_le (List.prefix_append n r) hp hlen.le
  have hx : x ≠ [] := by rintro rfl; simp at hlen
  have hp' : x <+: r := (List.prefix_append_right_inj n).1 hp
  rcases no_cross hr hx hp' with ⟨c, h1, h2⟩ | ⟨c, h1, h2⟩
  · exact hv.plain c (by simp [h1]) h2
  · refine hv.last c ?_ h2
    rw [List.getLast?_append, h1]; rfl

theorem not_cross_fn {v n r : List Char} (hv : GoodFn v) (hr : Ends r) (hp : v <+: n ++ r) : v.length ≤ n.length ∧ v <+: n := by
  by_contra hcon
  have hlen : n.length < v.length := by
    by_contra h
    exact hcon ⟨not_lt.1 h, List.prefix_of_prefix_length_le hp (List.prefix_append n r) (not_lt.1 h)⟩
  obtain ⟨x, rfl⟩ := List.prefix_of_prefix_length_le (List.prefix_append n r) hp hlen.le
  have hx : x ≠ [] := by rintro rfl; simp at hlen
  have hp' : x <+: r := (List.prefix_append_right_inj n).1 hp
  rcases no_cross hr hx hp' with ⟨c, h1, h2⟩ | ⟨c, h1, h2⟩
  · exact (hv.plain c (by simp [h1])).1 h2
  · exact (hv.plain c (by simp [List.mem_of_mem_getLast? h1])).2 h2

/-! ## levels depend on the text behind white space only -/

theorem number_skip {s s' : List Char} (h : skip s = skip s') : number s = number s' := by unfold number; rw [h]
theorem literal_skip {w s s' : List Char} (h : skip s = skip s') : literal w s = literal w s' := by unfold literal; rw [h]

theorem level_skip (names fs : List (List Char)) : ∀ (n k : ℕ) {s s' : List Char}, skip s = skip s' → level names fs n k s = level names fs n k s' := by
  intro n
  induction n with
  | zero => intro k s s' _; rfl
  | succ n ih =>
      intro k s s' h
      have hp : ∀ (op : List (List Char)) (this last : List Char → Option (STree × List Char)), last s = last s' → prefixed (oneOf op) this last s = prefixed (oneOf op) this last s' := by
        intro op this last hl
        unfold prefixed
        rw [oneOf_skip h, hl]
      have hi : ∀ (op : List (List Char)) (arg last : List Char → Option (STree × List Char)), last s = last s' → infixed (oneOf op) arg last s = infixed (oneOf op) arg last s' := by
        intro op arg last hl
        unfold infixed
        rw [hl]
      match k with
      | 0 =>
          simp only [level, base]
          rw [oneOf_skip h, number_skip h, literal_skip h]
      | 1 => exact hp _ _ _ (ih 0 h)
      | 2 => exact hi _ _ _ (ih 1 h)
      | 3 => exact hi _ _ _ (ih 2 h)
      | 4 => exact hp _ _ _ (ih 3 h)
      | 5 => exact hi _ _ _ (ih 4 h)
      | k + 6 => exact hi _ _ _ (ih 5 h)

/-! ## operators -/

/-- the binary operators of a level -/
def opOf : ℕ → List (List Char)
  | 2 => [['@']]
  | 3 => [['^']]
  | 5 => [['*'], ['/']]
  | _ => [['+'], ['-']]

/-- level of the right operands -/
def argOf : ℕ → ℕ
  | 2 => 1
  | 3 => 3
  | 5 => 4
  | _ => 5

/-- level of the left operands -/
def lastOf : ℕ → ℕ
  | 2 => 1
  | 3 => 2
  | 5 => 4
  | _ => 5

theorem level_infix (names fs : List (List Char)) {j : ℕ} (hj : j ∈ [2, 3, 5, 6]) (n : ℕ) (s : List Char) :
    level names fs (n + 1) j s = infixed (oneOf (opOf j)) (level names fs n (argOf j)) (level names fs n (lastOf j)) s := by
  simp only [List.mem_cons, List.not_mem_nil, or_false] at hj
  rcases hj with rfl | rfl | rfl | rfl <;> rfl

theorem opOf_len (j : ℕ) : ∀ v ∈ opOf j, v.length = 1 := by
  intro v hv
  unfold opOf at hv
  split at hv <;> simp only [List.mem_cons, List.not_mem_nil, or_false] at hv
  · rw [hv]; rfl
  · rw [hv]; rfl
  · rcases hv with rfl | rfl <;> rfl
  · rcases hv with rfl | rfl <;> rfl

theorem opOf_ne (j : ℕ) : [] ∉ opOf j := fun h => by have := opOf_len j _ h; simp at this

theorem op_some {l : List (List Char)} (hl : ∀ v ∈ l, v.length = 1) {c : Char} (hc : [c] ∈ l) {s r : List Char} (hs : skip s = c :: r) : oneOf l s = some ([c], r) :=
  oneOf_eq hc hs fun v hv _ => by rw [hl v hv]; rfl

theorem op_none {l : List (List Char)} (hl : ∀ v ∈ l, v.length = 1) {s : List Char} (hs : ∀ c, (skip s).head? = some c → [c] ∉ l) : oneOf l s = none := by
  rw [oneOf_none]
  intro v hv hp
  have h1 := hl v hv
  match v, h1 with
  | [c], _ =>
      obtain ⟨t, ht⟩ := hp
      exact hs c (by rw [← ht]; rfl) hv

/-- the text `r` ends an expression of level `k` -/
structure Closed (names fs : List (List Char)) (k : ℕ) (r : List Char) : Prop where
  head : Ends r
  ends : ∀ j ∈ [2, 3, 5, 6], j ≤ k → ∀ o q, oneOf (opOf j) r = some (o, q) → ∀ n, level names fs n (argOf j) q = none

theorem Closed.mono {names fs : List (List Char)} {k j : ℕ} {r : List Char} (h : Closed names fs j r) (hk : k ≤ j) : Closed names fs k r :=
  ⟨h.head, fun i hi hik => h.ends i hi (hik.trans hk)⟩

theorem Closed.blank {names fs : List (List Char)} {k : ℕ} {w r : List Char} (h : Closed names fs k r) (hw : Blank w) : Closed names fs k (w ++ r) :=
  ⟨ends_blank hw h.head, fun j hj hjk o q ho => h.ends j hj hjk o q (by rw [← ho]; exact oneOf_skip (skip_blank hw r).symm)⟩

theorem closed_of {names fs : List (List Char)} {k : ℕ} {r : List Char} (h : Ends r) (ho : ∀ j ∈ [2, 3, 5, 6], j ≤ k → ∀ c, (skip r).head? = some c → [c] ∉ opOf j) : Closed names fs k r :=
  ⟨h, fun j hj hjk o q hq => by rw [op_none (opOf_len j) (ho j hj hjk)] at hq; cases hq⟩

theorem closed_nil (names fs : List (List Char)) (k : ℕ) : Closed names fs k [] := closed_of ends_nil fun j _ _ c hc => by simp [skip] at hc

theorem closed_paren (names fs : List (List Char)) (k : ℕ) (r : List Char) : Closed names fs k (')' :: r) := by
  have hs : Special ')' := by simp [Special]
  refine closed_of (ends_special hs r) fun j hj _ c hc => ?_
  rw [skip_cons (special_not_white hs)] at hc
  simp only [List.head?_cons, Option.some.injEq] at hc
  subst hc
  simp only [List.mem_cons, List.not_mem_nil, or_false] at hj
  rcases hj with rfl | rfl | rfl | rfl <;> decide

theorem many_closed {names fs : List (List Char)} {k j : ℕ} {r : List Char} (h : Closed names fs k r) (hj : j ∈ [2, 3, 5, 6]) (hjk : j ≤ k) {r' : List Char} (hr : skip r' = skip r) (n m : ℕ) :
    many (oneOf (opOf j)) (level names fs n (argOf j)) m r' = ([], r') := by
  cases m with
  | zero => rfl
  | succ m =>
      simp only [many]
      rw [oneOf_skip hr]
      cases ho : oneOf (opOf j) r with
      | none => rfl
      | some q =>
          simp only []
          rw [h.ends j hj hjk q.1 q.2 ho n]

/-! ## Parsing -/

/-- with enough nested calls, level `k` reads `e` and leaves `r` (up to white space) -/
def Parses (names fs : List (List Char)) (k : ℕ) (s : List Char) (e : PTree K) (r : List Char) : Prop :=
  ∃ N t r', skip r' = skip r ∧ t.toP names fs = e ∧ ∀ n, N ≤ n → level names fs n k s = some (t, r')

theorem Parses.skip_left {names fs : List (List Char)} {k : ℕ} {s s' : List Char} {e : PTree K} {r : List Char} (h : Parses names fs k s e r) (hs : skip s' = skip s) : Parses names fs k s' e r := by
  obtain ⟨N, t, r', h1, h2, h3⟩ := h
  exact ⟨N, t, r', h1, h2, fun n hn => by rw [level_skip names fs n k hs]; exact h3 n hn⟩

theorem Parses.skip_right {names fs : List (List Char)} {k : ℕ} {s : List Char} {e : PTree K} {r r2 : List Char} (h : Parses names fs k s e r) (hs : skip r = skip r2) : Parses names fs k s e r2 := by
  obtain ⟨N, t, r', h1, h2, h3⟩ := h
  exact ⟨N, t, r', h1.trans hs, h2, h3⟩

theorem lift_infix {names fs : List (List Char)} {j : ℕ} (hj : j ∈ [2, 3, 5, 6]) {s : List Char} {e : PTree K} {r : List Char} (h : Parses names fs (lastOf j) s e r) (hc : Closed names fs j r) :
    Parses names fs j s e r := by
  obtain ⟨N, t, r', h1, h2, h3⟩ := h
  refine ⟨N + 1, t, r', h1, h2, ?_⟩
  intro n hn
  obtain ⟨n, rfl⟩ : ∃ n', n = n' + 1 := ⟨n - 1, by omega⟩
  rw [level_infix names fs hj]
  unfold infixed
  rw [h3 n (by omega)]
  simp only []
  rw [many_closed hc hj (le_refl _) h1]

/-- no function call begins here -/
def FnFails (names fs : List (List Char)) (s : List Char) : Prop := ∀ g q, oneOf fs s = some (g, q) → ∀ n, level names fs n 1 q = none

/-- no sign at the beginning -/
def NoSign (s : List Char) : Prop := ∀ c, (skip s).head? = some c → c ≠ '+' ∧ c ≠ '-'

theorem lift_fn {names fs : List (List Char)} {s : List Char} {e : PTree K} {r : List Char} (h : Parses names fs 0 s e r) (hf : FnFails names fs s) : Parses names fs 1 s e r := by
  obtain ⟨N, t, r', h1, h2, h3⟩ := h
  refine ⟨N + 1, t, r', h1, h2, ?_⟩
  intro n hn
  obtain ⟨n, rfl⟩ : ∃ n', n = n' + 1 := ⟨n - 1, by omega⟩
  change prefixed (oneOf fs) (level names fs n 1) (level names fs n 0) s = _
  unfold prefixed
  cases ho : oneOf fs s with
  | none => exact h3 n (by omega)
  | some q =>
      simp only []
      rw [hf q.1 q.2 ho n]
      exact h3 n (by omega)

theorem lift_sign {names fs : List (List Char)} {s : List Char} {e : PTree K} {r : List Char} (h : Parses names fs 3 s e r) (hf : NoSign s) : Parses names fs 4 s e r := by
  obtain ⟨N, t, r', h1, h2, h3⟩ := h
  refine ⟨N + 1, t, r', h1, h2, ?_⟩
  intro n hn
  obtain ⟨n, rfl⟩ : ∃ n', n = n' + 1 := ⟨n - 1, by omega⟩
  change prefixed (oneOf (opOf 6)) (level names fs n 4) (level names fs n 3) s = _
  unfold prefixed
  rw [op_none (opOf_len 6) fun c hc hm => ?_]
  · exact h3 n (by omega)
  · obtain ⟨a, b⟩ := hf c hc
    simp [opOf, a, b] at hm

/-- from level `k` to level `j` -/
theorem lift {names fs : List (List Char)} {k j : ℕ} (hkj : k ≤ j) (hj : j ≤ 6) {s : List Char} {e : PTree K} {r : List Char} (h : Parses names fs k s e r) (hc : Closed names fs j r)
    (hf : k = 0 → FnFails names fs s) (hs : k ≤ 3 → 3 < j → NoSign s) : Parses names fs j s e r := by
  induction j, hkj using Nat.le_induction with
  | base => exact h
  | succ j hkj ih =>
      have h' := ih (by omega) (hc.mono (Nat.le_succ j)) fun a b => hs a (by omega)
      match j, hj, h', hc, hkj with
      | 0, _, h', hc, hkj => exact lift_fn h' (hf (by omega))
      | 1, _, h', hc, _ => exact lift_infix (j := 2) (by simp) h' hc
      | 2, _, h', hc, _ => exact lift_infix (j := 3) (by simp) h' hc
      | 3, _, h', hc, hkj => exact lift_sign h' (hs hkj (by omega))
      | 4, _, h', hc, _ => exact lift_infix (j := 5) (by simp) h' hc
      | 5, _, h', hc, _ => exact lift_infix (j := 6) (by simp) h' hc

/-! ## texts that are not the beginning of an expression -/

theorem special_not_num {c : Char} (h : Special c) : ¬ ('0' ≤ c ∧ c ≤ '9') := by
  unfold Special at h
  simp only [List.mem_cons, List.not_mem_nil, or_false] at h
  rcases h with rfl | rfl | rfl | rfl | rfl | rfl | rfl | rfl | rfl | rfl | rfl <;> decide

theorem noStart_none {names fs : List (List Char)} (hC : Clear names fs) {m r : List Char} (hm : NoStart names fs m) (h0 : m ≠ []) (hr : Ends r) : ∀ n k, level names fs n k (m ++ r) = none := by
  obtain ⟨c, m', rfl⟩ : ∃ c m', m = c :: m' := by
    cases m with
    | nil => exact absurd rfl h0
    | cons c m' => exact ⟨c, m', rfl⟩
  obtain ⟨hw, hd, hsp⟩ := hm.head c rfl
  have hsk : skip (c :: m' ++ r) = c :: m' ++ r := skip_cons hw _
  have hfn : oneOf fs (c :: m' ++ r) = none := by
    rw [oneOf_none]
    intro v hv hp
    rw [hsk] at hp
    exact hm.noFn v hv (not_cross_fn (hC.fn v hv) hr hp).2
  have hpar : oneOf names (c :: m' ++ r) = none := by
    rw [oneOf_none]
    intro v hv hp
    rw [hsk] at hp
    exact hm.noPar v hv (not_cross_name (hC.par v hv) hr hp).2
  have hop : ∀ j, oneOf (opOf j) (c :: m' ++ r) = none := by
    intro j
    apply op_none (opOf_len j)
    intro x hx
    rw [hsk] at hx
    simp only [List.cons_append, List.head?_cons, Option.some.injEq] at hx
    subst hx
    intro hmem
    apply hsp
    unfold opOf at hmem
    unfold Special
    split at hmem <;> simp only [List.mem_cons, List.cons.injEq, and_true, List.not_mem_nil, or_false] at hmem ⊢ <;> tauto
  have hnum : number (c :: m' ++ r) = none := by
    unfold number
    rw [hsk]
    simp only [List.cons_append]
    rw [if_neg]
    unfold numStart isNum
    simp only [Bool.or_eq_true, Bool.and_eq_true, decide_eq_true_eq]
    rintro ((h | h) | h)
    · exact hd h
    · exact hsp (by subst h; simp [Special])
    · exact hsp (by subst h; simp [Special])
  have hlit : literal ['('] (c :: m' ++ r) = none := by
    unfold literal
    rw [hsk, if_neg]
    rw [List.isPrefixOf_iff_prefix, List.cons_append, List.cons_prefix_cons]
    rintro ⟨h, -⟩
    exact hsp (by rw [← h]; simp [Special])
  intro n
  induction n with
  | zero => intro k; rfl
  | succ n ih =>
      intro k
      match k with
      | 0 => simp only [level, base, hpar, hnum, hlit]
      | 1 => simp only [level, prefixed, hfn]; exact ih 0
      | 2 => simp only [level, infixed, ih 1]
      | 3 => simp only [level, infixed, ih 2]
      | 4 =>
          have := hop 6
          simp only [opOf] at this
          simp only [level, prefixed, this]; exact ih 3
      | 5 => simp only [level, infixed, ih 4]
      | k + 6 => simp only [level, infixed, ih 5]

end BL
