import Verif.Lemmas.GrammarRound
import Mathlib.Tactic.FinCases

/-! # Numerals are read as intended -/

set_option linter.unusedSectionVars false

namespace BL
open Spec
variable {K : Type} [Field K] [LinearOrder K]

theorem isNum_digit (d : Fin 10) : isNum (digitChar d) = true := by
  revert d; decide

theorem digit_val (d : Fin 10) : (digitChar d).toNat - '0'.toNat = d := by
  revert d; decide

theorem digit_ne (d : Fin 10) : digitChar d ≠ '-' ∧ digitChar d ≠ '+' := by
  revert d; decide

theorem isNum_iff (c : Char) : isNum c = true ↔ '0' ≤ c ∧ c ≤ '9' := by simp [isNum]

/-- the text does not go on with a digit -/
def NotNum (u : List Char) : Prop := ∀ c, u.head? = some c → isNum c = false

theorem digits_take (l : List (Fin 10)) {u : List Char} (hu : NotNum u) : (l.map digitChar ++ u).takeWhile isNum = l.map digitChar := by
  induction l with
  | nil =>
      cases u with
      | nil => rfl
      | cons c u => simp [List.takeWhile_cons, hu c rfl]
  | cons d l ih => simp only [List.map_cons, List.cons_append, List.takeWhile_cons, isNum_digit, if_true, ih]

theorem digits_drop (l : List (Fin 10)) {u : List Char} (hu : NotNum u) : (l.map digitChar ++ u).dropWhile isNum = u := by
  induction l with
  | nil =>
      cases u with
      | nil => rfl
      | cons c u => simp [List.dropWhile_cons, hu c rfl]
  | cons d l ih => simp only [List.map_cons, List.cons_append, List.dropWhile_cons, isNum_digit, if_true, ih]

theorem ends_notNum {r : List Char} (h : Ends r) : NotNum r := by
  intro c hc
  cases r with
  | nil => simp at hc
  | cons d r =>
      simp only [List.head?_cons, Option.some.injEq] at hc
      subst hc
      rw [← Bool.not_eq_true, isNum_iff]
      rcases ends_head h rfl with hw | hs
      · rintro ⟨h1, h2⟩
        unfold White at hw
        rcases hw with rfl | rfl | rfl | rfl <;> revert h1 <;> decide
      · exact special_not_num hs

/-- point and digits -/
def fracText : Option (List (Fin 10)) → List Char
  | none => []
  | some f => '.' :: f.map digitChar

/-- exponent; `cap`: the letter as written, or the capital letter -/
def expText (asWritten : Bool) : Option (Bool × Option Bool × List (Fin 10)) → List Char
  | none => []
  | some (cap, s, x) => (if cap || !asWritten then 'E' else 'e') :: signText s ++ x.map digitChar

/-- a numeral as the grammar returns it -/
def normText (m : Numeral) : List Char := m.int.map digitChar ++ fracText m.frac ++ expText false m.exp

theorem text_eq (m : Numeral) : m.text = m.int.map digitChar ++ fracText m.frac ++ expText true m.exp := by
  unfold Numeral.text
  congr 1
  · cases m.exp with
    | none => rfl
    | some q => obtain ⟨cap, s, x⟩ := q; simp [expText]

theorem notNum_exp {r : List Char} (h : NotNum r) (b : Bool) : ∀ e, NotNum (expText b e ++ r)
  | none => h
  | some (cap, s, x) => by
      intro c hc
      simp only [expText, List.cons_append, List.head?_cons, Option.some.injEq] at hc
      subst hc
      split <;> decide

theorem notNum_frac {r : List Char} (h : NotNum r) : ∀ f, NotNum (fracText f ++ r)
  | none => h
  | some f => by
      intro c hc
      simp only [fracText, List.cons_append, List.head?_cons, Option.some.injEq] at hc
      subst hc
      decide

/-- the text does not go on with a point -/
def NotPoint (u : List Char) : Prop := ∀ c, u.head? = some c → c ≠ '.'

theorem fraction_text {u : List Char} (hu : NotNum u) (hp : NotPoint u) : ∀ f, fraction (fracText f ++ u) = (fracText f, u)
  | none => by
      simp only [fracText, List.nil_append]
      unfold fraction
      split
      · exact absurd rfl (hp '.' rfl)
      · rfl
  | some f => by
      simp only [fracText, List.cons_append, fraction, digits_take f hu, digits_drop f hu]

/-- the text does not go on with the letter of an exponent -/
def NotExp (u : List Char) : Prop := ∀ c, u.head? = some c → c ≠ 'e' ∧ c ≠ 'E'

theorem exponent_text {u : List Char} (hu : NotNum u) (hx : NotExp u) (b : Bool) : ∀ e : Option (Bool × Option Bool × List (Fin 10)), (∀ q, e = some q → q.2.2 ≠ []) →
    exponent (expText b e ++ u) = (expText false e, u)
  | none, _ => by
      simp only [expText, List.nil_append]
      unfold exponent
      split
      · rename_i e c r
        obtain ⟨h1, h2⟩ := hx e rfl
        simp [h1, h2]
      · rfl
  | some (cap, s, x), h => by
      obtain ⟨d, x', rfl⟩ : ∃ d x', x = d :: x' := by
        cases x with
        | nil => exact absurd rfl (h _ rfl)
        | cons d x' => exact ⟨d, x', rfl⟩
      have hE : ∀ c : Bool, ((if c then 'E' else 'e') = 'e' || (if c then 'E' else 'e') = 'E') = true := by decide
      match s with
      | none =>
          have hn : numStart (digitChar d) = true := by simp [numStart, isNum_digit]
          simp only [expText, signText, List.map_cons, List.nil_append, List.cons_append, exponent, hE, hn, Bool.and_self, if_true, digits_take x' hu, digits_drop x' hu]
          simp
      | some true =>
          have hn : numStart '-' = true := by decide
          have e1 := digits_take (d :: x') hu
          have e2 := digits_drop (d :: x') hu
          simp only [expText, signText, List.nil_append, List.cons_append, exponent, hE, hn, Bool.and_self, if_true, e1, e2]
          simp
      | some false =>
          have hn : numStart '+' = true := by decide
          have e1 := digits_take (d :: x') hu
          have e2 := digits_drop (d :: x') hu
          simp only [expText, signText, List.nil_append, List.cons_append, exponent, hE, hn, Bool.and_self, if_true, e1, e2]
          simp

theorem ends_not {r : List Char} (h : Ends r) : NotPoint r ∧ NotExp r := by
  have key : ∀ c, r.head? = some c → c ≠ '.' ∧ c ≠ 'e' ∧ c ≠ 'E' := by
    intro c hc
    cases r with
    | nil => simp at hc
    | cons d r =>
        simp only [List.head?_cons, Option.some.injEq] at hc
        subst hc
        rcases ends_head h rfl with hw | hs
        · unfold White at hw
          rcases hw with rfl | rfl | rfl | rfl <;> decide
        · unfold Special at hs
          simp only [List.mem_cons, List.not_mem_nil, or_false] at hs
          rcases hs with rfl | rfl | rfl | rfl | rfl | rfl | rfl | rfl | rfl | rfl | rfl <;> decide
  exact ⟨fun c hc => (key c hc).1, fun c hc => (key c hc).2⟩

theorem notPoint_exp {r : List Char} (h : NotPoint r) (b : Bool) : ∀ e, NotPoint (expText b e ++ r)
  | none => h
  | some (cap, s, x) => by
      intro c hc
      simp only [expText, List.cons_append, List.head?_cons, Option.some.injEq] at hc
      subst hc
      split <;> decide

/-- a first character (digit or sign), then digits, fraction and exponent -/
theorem number_body {c : Char} (hc : numStart c = true) (l : List (Fin 10)) (m : Numeral) {r : List Char} (hr : Ends r) :
    number (c :: (l.map digitChar ++ fracText m.frac ++ expText true m.exp) ++ r) = some (c :: (l.map digitChar ++ fracText m.frac ++ expText false m.exp), r) := by
  have hw : ¬ White c := by
    unfold numStart isNum at hc
    simp only [Bool.or_eq_true, Bool.and_eq_true, decide_eq_true_eq] at hc
    rintro (rfl | rfl | rfl | rfl) <;> revert hc <;> decide
  have h1 := ends_notNum hr
  obtain ⟨h2, h3⟩ := ends_not hr
  have h4 := notNum_exp h1 true m.exp
  have h5 := notNum_frac h4 m.frac
  have h6 := notPoint_exp h2 true m.exp
  unfold number
  rw [List.cons_append, skip_cons hw]
  simp only [hc, if_true, List.append_assoc, digits_take l h5, digits_drop l h5, fraction_text h4 h6, exponent_text h1 h3 true m.exp m.exp_ne, List.cons_append]

theorem number_text (m : Numeral) {r : List Char} (hr : Ends r) : number (m.text ++ r) = some (normText m, r) := by
  obtain ⟨d, l, hl⟩ : ∃ d l, m.int = d :: l := by
    cases h : m.int with
    | nil => exact absurd h m.int_ne
    | cons d l => exact ⟨d, l, rfl⟩
  have := number_body (c := digitChar d) (by simp [numStart, isNum_digit]) l m hr
  rw [text_eq, normText, hl]
  simpa using this

theorem number_neg (m : Numeral) {r : List Char} (hr : Ends r) : number ('-' :: m.text ++ r) = some ('-' :: normText m, r) := by
  have := number_body (c := '-') (by decide) m.int m hr
  rw [text_eq, normText]
  exact this

theorem digitsVal_eq (l : List (Fin 10)) : digitsVal (l.map digitChar) = decimal l := by
  unfold digitsVal decimal
  rw [List.foldl_map]
  simp only [digit_val]

theorem pyFloat_body (m : Numeral) : ∀ (b : Bool) (s : List Char), splitSign s = (b, normText m) → pyFloat s = some (if b then -(m.value : K) else m.value) := by
  intro b s hs
  obtain ⟨d, l, hl⟩ : ∃ d l, m.int = d :: l := by
    cases h : m.int with
    | nil => exact absurd h m.int_ne
    | cons d l => exact ⟨d, l, rfl⟩
  have hn : NotNum [] := by intro c hc; simp at hc
  have hp : NotPoint [] := by intro c hc; simp at hc
  have h4 := notNum_exp hn false m.exp
  have h5 := notNum_frac h4 m.frac
  have h6 := notPoint_exp hp false m.exp
  simp only [List.append_nil] at h4 h5 h6
  have hi : m.int.map digitChar ≠ [] := by simp [m.int_ne]
  have hdrop : (fracText m.frac).drop 1 = (m.frac.getD []).map digitChar := by cases m.frac <;> rfl
  unfold pyFloat
  simp only [hs, normText, List.append_assoc, digits_take m.int h5, digits_drop m.int h5, fraction_text h4 h6, hdrop]
  rw [if_neg (fun h => hi h.1), ← List.map_append, digitsVal_eq, List.length_map]
  unfold Numeral.value
  cases he : m.exp with
  | none => simp only [expText]
  | some q =>
      obtain ⟨cap, sg, x⟩ := q
      have hx : x ≠ [] := m.exp_ne _ he
      have hall : (x.map digitChar).all isNum = true := by simp [isNum_digit]
      have hx' : x.map digitChar ≠ [] := by simp [hx]
      have hsp : ∀ sg, splitSign (signText sg ++ x.map digitChar) = (match sg with | some true => true | _ => false, x.map digitChar) := by
        intro sg
        match sg with
        | some true => rfl
        | some false => rfl
        | none =>
            obtain ⟨e, x', rfl⟩ : ∃ e x', x = e :: x' := by
              cases x with
              | nil => exact absurd rfl hx
              | cons e x' => exact ⟨e, x', rfl⟩
            simp only [signText, List.nil_append, List.map_cons]
            unfold splitSign
            split
            · rename_i h; exact absurd (List.cons.inj h).1 (digit_ne e).1
            · rename_i h; exact absurd (List.cons.inj h).1 (digit_ne e).2
            · rfl
      simp only [expText, Bool.not_false, Bool.or_true, if_true, List.cons_append, hsp, hall, hx', digitsVal_eq, ne_eq, not_false_eq_true, and_self]
      match sg with
      | some true => cases b <;> simp [neg_div]
      | some false => cases b <;> simp
      | none => cases b <;> simp

theorem splitSign_norm (m : Numeral) : splitSign (normText m) = (false, normText m) := by
  obtain ⟨d, l, hl⟩ : ∃ d l, m.int = d :: l := by
    cases h : m.int with
    | nil => exact absurd h m.int_ne
    | cons d l => exact ⟨d, l, rfl⟩
  rw [normText, hl]
  simp only [List.map_cons, List.cons_append]
  unfold splitSign
  split
  · rename_i h; exact absurd (List.cons.inj h).1 (digit_ne d).1
  · rename_i h; exact absurd (List.cons.inj h).1 (digit_ne d).2
  · rfl

theorem pyFloat_norm (m : Numeral) : pyFloat (normText m) = some (m.value : K) := pyFloat_body m false _ (splitSign_norm m)

theorem pyFloat_neg (m : Numeral) : pyFloat ('-' :: normText m) = some (-(m.value : K)) := pyFloat_body m true _ rfl

theorem norm_head (m : Numeral) : ∃ (d : Fin 10) (u : List Char), normText m = digitChar d :: u ∧ ∃ u', m.text = digitChar d :: u' := by
  obtain ⟨d, l, hl⟩ : ∃ d l, m.int = d :: l := by
    cases h : m.int with
    | nil => exact absurd h m.int_ne
    | cons d l => exact ⟨d, l, rfl⟩
  exact ⟨d, l.map digitChar ++ fracText m.frac ++ expText false m.exp, by rw [normText, hl]; simp, l.map digitChar ++ fracText m.frac ++ expText true m.exp, by rw [text_eq, hl]; simp⟩

end BL
