import Verif.Lemmas.GrammarNum

/-! # Written expressions are parsed as intended: main induction -/

set_option linter.unusedSectionVars false

namespace BL
open Spec
variable {K : Type} [Field K] [LinearOrder K] {N F : List (List Char)}

theorem clear_names (h : Clear N F) : [] ∉ N := fun h' => (h.par _ h').ne rfl
theorem clear_fs (h : Clear N F) : [] ∉ F := fun h' => (h.fn _ h').ne rfl

/-- no word of the list begins with the character -/
theorem oneOf_head {l : List (List Char)} {s : List Char} {c : Char} {t : List Char} (hs : skip s = c :: t) (hl : ∀ v ∈ l, v ≠ [] ∧ v.head? ≠ some c) : oneOf l s = none := by
  rw [oneOf_none]
  intro v hv hp
  obtain ⟨h1, h2⟩ := hl v hv
  cases v with
  | nil => exact h1 rfl
  | cons d v =>
      rw [hs, List.cons_prefix_cons] at hp
      exact h2 (by rw [hp.1]; rfl)

theorem names_head (hC : Clear N F) {c : Char} (hc : Special c ∨ ('0' ≤ c ∧ c ≤ '9')) : ∀ v ∈ N, v ≠ [] ∧ v.head? ≠ some c := by
  intro v hv
  have g := hC.par v hv
  refine ⟨g.ne, fun h => ?_⟩
  rcases hc with hc | hc
  · exact g.plain c (List.mem_of_mem_head? h) hc
  · exact (g.head c h).2 hc

theorem fs_head (hC : Clear N F) {c : Char} (hc : Special c ∨ ('0' ≤ c ∧ c ≤ '9')) : ∀ v ∈ F, v ≠ [] ∧ v.head? ≠ some c := by
  intro v hv
  have g := hC.fn v hv
  refine ⟨g.ne, fun h => ?_⟩
  rcases hc with hc | hc
  · exact (g.plain c (List.mem_of_mem_head? h)).1 hc
  · exact g.head c h hc

theorem fnFails_head (hC : Clear N F) {s : List Char} {c : Char} {t : List Char} (hs : skip s = c :: t) (hc : Special c ∨ ('0' ≤ c ∧ c ≤ '9')) : FnFails N F s := by
  intro g q h
  rw [oneOf_head hs (fs_head hC hc)] at h
  cases h

theorem white_not_num {c : Char} (h : '0' ≤ c ∧ c ≤ '9') : ¬ White c := by
  rintro (rfl | rfl | rfl | rfl) <;> revert h <;> decide

/-! ## numbers -/

theorem tokOf_num (hC : Clear N F) (m : Numeral) : (tokOf N F (normText m) : Tok K) = .num m.value := by
  obtain ⟨d, u, hu, -⟩ := norm_head m
  have hd := (isNum_iff _).1 (isNum_digit d)
  have hsym : symbol (normText m) = none := by
    rw [hu]
    unfold symbol
    split <;> first | rfl | (rename_i h; have h := (List.cons.inj h).1; rw [h] at hd; revert hd; decide)
  have hn : normText m ∉ N := fun h => (names_head hC (Or.inr hd) _ h).2 (by rw [hu]; rfl)
  have hf : normText m ∉ F := fun h => (fs_head hC (Or.inr hd) _ h).2 (by rw [hu]; rfl)
  simp only [tokOf, hsym, hn, hf, if_false, pyFloat_norm]

theorem tokOf_neg (hC : Clear N F) (m : Numeral) : (tokOf N F ('-' :: normText m) : Tok K) = .num (-m.value) := by
  obtain ⟨d, u, hu, -⟩ := norm_head m
  have hd : Special '-' := by simp [Special]
  have hsym : symbol ('-' :: normText m) = none := by
    rw [hu]; rfl
  have hn : '-' :: normText m ∉ N := fun h => (names_head hC (Or.inl hd) _ h).2 rfl
  have hf : '-' :: normText m ∉ F := fun h => (fs_head hC (Or.inl hd) _ h).2 rfl
  simp only [tokOf, hsym, hn, hf, if_false, pyFloat_neg]

theorem parses_num (hC : Clear N F) (m : Numeral) {r : List Char} (hr : Ends r) : Parses N F 0 (m.text ++ r) (.tok (.num (m.value : K))) r ∧ FnFails N F (m.text ++ r) ∧ NoSign (m.text ++ r) := by
  obtain ⟨d, -, -, u, hu⟩ := norm_head m
  have hd := (isNum_iff _).1 (isNum_digit d)
  have hs : skip (m.text ++ r) = digitChar d :: (u ++ r) := by rw [hu, List.cons_append, skip_cons (white_not_num hd)]
  refine ⟨⟨1, .tok (normText m), r, rfl, ?_, ?_⟩, fnFails_head hC hs (Or.inr hd), ?_⟩
  · simp only [STree.toP, tokOf_num hC]
  · intro n hn
    obtain ⟨n, rfl⟩ : ∃ n', n = n' + 1 := ⟨n - 1, by omega⟩
    simp only [level, base, oneOf_head hs (names_head hC (Or.inr hd)), number_text m hr]
  · intro c hc
    rw [hs, List.head?_cons, Option.some.injEq] at hc
    rw [← hc]
    exact ⟨(digit_ne d).2, (digit_ne d).1⟩

theorem parses_neg (hC : Clear N F) (m : Numeral) {w r : List Char} (hw : Blank w) (hr : Ends r) :
    Parses N F 0 (w ++ '-' :: m.text ++ r) (.tok (.num (-m.value : K))) r ∧ FnFails N F (w ++ '-' :: m.text ++ r) := by
  have hd : Special '-' := by simp [Special]
  have hs : skip (w ++ '-' :: m.text ++ r) = '-' :: (m.text ++ r) := by rw [List.append_assoc, skip_blank hw, List.cons_append, skip_cons (special_not_white hd)]
  refine ⟨⟨1, .tok ('-' :: normText m), r, rfl, ?_, ?_⟩, fnFails_head hC hs (Or.inl hd)⟩
  · simp only [STree.toP, tokOf_neg hC]
  · intro n hn
    obtain ⟨n, rfl⟩ : ∃ n', n = n' + 1 := ⟨n - 1, by omega⟩
    have h1 : number (w ++ '-' :: m.text ++ r) = number ('-' :: m.text ++ r) := number_skip (by rw [hs, List.cons_append, skip_cons (special_not_white hd)])
    simp only [level, base, oneOf_head hs (names_head hC (Or.inl hd)), h1, number_neg m hr]

/-! ## names -/

theorem symbol_none {s : List Char} (h : ∀ c ∈ s, ¬ Special c) : symbol s = none := by
  unfold symbol
  split <;> first | rfl | (exfalso; exact h _ (List.mem_singleton.2 rfl) (by simp [Special]))

theorem tokOf_name (hC : Clear N F) {n : String} (hn : n.toList ∈ N) : (tokOf N F n.toList : Tok K) = .name n := by
  simp only [tokOf, symbol_none (hC.par _ hn).plain, hn, if_true, String.ofList_toList]

theorem fn_not_name (hC : Clear N F) {f : List Char} (hf : f ∈ F) : f ∉ N := by
  intro hn
  obtain ⟨m, h1, h2, -⟩ := hC.clash f hn f ⟨hf, List.prefix_refl f, fun g _ hg => hg.length_le⟩
  exact h2 (by simpa using h1)

theorem tokOf_fn (hC : Clear N F) {f : String} (hf : f.toList ∈ F) : (tokOf N F f.toList : Tok K) = .fn f := by
  simp only [tokOf, symbol_none fun c hc => ((hC.fn _ hf).plain c hc).1, fn_not_name hC hf, hf, if_true, if_false, String.ofList_toList]

theorem skip_name {n : List Char} (hn : GoodName n) (r : List Char) : skip (n ++ r) = n ++ r := by
  cases h : n with
  | nil => exact absurd h hn.ne
  | cons c n' => rw [List.cons_append, skip_cons ((hn.head c (by rw [h]; rfl)).1)]

theorem skip_fn {n : List Char} (hn : GoodFn n) (r : List Char) : skip (n ++ r) = n ++ r := by
  cases h : n with
  | nil => exact absurd h hn.ne
  | cons c n' => rw [List.cons_append, skip_cons ((hn.plain c (by rw [h]; simp)).2)]

theorem parses_par (hC : Clear N F) {n : String} (hn : n.toList ∈ N) {r : List Char} (hr : Ends r) :
    Parses N F 0 (n.toList ++ r) (.tok (.name n) : PTree K) r ∧ FnFails N F (n.toList ++ r) ∧ NoSign (n.toList ++ r) := by
  have g := hC.par _ hn
  have hs := skip_name g r
  refine ⟨⟨1, .tok n.toList, r, rfl, ?_, ?_⟩, ?_, ?_⟩
  · simp only [STree.toP, tokOf_name hC hn]
  · intro k hk
    obtain ⟨k, rfl⟩ : ∃ k', k = k' + 1 := ⟨k - 1, by omega⟩
    have : oneOf N (n.toList ++ r) = some (n.toList, r) := oneOf_eq hn hs fun v hv hp => (not_cross_name (hC.par v hv) hr (hs ▸ hp)).1
    simp only [level, base, this]
  · intro f q hf k
    obtain ⟨h1, h2, h3⟩ := oneOf_some hf
    rw [hs] at h2 h3
    have h4 := not_cross_fn (hC.fn f h1) hr ⟨q, h2.symm⟩
    obtain ⟨m, m1, m2, m3⟩ := hC.clash _ hn f ⟨h1, h4.2, fun v hv hp => h3 v hv (hp.trans (List.prefix_append _ _))⟩
    rw [m1, List.append_assoc] at h2
    rw [← List.append_cancel_left h2]
    exact noStart_none hC m3 m2 hr k 1
  · intro c hc
    rw [hs] at hc
    have : n.toList.head? = some c := by
      cases h : n.toList with
      | nil => exact absurd h g.ne
      | cons d l => rw [h] at hc; exact hc
    have hp := g.plain c (List.mem_of_mem_head? this)
    exact ⟨fun h => hp (by subst h; simp [Special]), fun h => hp (by subst h; simp [Special])⟩

/-! ## parentheses -/

theorem skip_special {c : Char} (h : Special c) {w : List Char} (hw : Blank w) (t : List Char) : skip (w ++ c :: t) = c :: t := by
  rw [skip_blank hw, skip_cons (special_not_white h)]

theorem parses_paren (hC : Clear N F) {w s : List Char} {e : PTree K} {r : List Char} (hw : Blank w) (h : Parses N F 6 (s ++ ')' :: r) e (')' :: r)) :
    Parses N F 0 (w ++ '(' :: (s ++ ')' :: r)) e r ∧ FnFails N F (w ++ '(' :: (s ++ ')' :: r)) ∧ NoSign (w ++ '(' :: (s ++ ')' :: r)) := by
  have hp : Special '(' := by simp [Special]
  have hs := skip_special hp hw (s ++ ')' :: r)
  obtain ⟨M, t, r', h1, h2, h3⟩ := h
  rw [skip_cons (special_not_white (by simp [Special]))] at h1
  have hnum : number (w ++ '(' :: (s ++ ')' :: r)) = none := by
    unfold number
    rw [hs]
    rfl
  refine ⟨⟨M + 1, t, r, rfl, h2, ?_⟩, fnFails_head hC hs (Or.inl hp), ?_⟩
  · intro n hn
    obtain ⟨n, rfl⟩ : ∃ n', n = n' + 1 := ⟨n - 1, by omega⟩
    have l1 : literal ['('] (w ++ '(' :: (s ++ ')' :: r)) = some (s ++ ')' :: r) := literal_eq (by rw [hs]; rfl)
    have l2 : literal [')'] r' = some r := literal_eq (by rw [h1]; rfl)
    simp only [level, base, oneOf_head hs (names_head hC (Or.inl hp)), hnum, l1, h3 n (by omega), l2]
  · intro c hc
    rw [hs] at hc
    simp only [List.head?_cons, Option.some.injEq] at hc
    rw [← hc]
    decide

theorem parses_fn (hC : Clear N F) {f : String} (hf : f.toList ∈ F) {w s : List Char} {e : PTree K} {r : List Char} (hw : Blank w) (h : Parses N F 6 (s ++ ')' :: r) e (')' :: r)) :
    Parses N F 1 (f.toList ++ (w ++ '(' :: (s ++ ')' :: r))) (.list [.tok (.fn f), e]) r ∧ NoSign (f.toList ++ (w ++ '(' :: (s ++ ')' :: r))) := by
  have g := hC.fn _ hf
  have hs := skip_fn g (w ++ '(' :: (s ++ ')' :: r))
  have hends : Ends (w ++ '(' :: (s ++ ')' :: r)) := ends_blank hw (ends_special (by simp [Special]) _)
  have ho : oneOf F (f.toList ++ (w ++ '(' :: (s ++ ')' :: r))) = some (f.toList, w ++ '(' :: (s ++ ')' :: r)) :=
    oneOf_eq hf hs fun v hv hp => (not_cross_fn (hC.fn v hv) hends (hs ▸ hp)).1
  obtain ⟨p1, p2, p3⟩ := parses_paren hC hw h
  obtain ⟨M, t, r', h1, h2, h3⟩ := lift_fn p1 p2
  refine ⟨⟨M + 1, .list [.tok f.toList, t], r', h1, ?_, ?_⟩, ?_⟩
  · simp only [STree.toP, STree.toPs, tokOf_fn hC hf, h2]
  · intro n hn
    obtain ⟨n, rfl⟩ : ∃ n', n = n' + 1 := ⟨n - 1, by omega⟩
    simp only [level, prefixed, ho, h3 n (by omega)]
  · intro c hc
    rw [hs] at hc
    have : f.toList.head? = some c := by
      cases h : f.toList with
      | nil => exact absurd h g.ne
      | cons d l => rw [h] at hc; exact hc
    have hp := (g.plain c (List.mem_of_mem_head? this)).1
    exact ⟨fun h => hp (by subst h; simp [Special]), fun h => hp (by subst h; simp [Special])⟩

/-! ## chains -/

/-- the loop over operators of level `j` reads the list `L` from `r` and stops at `rr` (up to white space) -/
def ManyReads (N F : List (List Char)) (j : ℕ) (r : List Char) (L : List (PTree K)) (rr : List Char) : Prop :=
  ∃ ts, STree.toPs N F ts = L ∧ ∀ r', skip r' = skip r → ∃ r'' M, skip r'' = skip rr ∧ ∀ n, M ≤ n → ∀ m, r'.length ≤ m → many (oneOf (opOf j)) (level N F n (argOf j)) m r' = (ts, r'')

theorem ManyReads.skip {j : ℕ} {r r2 : List Char} {L : List (PTree K)} {rr : List Char} (h : ManyReads N F j r L rr) (hr : skip r2 = skip r) : ManyReads N F j r2 L rr := by
  obtain ⟨ts, h1, h2⟩ := h
  exact ⟨ts, h1, fun r' h' => h2 r' (h'.trans hr)⟩

theorem many_nil {k j : ℕ} {r : List Char} (hc : Closed N F k r) (hj : j ∈ [2, 3, 5, 6]) (hjk : j ≤ k) : ManyReads N F j r ([] : List (PTree K)) r :=
  ⟨[], rfl, fun r' h => ⟨r', 0, h, fun n _ m _ => many_closed hc hj hjk h n m⟩⟩

theorem many_cons (hC : Clear N F) {j : ℕ} {c : Char} (hc : [c] ∈ opOf j) {o : Op} (ho : symbol [c] = some o) (hs : Special c) {s r : List Char} {e : PTree K} {L : List (PTree K)} {rr : List Char}
    (h : Parses N F (argOf j) s e r) (hm : ManyReads N F j r L rr) : ManyReads N F j (c :: s) (.tok (.op o) :: e :: L) rr := by
  obtain ⟨M, t, r1, h1, h2, h3⟩ := h
  obtain ⟨ts, m1, m2⟩ := hm
  refine ⟨.tok [c] :: t :: ts, ?_, ?_⟩
  · simp only [STree.toPs, STree.toP, h2, m1, tokOf, ho]
  · intro r' hr'
    obtain ⟨r'', M', q1, q2⟩ := m2 r1 h1
    refine ⟨r'', max M M', q1, ?_⟩
    intro n hn m hm
    rw [skip_cons (special_not_white hs)] at hr'
    have hlen : s.length + 1 ≤ r'.length := by
      have := skip_le r'
      rw [hr'] at this
      exact this
    obtain ⟨m, rfl⟩ : ∃ m', m = m' + 1 := ⟨m - 1, by omega⟩
    have hL := h3 n (le_trans (le_max_left _ _) hn)
    have hlt := level_len (clear_names hC) (clear_fs hC) n _ s t r1 hL
    simp only [many, op_some (opOf_len j) hc hr', hL, q2 n (le_trans (le_max_right _ _) hn) m (by omega)]

theorem infix_reads {j : ℕ} (hj : j ∈ [2, 3, 5, 6]) {s r : List Char} {e : PTree K} {L : List (PTree K)} {rr : List Char} (h : Parses N F (lastOf j) s e r) (hm : ManyReads N F j r L rr) (hL : L ≠ []) :
    Parses N F j s (.list (e :: L)) rr := by
  obtain ⟨M, t, r1, h1, h2, h3⟩ := h
  obtain ⟨ts, m1, m2⟩ := hm
  obtain ⟨r'', M', q1, q2⟩ := m2 r1 h1
  refine ⟨max M M' + 1, .list (t :: ts), r'', q1, ?_, ?_⟩
  · simp only [STree.toP, STree.toPs, h2, m1]
  · intro n hn
    obtain ⟨n, rfl⟩ : ∃ n', n = n' + 1 := ⟨n - 1, by omega⟩
    rw [level_infix N F hj]
    unfold infixed
    rw [h3 n (by have := le_max_left M M'; omega)]
    simp only []
    rw [q2 n (by have := le_max_right M M'; omega) r1.length (le_refl _)]
    cases ts with
    | nil => exact absurd m1.symm hL
    | cons a ts => rfl

theorem arith_special (o : Arith) : Special o.char := by cases o <;> simp [Special, Arith.char]

theorem arith_symbol (o : Arith) : symbol [o.char] = some o.op := by cases o <;> rfl

theorem arith_opOf (o : Arith) : [o.char] ∈ opOf o.level := by cases o <;> decide

/-- the operators of a level end all expressions of lower levels -/
theorem closed_op (o : Arith) {k : ℕ} (hk : k < o.level) (r : List Char) : Closed N F k (o.char :: r) := by
  refine closed_of (ends_special (arith_special o) r) fun j hj hjk c hc => ?_
  rw [skip_cons (special_not_white (arith_special o))] at hc
  simp only [List.head?_cons, Option.some.injEq] at hc
  subst hc
  have hlt : j < o.level := lt_of_le_of_lt hjk hk
  simp only [List.mem_cons, List.not_mem_nil, or_false] at hj
  revert hlt
  cases o <;> rcases hj with rfl | rfl | rfl | rfl <;> decide

theorem closed_at {k : ℕ} (hk : k < 2) (r : List Char) : Closed N F k ('@' :: r) := by
  refine closed_of (ends_special (by simp [Special]) r) fun j hj hjk c _ => ?_
  simp only [List.mem_cons, List.not_mem_nil, or_false] at hj
  omega

theorem chain_ne (c : Chain K) : c.list ≠ [] := by
  cases c with
  | two a o b => simp [Chain.list]
  | more c o b => simp [Chain.list]

/-! ## main induction -/

variable {names fs : List String}

mutual
theorem writes_start (hC : Clear (names.map String.toList) (fs.map String.toList)) {k : ℕ} {e : Query K} {s : List Char} (h : Writes names fs k e s) (r : List Char) (hr : Ends r) (hk : k ≤ 6) :
    (k ≤ 3 → NoSign (s ++ r)) ∧ (k = 0 → FnFails (names.map String.toList) (fs.map String.toList) (s ++ r)) ∧ (Closed (names.map String.toList) (fs.map String.toList) k r →
      Parses (names.map String.toList) (fs.map String.toList) k (s ++ r) e.tree r) := by
  match h with
  | .num m =>
      obtain ⟨a, b, c⟩ := parses_num (K := K) hC m hr
      exact ⟨fun _ => c, fun _ => b, fun _ => a⟩
  | .par hn =>
      obtain ⟨a, b, c⟩ := parses_par (K := K) hC (List.mem_map_of_mem hn) hr
      exact ⟨fun _ => c, fun _ => b, fun _ => a⟩
  | @Writes.paren _ _ _ _ e s h' =>
      have ih := (writes_start hC h' (')' :: r) (ends_special (by simp [Special]) r) (le_refl _)).2.2 (closed_paren _ _ _ r)
      obtain ⟨a, b, c⟩ := parses_paren hC (w := []) (by simp [Blank]) ih
      have e1 : '(' :: s ++ [')'] ++ r = [] ++ '(' :: (s ++ ')' :: r) := by simp
      rw [e1]
      exact ⟨fun _ => c, fun _ => b, fun _ => a⟩
  | @Writes.fn _ _ _ _ f w e s hf hw h' =>
      have ih := (writes_start hC h' (')' :: r) (ends_special (by simp [Special]) r) (le_refl _)).2.2 (closed_paren _ _ _ r)
      obtain ⟨a, b⟩ := parses_fn hC (List.mem_map_of_mem hf) hw ih
      have e1 : f.toList ++ w ++ '(' :: s ++ [')'] ++ r = f.toList ++ (w ++ '(' :: (s ++ ')' :: r)) := by simp
      rw [e1]
      exact ⟨fun _ => b, fun h => by omega, fun _ => a⟩
  | @Writes.at _ _ _ _ n w w' m hn hw hw' =>
      have e1 : n.toList ++ w ++ '@' :: w' ++ m.text ++ r = n.toList ++ (w ++ '@' :: (w' ++ (m.text ++ r))) := by simp
      rw [e1]
      have hat : Ends (w ++ '@' :: (w' ++ (m.text ++ r))) := ends_blank hw (ends_special (by simp [Special]) _)
      obtain ⟨a1, a2, a3⟩ := parses_par (K := K) hC (List.mem_map_of_mem hn) hat
      refine ⟨fun _ => a3, fun h => by omega, fun hc => ?_⟩
      obtain ⟨b1, b2, b3⟩ := parses_num (K := K) hC m hr
      refine infix_reads (j := 2) (L := [.tok (.op .at), .tok (.num m.value)]) (by simp) (lift_fn a1 a2) ?_ (by simp)
      refine ManyReads.skip ?_ (skip_blank hw _)
      exact many_cons hC (j := 2) (by simp [opOf]) rfl (by simp [Special]) ((lift_fn b1 b2).skip_left (skip_blank hw' _)) (many_nil hc (by simp) (le_refl _))
  | @Writes.atNeg _ _ _ _ n w w' m hn hw hw' =>
      have e1 : n.toList ++ w ++ '@' :: w' ++ '-' :: m.text ++ r = n.toList ++ (w ++ '@' :: (w' ++ '-' :: m.text ++ r)) := by simp
      rw [e1]
      have hat : Ends (w ++ '@' :: (w' ++ '-' :: m.text ++ r)) := ends_blank hw (ends_special (by simp [Special]) _)
      obtain ⟨a1, a2, a3⟩ := parses_par (K := K) hC (List.mem_map_of_mem hn) hat
      refine ⟨fun _ => a3, fun h => by omega, fun hc => ?_⟩
      obtain ⟨b1, b2⟩ := parses_neg (K := K) hC m hw' hr
      refine infix_reads (j := 2) (L := [.tok (.op .at), .tok (.num (-m.value))]) (by simp) (lift_fn a1 a2) ?_ (by simp)
      refine ManyReads.skip ?_ (skip_blank hw _)
      exact many_cons hC (j := 2) (by simp [opOf]) rfl (by simp [Special]) (lift_fn b1 b2) (many_nil hc (by simp) (le_refl _))
  | @Writes.pow _ _ _ _ a b s s' ha hb =>
      have e1 : s ++ '^' :: s' ++ r = s ++ '^' :: (s' ++ r) := by simp
      rw [e1]
      obtain ⟨a1, -, a3⟩ := writes_start hC ha ('^' :: (s' ++ r)) (ends_special (by simp [Special]) _) (by omega)
      obtain ⟨-, -, b3⟩ := writes_start hC hb r hr (by omega)
      refine ⟨fun _ => a1 (by omega), fun h => by omega, fun hc => ?_⟩
      exact infix_reads (j := 3) (L := [.tok (.op .pow), b.tree]) (by simp) (a3 (closed_op .pow (by decide) _))
        (many_cons hC (j := 3) (by simp [opOf]) rfl (by simp [Special]) (b3 hc) (many_nil hc (by simp) (le_refl _))) (by simp)
  | @Writes.powNeg _ _ _ _ a s w m ha hw =>
      have e1 : s ++ '^' :: w ++ '-' :: m.text ++ r = s ++ '^' :: (w ++ '-' :: m.text ++ r) := by simp
      rw [e1]
      obtain ⟨a1, -, a3⟩ := writes_start hC ha ('^' :: (w ++ '-' :: m.text ++ r)) (ends_special (by simp [Special]) _) (by omega)
      obtain ⟨b1, b2⟩ := parses_neg (K := K) hC m hw hr
      refine ⟨fun _ => a1 (by omega), fun h => by omega, fun hc => ?_⟩
      exact infix_reads (j := 3) (L := [.tok (.op .pow), .tok (.num (-m.value))]) (by simp) (a3 (closed_op .pow (by decide) _))
        (many_cons hC (j := 3) (by simp [opOf]) rfl (by simp [Special]) (lift (k := 0) (j := 3) (by omega) (by omega) b1 hc (fun _ => b2) (by omega)) (many_nil hc (by simp) (le_refl _))) (by simp)
  | @Writes.neg _ _ _ _ e s h' =>
      obtain ⟨-, -, a3⟩ := writes_start hC h' r hr (by omega)
      refine ⟨fun h => by omega, fun h => by omega, fun hc => ?_⟩
      obtain ⟨M, t, r', h1, h2, h3⟩ := a3 hc
      refine ⟨M + 1, .list [.tok ['-'], t], r', h1, ?_, ?_⟩
      · simp only [STree.toP, STree.toPs, h2, Query.tree]; rfl
      · intro n hn
        obtain ⟨n, rfl⟩ : ∃ n', n = n' + 1 := ⟨n - 1, by omega⟩
        have ho : oneOf [['+'], ['-']] ('-' :: s ++ r) = some (['-'], s ++ r) := op_some (opOf_len 6) (by simp [opOf]) (skip_cons (special_not_white (by simp [Special])) _)
        simp only [level, prefixed, ho, h3 n (by omega)]
  | @Writes.pos _ _ _ _ e s h' =>
      obtain ⟨-, -, a3⟩ := writes_start hC h' r hr (by omega)
      refine ⟨fun h => by omega, fun h => by omega, fun hc => ?_⟩
      obtain ⟨M, t, r', h1, h2, h3⟩ := a3 hc
      refine ⟨M + 1, .list [.tok ['+'], t], r', h1, ?_, ?_⟩
      · simp only [STree.toP, STree.toPs, h2, Query.tree]; rfl
      · intro n hn
        obtain ⟨n, rfl⟩ : ∃ n', n = n' + 1 := ⟨n - 1, by omega⟩
        have ho : oneOf [['+'], ['-']] ('+' :: s ++ r) = some (['+'], s ++ r) := op_some (opOf_len 6) (by simp [opOf]) (skip_cons (special_not_white (by simp [Special])) _)
        simp only [level, prefixed, ho, h3 n (by omega)]
  | @Writes.chain _ _ _ _ k c s h' =>
      have hk' : ∃ k', k = k' + 1 ∧ 4 ≤ k' := by cases h' <;> exact ⟨_, rfl, by assumption⟩
      obtain ⟨k', hk', hk4⟩ := hk'
      refine ⟨fun h => by omega, fun h => by omega, fun hc => ?_⟩
      have := writes_chain hC h' hk' (by omega) r hr (hc.mono (by omega)) [] r (many_nil hc (by simp; omega) (by omega))
      rw [hk']
      simpa [Query.tree] using this
  | @Writes.up _ _ _ _ k e s h' =>
      obtain ⟨a1, a2, a3⟩ := writes_start hC h' r hr (by omega)
      refine ⟨fun h => a1 (by omega), fun h => by omega, fun hc => ?_⟩
      exact lift (Nat.le_succ k) hk (a3 (hc.mono (Nat.le_succ k))) hc a2 fun h _ => a1 h
  | @Writes.before _ _ _ _ k e w s hw h' =>
      obtain ⟨a1, a2, a3⟩ := writes_start hC h' r hr hk
      have hs : skip (w ++ s ++ r) = skip (s ++ r) := by rw [List.append_assoc, skip_blank hw]
      refine ⟨fun h c hc => a1 h c (by rw [← hs]; exact hc), fun h g q hg => a2 h g q (by rw [← hg]; exact oneOf_skip hs.symm), fun hc => (a3 hc).skip_left hs⟩
  | @Writes.after _ _ _ _ k e w s hw h' =>
      obtain ⟨a1, a2, a3⟩ := writes_start hC h' (w ++ r) (ends_blank hw hr) hk
      rw [List.append_assoc]
      exact ⟨a1, a2, fun hc => (a3 (hc.blank hw)).skip_right (skip_blank hw r)⟩

theorem writes_chain (hC : Clear (names.map String.toList) (fs.map String.toList)) {j : ℕ} {c : Chain K} {s : List Char} (h : WritesChain names fs j c s) {k : ℕ} (hjk : j = k + 1) (hk : k + 1 ≤ 6) (r : List Char) (hr : Ends r)
    (hc : Closed (names.map String.toList) (fs.map String.toList) k r) (L : List (PTree K)) (rr : List Char) (hm : ManyReads (names.map String.toList) (fs.map String.toList) (k + 1) r L rr) :
    Parses (names.map String.toList) (fs.map String.toList) (k + 1) (s ++ r) (.list (c.list ++ L)) rr := by
  match h with
  | @WritesChain.two _ _ _ _ k' a b o s s' h4 ho ha hb =>
      obtain rfl : k' = k := by omega
      have e1 : s ++ o.char :: s' ++ r = s ++ o.char :: (s' ++ r) := by simp
      rw [e1]
      have a3 := (writes_start hC ha (o.char :: (s' ++ r)) (ends_special (arith_special o) _) (by omega)).2.2 (closed_op o (by omega) _)
      have b3 := (writes_start hC hb r hr (by omega)).2.2 hc
      have hl : lastOf (k' + 1) = k' ∧ argOf (k' + 1) = k' := by
        have : k' = 4 ∨ k' = 5 := by omega
        rcases this with rfl | rfl <;> exact ⟨rfl, rfl⟩
      refine infix_reads (j := k' + 1) (e := a.tree) (L := .tok (.op o.op) :: b.tree :: L) (by simp; omega) (by rw [hl.1]; exact a3) ?_ (by simp)
      exact many_cons hC (ho ▸ arith_opOf o) (arith_symbol o) (arith_special o) (by rw [hl.2]; exact b3) hm
  | @WritesChain.more _ _ _ _ k' c b o s s' h4 ho hc' hb =>
      obtain rfl : k' = k := by omega
      have e1 : s ++ o.char :: s' ++ r = s ++ o.char :: (s' ++ r) := by simp
      rw [e1]
      have b3 := (writes_start hC hb r hr (by omega)).2.2 hc
      have hl : argOf (k' + 1) = k' := by
        have : k' = 4 ∨ k' = 5 := by omega
        rcases this with rfl | rfl <;> rfl
      have := writes_chain hC hc' rfl hk (o.char :: (s' ++ r)) (ends_special (arith_special o) _) (closed_op o (by omega) _) (.tok (.op o.op) :: b.tree :: L) rr
        (many_cons hC (ho ▸ arith_opOf o) (arith_symbol o) (arith_special o) (by rw [hl]; exact b3) hm)
      simpa [Chain.list] using this
end

end BL
