import Verif.Lemmas.GrammarMain
import Verif.Props.C47
import Mathlib.Data.Rat.Floor

/-! # C72: the text of a query is read with the usual rules of arithmetic -/

set_option linter.unusedSectionVars false

namespace BL
open Spec
variable {K : Type} [Field K] [LinearOrder K]

/-- no relational symbols -/
def NoRel (s : List Char) : Prop := ∀ c ∈ s, c ≠ '<' ∧ c ≠ '>' ∧ c ≠ '='

theorem NoRel.append {s t : List Char} (h : NoRel s) (h' : NoRel t) : NoRel (s ++ t) := by
  intro c hc
  rcases List.mem_append.1 hc with hc | hc
  · exact h c hc
  · exact h' c hc

theorem NoRel.cons {c : Char} (hc : c ≠ '<' ∧ c ≠ '>' ∧ c ≠ '=') {t : List Char} (h' : NoRel t) : NoRel (c :: t) := by
  intro x hx
  rcases List.mem_cons.1 hx with rfl | hx
  · exact hc
  · exact h' x hx

theorem noRel_nil : NoRel [] := by intro c hc; simp at hc

theorem noRel_special {s : List Char} (h : ∀ c ∈ s, ¬ Special c) : NoRel s := by
  intro c hc
  have := h c hc
  refine ⟨?_, ?_, ?_⟩ <;> rintro rfl <;> exact this (by simp [Special])

theorem noRel_blank {w : List Char} (h : Blank w) : NoRel w := by
  intro c hc
  rcases h c hc with rfl | rfl | rfl | rfl <;> decide

theorem noRel_digits (l : List (Fin 10)) : NoRel (l.map digitChar) := by
  intro c hc
  obtain ⟨d, -, rfl⟩ := List.mem_map.1 hc
  clear hc
  revert d; decide

theorem noRel_numeral (m : Numeral) : NoRel m.text := by
  rw [text_eq]
  refine ((noRel_digits _).append ?_).append ?_
  · cases m.frac with
    | none => exact noRel_nil
    | some f => exact NoRel.cons (by decide) (noRel_digits f)
  · cases m.exp with
    | none => exact noRel_nil
    | some q =>
        obtain ⟨cap, s, x⟩ := q
        refine NoRel.append (s := (if cap || !true then 'E' else 'e') :: signText s) ?_ (noRel_digits x)
        refine NoRel.cons (by split <;> decide) ?_
        match s with
        | none => exact noRel_nil
        | some true => exact NoRel.cons (by decide) noRel_nil
        | some false => exact NoRel.cons (by decide) noRel_nil

variable {names fs : List String}

mutual
theorem noRel_writes (hC : Clear (names.map String.toList) (fs.map String.toList)) {k : ℕ} {e : Query K} {s : List Char} (h : Writes names fs k e s) : NoRel s := by
  match h with
  | .num m => exact noRel_numeral m
  | .par hn => exact noRel_special (hC.par _ (List.mem_map_of_mem hn)).plain
  | .paren h => exact (NoRel.cons (by decide) (noRel_writes hC h)).append (NoRel.cons (by decide) noRel_nil)
  | .fn hf hw h => exact (((noRel_special fun c hc => ((hC.fn _ (List.mem_map_of_mem hf)).plain c hc).1).append (noRel_blank hw)).append (NoRel.cons (by decide) (noRel_writes hC h))).append (NoRel.cons (by decide) noRel_nil)
  | .at m hn hw hw' => exact (((noRel_special (hC.par _ (List.mem_map_of_mem hn)).plain).append (noRel_blank hw)).append (NoRel.cons (by decide) (noRel_blank hw'))).append (noRel_numeral m)
  | .atNeg m hn hw hw' => exact (((noRel_special (hC.par _ (List.mem_map_of_mem hn)).plain).append (noRel_blank hw)).append (NoRel.cons (by decide) (noRel_blank hw'))).append (NoRel.cons (by decide) (noRel_numeral m))
  | .pow h h' => exact (noRel_writes hC h).append (NoRel.cons (by decide) (noRel_writes hC h'))
  | .powNeg m h hw => exact ((noRel_writes hC h).append (NoRel.cons (by decide) (noRel_blank hw))).append (NoRel.cons (by decide) (noRel_numeral m))
  | .neg h => exact NoRel.cons (by decide) (noRel_writes hC h)
  | .pos h => exact NoRel.cons (by decide) (noRel_writes hC h)
  | .chain h => exact noRel_chain hC h
  | .up h => exact noRel_writes hC h
  | .before hw h => exact (noRel_blank hw).append (noRel_writes hC h)
  | .after hw h => exact (noRel_writes hC h).append (noRel_blank hw)

theorem noRel_chain (hC : Clear (names.map String.toList) (fs.map String.toList)) {k : ℕ} {c : Chain K} {s : List Char} (h : WritesChain names fs k c s) : NoRel s := by
  match h with
  | .two (o := o) _ _ h h' => exact (noRel_writes hC h).append (NoRel.cons (by cases o <;> decide) (noRel_writes hC h'))
  | .more (o := o) _ _ h h' => exact (noRel_chain hC h).append (NoRel.cons (by cases o <;> decide) (noRel_writes hC h'))
end

theorem numeral_ne (m : Numeral) : m.text ≠ [] := by
  rw [text_eq]
  obtain ⟨d, ds, hd⟩ : ∃ d ds, m.int = d :: ds := by
    cases h : m.int with
    | nil => exact absurd h m.int_ne
    | cons d ds => exact ⟨d, ds, rfl⟩
  simp [hd]

theorem writes_ne (hC : Clear (names.map String.toList) (fs.map String.toList)) {k : ℕ} {e : Query K} {s : List Char} (h : Writes names fs k e s) : s ≠ [] := by
  match h with
  | .num m => exact numeral_ne m
  | .par hn => exact (hC.par _ (List.mem_map_of_mem hn)).ne
  | .paren h => simp
  | .fn hf hw h => simp
  | .at m hn hw hw' => simp
  | .atNeg m hn hw hw' => simp
  | .pow h h' => simp
  | .powNeg m h hw => simp
  | .neg h => simp
  | .pos h => simp
  | .chain (.two _ _ _ _) => simp
  | .chain (.more _ _ _ _) => simp
  | .up h => exact writes_ne hC h
  | .before hw h => simp [writes_ne hC h]
  | .after hw h => simp [writes_ne hC h]

theorem sign_noRel (b : Bool) : (sign b).char ≠ '<' ∧ (sign b).char ≠ '>' ∧ (sign b).char ≠ '=' := by cases b <;> decide

theorem noRel_side (hC : Clear (names.map String.toList) (fs.map String.toList)) {l : Side K} {s : List Char} (h : WritesSide names fs l s) : NoRel s := by
  induction h with
  | one h => exact noRel_writes hC h
  | more _ h' ih => exact ih.append (NoRel.cons (sign_noRel _) (noRel_writes hC h'))

/-! ## splitting at the relational operator -/

theorem split_cons {c : Char} (hc : c ≠ '<' ∧ c ≠ '>' ∧ c ≠ '=') (r : List Char) : splitQuery (c :: r) = consHead c (splitQuery r) := by
  obtain ⟨h1, h2, h3⟩ := hc
  rw [splitQuery]
  all_goals simp_all

theorem split_append {s : List Char} (hs : NoRel s) {u : List Char} {w : List Char} {l : List (List Char)} (hu : splitQuery u = w :: l) : splitQuery (s ++ u) = (s ++ w) :: l := by
  induction s with
  | nil => exact hu
  | cons c s ih =>
      rw [List.cons_append, split_cons (hs c (by simp)), ih fun x hx => hs x (by simp [hx])]
      rfl

theorem split_noRel {s : List Char} (hs : NoRel s) : splitQuery s = [s] := by
  have := split_append hs (u := []) (w := []) (l := []) rfl
  simpa using this

theorem split_rel (rel : Rel) {r w : List Char} {l : List (List Char)} (hne : ∀ t, r ≠ '=' :: t) (h : splitQuery r = w :: l) : splitQuery (relText rel ++ r) = [] :: w :: l := by
  cases rel with
  | ge => simp only [relText, List.cons_append, List.nil_append, splitQuery, h]
  | le => simp only [relText, List.cons_append, List.nil_append, splitQuery, h]
  | eq => simp only [relText, List.cons_append, List.nil_append, splitQuery, h]
  | gt =>
      simp only [relText, List.cons_append, List.nil_append]
      rw [splitQuery, h]
      exact hne
  | lt =>
      simp only [relText, List.cons_append, List.nil_append]
      rw [splitQuery, h]
      exact hne

theorem noRel_ne {r : List Char} (hr : NoRel r) (t : List Char) : r ≠ '=' :: t := by
  rintro rfl
  exact (hr '=' (by simp)).2.2 rfl

theorem split_query {l r : List Char} (hl : NoRel l) (hr : NoRel r) (rel : Rel) : splitQuery (l ++ relText rel ++ r) = [l, r] := by
  rw [List.append_assoc, split_append hl (split_rel rel (noRel_ne hr) (split_noRel hr))]
  simp

theorem split_equals {s u : List Char} (hs : NoRel s) (hu : NoRel u) : splitQuery (s ++ '=' :: u) = [s ++ '=' :: u] := by
  have h1 : splitQuery ('=' :: u) = ['=' :: u] := by
    have h := split_noRel hu
    have hne : ∀ t, u ≠ '=' :: t := by rintro t rfl; exact (hu '=' (by simp)).2.2 rfl
    rw [splitQuery, h]
    · rfl
    all_goals simp_all
  exact split_append hs h1

theorem contains_append {w s u : List Char} (h : ∀ c ∈ w.head?, c ∉ s) (hw : w ≠ []) : contains w (s ++ u) = contains w u := by
  induction s with
  | nil => rfl
  | cons c s ih =>
      obtain ⟨a, w', rfl⟩ : ∃ a w', w = a :: w' := by
        cases w with
        | nil => exact absurd rfl hw
        | cons a w' => exact ⟨a, w', rfl⟩
      have hac : a ≠ c := by
        intro hac
        exact h a rfl (by simp [hac])
      simp only [List.cons_append, contains]
      rw [ih fun x hx hm => h x hx (by simp [hm])]
      simp [List.isPrefixOf, hac]

theorem contains_none {w s : List Char} (h : ∀ c ∈ w.head?, c ∉ s) (hw : w ≠ []) : contains w s = false := by
  have := contains_append (u := []) h hw
  rw [List.append_nil] at this
  rw [this]
  cases w with
  | nil => exact absurd rfl hw
  | cons a w => rfl

theorem relOf_eq {l r : List Char} (hl : NoRel l) (hr : NoRel r) (rel : Rel) : relOf (l ++ relText rel ++ r) = rel := by
  have g : '>' ∉ l ∧ '<' ∉ l ∧ '>' ∉ r ∧ '<' ∉ r := ⟨fun h => (hl _ h).2.1 rfl, fun h => (hl _ h).1 rfl, fun h => (hr _ h).2.1 rfl, fun h => (hr _ h).1 rfl⟩
  obtain ⟨g1, g2, g3, g4⟩ := g
  have hne : ∀ t, r ≠ '=' :: t := by rintro t rfl; exact (hr '=' (by simp)).2.2 rfl
  have c1 : contains ['>', '='] (l ++ relText rel ++ r) = contains ['>', '='] (relText rel ++ r) := by rw [List.append_assoc]; exact contains_append (by simp [g1]) (by simp)
  have c2 : contains ['>'] (l ++ relText rel ++ r) = contains ['>'] (relText rel ++ r) := by rw [List.append_assoc]; exact contains_append (by simp [g1]) (by simp)
  have c3 : contains ['<', '='] (l ++ relText rel ++ r) = contains ['<', '='] (relText rel ++ r) := by rw [List.append_assoc]; exact contains_append (by simp [g2]) (by simp)
  have c4 : contains ['<'] (l ++ relText rel ++ r) = contains ['<'] (relText rel ++ r) := by rw [List.append_assoc]; exact contains_append (by simp [g2]) (by simp)
  have r1 : contains ['>', '='] r = false := contains_none (by simp [g3]) (by simp)
  have r2 : contains ['>'] r = false := contains_none (by simp [g3]) (by simp)
  have r3 : contains ['<', '='] r = false := contains_none (by simp [g4]) (by simp)
  have r4 : contains ['<'] r = false := contains_none (by simp [g4]) (by simp)
  have hp : (['='] : List Char).isPrefixOf r = false := by
    cases hr' : r with
    | nil => rfl
    | cons c r' =>
        have : c ≠ '=' := by rintro rfl; exact hne r' hr'
        simp [List.isPrefixOf, this.symm]
  unfold relOf
  rw [c1, c2, c3, c4]
  cases rel <;> simp [relText, contains, r1, r2, r3, r4, List.isPrefixOf, hp]

/-! ## from texts to nested lists -/

theorem parseText_of {N F : List (List Char)} (hC : Clear N F) {s : List Char} {e : PTree K} {r : List Char} (h : Parses N F 6 s e r) : ∃ t, parseText N F s = .ok t ∧ t.toP N F = e := by
  obtain ⟨M, t, r', -, h2, h3⟩ := h
  refine ⟨t, ?_, h2⟩
  have := level_enough (clear_names hC) (clear_fs hC) (k := 6) (le_refl _) s (n := 8 * s.length + 8) (m := max M (8 * s.length + 8)) (by omega) (le_max_right _ _)
  unfold parseText
  rw [← this, h3 _ (le_max_left _ _)]

theorem one_numeral : ∃ m : Numeral, m.text = ['1'] ∧ (m.value : K) = 1 :=
  ⟨⟨[1], none, none, by simp, by simp⟩, by decide, by simp [Numeral.value, decimal]⟩

theorem up_to {k j : ℕ} (h : k ≤ j) {e : Query K} {s : List Char} (hw : Writes names fs k e s) : Writes names fs j e s := by
  induction j, h using Nat.le_induction with
  | base => exact hw
  | succ j _ ih => exact .up ih

theorem side_reads (hC : Clear (names.map String.toList) (fs.map String.toList)) {l : Side K} {s : List Char} (h : WritesSide names fs l s) : ∀ (r : List Char), Ends r →
    Closed (names.map String.toList) (fs.map String.toList) 5 r → ∀ (L : List (PTree K)) (rr : List Char), ManyReads (names.map String.toList) (fs.map String.toList) 6 r L rr →
    ManyReads (names.map String.toList) (fs.map String.toList) 6 ('+' :: (s ++ r)) (.tok (.op .add) :: l.head.tree :: (l.rest.flatMap (fun q => [.tok (.op q.1), q.2]) ++ L)) rr := by
  induction h with
  | one h =>
      intro r hr hc L rr hm
      exact many_cons hC (j := 6) (by simp [opOf]) rfl (by simp [Special]) ((writes_start hC h r hr (by omega)).2.2 hc) hm
  | @more e l b e' s s' _ h' ih =>
      intro r hr hc L rr hm
      have ho := arith_special (sign b)
      have hlev : (sign b).level = 6 := by cases b <;> rfl
      have hcl : Closed (names.map String.toList) (fs.map String.toList) 5 ((sign b).char :: (s' ++ r)) := closed_op (sign b) (by rw [hlev]; omega) _
      have := ih ((sign b).char :: (s' ++ r)) (ends_special ho _) hcl (.tok (.op (sign b).op) :: e'.tree :: L) rr
        (many_cons hC (j := 6) (by cases b <;> simp [opOf, sign, Arith.char]) (arith_symbol _) ho ((writes_start hC h' r hr (by omega)).2.2 hc) hm)
      simpa [Side.rest] using this

/-- the text that the parser builds for a relation, and possibly more text behind the left side -/
theorem reduced_parses (hC : Clear (names.map String.toList) (fs.map String.toList)) {l : Side K} {s : List Char} (h : WritesSide names fs l s) {right : Query K} {s' : List Char} (h' : Writes names fs 6 right s')
    {r : List Char} (hr : Closed (names.map String.toList) (fs.map String.toList) 6 r) :
    Parses (names.map String.toList) (fs.map String.toList) 6 ("-1*(".toList ++ s' ++ ")+".toList ++ (s ++ r)) (.list (reduced l.head.tree l.rest right.tree)) r := by
  obtain ⟨m, m1, m2⟩ := one_numeral (K := K)
  have w1 : Writes names fs 5 (.chain (.two (.neg (.num (m.value : K))) .mul right)) ('-' :: m.text ++ '*' :: ('(' :: s' ++ [')'])) :=
    .chain (.two (le_refl 4) rfl (.neg (up_to (by omega) (.num m))) (up_to (by omega) (.paren h')))
  have p1 := (writes_start hC w1 ('+' :: (s ++ r)) (ends_special (by simp [Special]) _) (by omega)).2.2 (closed_op .add (by decide) _)
  have p2 := side_reads hC h r hr.head (hr.mono (by omega)) [] r (many_nil hr (by simp) (le_refl _))
  have p3 := infix_reads (j := 6) (by simp) p1 p2 (by simp)
  rw [m1] at p3
  simp only [Query.tree, Chain.list, m2, List.append_nil] at p3
  have e1 : "-1*(".toList ++ s' ++ ")+".toList ++ (s ++ r) = '-' :: ['1'] ++ '*' :: ('(' :: s' ++ [')']) ++ '+' :: (s ++ r) := by
    have a : "-1*(".toList = ['-', '1', '*', '('] := by decide
    have b : ")+".toList = [')', '+'] := by decide
    rw [a, b]; simp
  rw [e1]
  exact p3

end BL

namespace Props
open BL Spec
variable {K : Type} [Field K] [LinearOrder K] [FloorRing K]

theorem text_ask {X : PExt K} {all : List String} {n : ℕ} {ss : List (PStudy K)} {names fs : List String} (hn : parserNames ss = .ok names) (hf : functionsOf all names = fs) (t : Option K) {rel : Rel} {query l r : List Char}
    (hq : splitQuery query = [l, r]) (hrel : relOf query = rel) {s : STree} (s1 : parseText (names.map String.toList) (fs.map String.toList) ("-1*(".toList ++ r ++ ")+".toList ++ l) = .ok s)
    {left : Side K} {right : Query K} (s2 : s.toP (names.map String.toList) (fs.map String.toList) = .list (reduced left.head.tree left.rest right.tree)) :
    Parser.text X all n ss t query = (ask X n ss t left rel right).map .prob := by
  unfold Parser.text ask Parser.prob
  rw [hn]
  simp only [bind, Except.bind, hf, hq, s1, s2, hrel, relTree]
  cases loadAll ss t with
  | error e => rfl
  | ok ps =>
      simp only [relQuery, bind, Except.bind]
      cases evaluate ⟨X, ss.map PStudy.ts, ps⟩ n (reduced left.head.tree left.rest right.tree) with
      | error e => rfl
      | ok v =>
          cases v with
          | none => rfl
          | fn f => rfl
          | num x b => rfl
          | obj o =>
              simp only []
              cases maskedSum o rel.test <;> rfl

/-- **C72, relations.** A query `left rel right`, where both sides are written in the usual notation of arithmetic, is answered as the query with this meaning (whether it succeeds or fails): `ask` is the
query for the sums and expressions that are written, with products before sums, and so on. -/
theorem C72_relation_partial (X : PExt K) (all : List String) (n : ℕ) (ss : List (PStudy K)) (names fs : List String) (hS : ParserSetup all ss names fs) (t : Option K) (left : Side K) (right : Query K) (rel : Rel)
    (l r : List Char) (hl : WritesSide names fs left l) (hr : Writes names fs 6 right r) :
    Parser.text X all n ss t (l ++ relText rel ++ r) = (ask X n ss t left rel right).map .prob := by
  have nl := noRel_side hS.clear hl
  have nr := noRel_writes hS.clear hr
  have hp := reduced_parses hS.clear hl hr (r := []) (closed_nil _ _ 6)
  rw [List.append_nil] at hp
  obtain ⟨tr, h1, h2⟩ := parseText_of hS.clear hp
  exact text_ask hS.names_eq hS.fs_eq t (split_query nl nr rel) (relOf_eq nl nr rel) h1 h2

/-- **C72, meaning.** With C47: the answer to a written relation whose parameters come from different studies (or are parameters and hyper-parameters that do not share a distribution) is the probability,
for independent parameters with their marginal distributions, that the relation holds between the values of the two sides. -/
theorem C72_meaning_partial [IsStrictOrderedRing K] (X : PExt K) (all : List String) (ss : List (PStudy K)) (names fs : List String) (hS : ParserSetup all ss names fs) (t : Option K) (hA : Accepts ss t) (hT : Stamps ss t)
    (left : Side K) (right : Query K) (rel : Rel) (l r : List Char) (hl : WritesSide names fs left l) (hr : Writes names fs 6 right r)
    (st : String × Option K → ℕ) (hy : String × Option K → Bool) (τ : String × Option K → Option K) (V W : String × Option K → List K)
    (hne : right.refs ++ left.refs ≠ [])
    (hst : (right.refs ++ left.refs).Pairwise (Separate hy τ st))
    (href : ∀ r ∈ right.refs ++ left.refs, Reads ss t r (st r) (hy r) (τ r) (V r) (W r) ∧ (V r).length = (W r).length ∧ Dist (W r))
    (hdef : ∀ ρ : String × Option K → K, (∀ r ∈ right.refs ++ left.refs, ∃ p ≠ 0, (ρ r, p) ∈ (V r).zip (W r)) → (left.value X ρ).isSome ∧ (right.value X ρ).isSome) :
    ∃ n0, ∀ n ≥ n0, Parser.text X all n ss t (l ++ relText rel ++ r) =
      .ok (.prob (some (expect ((right.refs ++ left.refs).map fun r => (r, (V r).zip (W r))) fun ρ => indicator rel (left.value X ρ) (right.value X ρ)))) := by
  obtain ⟨n0, h⟩ := C47_separate X ss t hA hT left rel right st hy τ V W hne hst href hdef
  refine ⟨n0, fun n hn => ?_⟩
  rw [C72_relation_partial X all n ss names fs hS t left right rel l r hl hr, h n hn]
  rfl

/-- **C72, distributions.** A query without relational operator, written in the usual notation, is answered as the query for the distribution of this expression. -/
theorem C72_distribution_partial (X : PExt K) (all : List String) (n : ℕ) (ss : List (PStudy K)) (names fs : List String) (hS : ParserSetup all ss names fs) (t : Option K) (e : Query K) (s : List Char)
    (h : Writes names fs 6 e s) : Parser.text X all n ss t s = (Parser.dist X n ss t e.tree).map fun q => .dist q.1 q.2 := by
  have hn := noRel_writes hS.clear h
  have hp := (writes_start hS.clear h [] ends_nil (le_refl _)).2.2 (closed_nil _ _ 6)
  rw [List.append_nil] at hp
  obtain ⟨st, s1, s2⟩ := parseText_of hS.clear hp
  unfold Parser.text Parser.dist
  rw [hS.names_eq]
  simp only [bind, Except.bind, hS.fs_eq, split_noRel hn, s1, s2]
  cases loadAll ss t with
  | error e => rfl
  | ok ps =>
      simp only []
      cases distQuery ⟨X, ss.map PStudy.ts, ps⟩ n e.tree <;> rfl

/-- **C72 refuted (1).** Everything behind the left side is ignored if it begins with an operator and a word that is neither a parameter nor a function: `a + typo > b` is answered as `a > b`. -/
theorem C72_ignored (X : PExt K) (all : List String) (n : ℕ) (ss : List (PStudy K)) (names fs : List String) (hS : ParserSetup all ss names fs) (t : Option K) (left : Side K) (right : Query K) (rel : Rel)
    (l r : List Char) (hl : WritesSide names fs left l) (hr : Writes names fs 6 right r) (o : Arith) (w word : List Char) (hw : Blank w) (hword : NoStart (names.map String.toList) (fs.map String.toList) word) (h0 : word ≠ [])
    (hrel : ∀ c ∈ word, c ≠ '<' ∧ c ≠ '>' ∧ c ≠ '=') :
    Parser.text X all n ss t (l ++ o.char :: w ++ word ++ relText rel ++ r) = Parser.text X all n ss t (l ++ relText rel ++ r) := by
  have nl := noRel_side hS.clear hl
  have nr := noRel_writes hS.clear hr
  have nj : NoRel (l ++ o.char :: w ++ word) := (nl.append (NoRel.cons (by cases o <;> decide) (noRel_blank hw))).append hrel
  have hclosed : Closed (names.map String.toList) (fs.map String.toList) 6 (o.char :: (w ++ word)) := by
    refine ⟨ends_special (arith_special o) _, ?_⟩
    intro j _ _ x q hx k
    obtain ⟨h1, h2, -⟩ := oneOf_some hx
    rw [skip_cons (special_not_white (arith_special o))] at h2
    have hlen := opOf_len j x h1
    match x, hlen with
    | [c], _ =>
        have hq : q = w ++ word := ((List.cons.inj h2).2).symm
        rw [hq]
        have e2 : skip (w ++ word) = skip word := skip_blank hw word
        rw [level_skip _ _ k _ e2]
        have := noStart_none hS.clear hword h0 ends_nil k (argOf j)
        rwa [List.append_nil] at this
  have hp := reduced_parses hS.clear hl hr hclosed
  have e1 : l ++ o.char :: (w ++ word) = l ++ o.char :: w ++ word := by simp
  rw [e1] at hp
  obtain ⟨tr, h1, h2⟩ := parseText_of hS.clear hp
  rw [C72_relation_partial X all n ss names fs hS t left right rel l r hl hr]
  exact text_ask hS.names_eq hS.fs_eq t (split_query nj nr rel) (relOf_eq nj nr rel) h1 h2

/-- **C72 refuted (2).** A single equals sign is ignored together with everything behind it: the answer to `a = b` is the distribution of `a`. -/
theorem C72_equals (X : PExt K) (all : List String) (n : ℕ) (ss : List (PStudy K)) (names fs : List String) (hS : ParserSetup all ss names fs) (t : Option K) (e : Query K) (s : List Char)
    (h : Writes names fs 6 e s) (rest : List Char) (hrest : ∀ c ∈ rest, c ≠ '<' ∧ c ≠ '>' ∧ c ≠ '=') :
    Parser.text X all n ss t (s ++ '=' :: rest) = (Parser.dist X n ss t e.tree).map fun q => .dist q.1 q.2 := by
  have hn := noRel_writes hS.clear h
  have hsp : Special '=' := by simp [Special]
  have hc : Closed (names.map String.toList) (fs.map String.toList) 6 ('=' :: rest) := by
    refine closed_of (ends_special hsp rest) fun j hj _ c hc => ?_
    rw [skip_cons (special_not_white hsp)] at hc
    simp only [List.head?_cons, Option.some.injEq] at hc
    subst hc
    simp only [List.mem_cons, List.not_mem_nil, or_false] at hj
    rcases hj with rfl | rfl | rfl | rfl <;> decide
  have hp := (writes_start hS.clear h ('=' :: rest) (ends_special hsp rest) (le_refl _)).2.2 hc
  obtain ⟨st, s1, s2⟩ := parseText_of hS.clear hp
  unfold Parser.text Parser.dist
  rw [hS.names_eq]
  simp only [bind, Except.bind, hS.fs_eq, split_equals hn hrest, s1, s2]
  cases loadAll ss t with
  | error e => rfl
  | ok ps =>
      simp only []
      cases distQuery ⟨X, ss.map PStudy.ts, ps⟩ n e.tree <;> rfl


/-- A query with two relational operators fails. -/
theorem C72_chained (X : PExt K) (all : List String) (n : ℕ) (ss : List (PStudy K)) (names fs : List String) (hS : ParserSetup all ss names fs) (t : Option K) (hA : Accepts ss t) (a b c : Query K) (rel rel' : Rel)
    (s s' s'' : List Char) (ha : Writes names fs 6 a s) (hb : Writes names fs 6 b s') (hc : Writes names fs 6 c s'') :
    Parser.text X all n ss t (s ++ relText rel ++ (s' ++ relText rel' ++ s'')) = .error .configuration := by
  obtain ⟨-, ps, hps⟩ := hA
  have h1 := split_query (noRel_writes hS.clear hb) (noRel_writes hS.clear hc) rel'
  have hs : splitQuery (s ++ relText rel ++ (s' ++ relText rel' ++ s'')) = [s, s', s''] := by
    have hne : ∀ t, s' ++ relText rel' ++ s'' ≠ '=' :: t := by
      intro t ht
      obtain ⟨x, u, rfl⟩ := List.exists_cons_of_ne_nil (writes_ne hS.clear hb)
      exact (noRel_writes hS.clear hb x (by simp)).2.2 (List.cons.inj ht).1
    rw [List.append_assoc, split_append (noRel_writes hS.clear ha) (split_rel rel hne h1)]
    simp
  unfold Parser.text
  rw [hS.names_eq]
  simp only [bind, Except.bind, hps, hs]

end Props

namespace Ex
open BL Spec

/-- a study with the parameter `mean` and the hyper-parameter `log10pMin` -/
def studyM : PStudy ℚ where
  names := ["mean"]
  values := [[0, 1, 2, 3]]
  ts := [1, 2]
  store := true
  posts := [[1/8, 1/8, 1/2, 1/4], [1/4, 1/4, 1/4, 1/4]]
  current := []
  hyper := .static [("log10pMin", [-3, -1])] [1/4, 3/4]

/-- a study with the parameter `p` and the hyper-parameter `log10pMin` (default names of the Bernoulli model and of regime switches) -/
def studyP : PStudy ℚ where
  names := ["p"]
  values := [[1/100, 1/10, 1]]
  ts := [1, 2]
  store := true
  posts := [[1/2, 1/4, 1/4], [1/4, 1/4, 1/2]]
  current := []
  hyper := .static [("log10pMin", [-3, -1])] [1/4, 3/4]

/-- functions: the absolute value and the logarithm (where it is rational) -/
def mext : PExt ℚ where
  pow := fun _ _ => .nan
  fn := fun s =>
    if s = "abs" then some fun v => match v with
      | .fin x => .fin |x|
      | v => v
    else if s = "log10" then some fun v => match v with
      | .fin x => if x = 1 then .fin 0 else if x = 1/10 then .fin (-1) else if x = 1/100 then .fin (-2) else .nan
      | v => v
    else none

/-- some names of numpy -/
def mall : List String := ["abs", "log", "log10", "mean", "std"]

end Ex

namespace Props
open BL Spec Ex

/-- the hypothesis on the names: `log10pMin` begins with the name of a function, but `pMin` is no expression -/
theorem setupM : ParserSetup mall [studyM] ["mean", "log10pMin"] ["abs", "log", "log10", "std"] := by
  refine ⟨by decide +kernel, by decide +kernel, ⟨?_, ?_, ?_⟩⟩
  · intro n hn
    simp only [List.map_cons, List.map_nil, List.mem_cons, List.not_mem_nil, or_false] at hn
    rcases hn with rfl | rfl
    · refine ⟨by decide, by unfold Special; decide, ?_, ?_⟩
      · intro c hc
        obtain rfl : 'm' = c := Option.some.inj hc
        unfold White; decide
      · intro c hc
        obtain rfl : 'n' = c := Option.some.inj hc
        unfold White; decide
    · refine ⟨by decide, by unfold Special; decide, ?_, ?_⟩
      · intro c hc
        obtain rfl : 'l' = c := Option.some.inj hc
        unfold White; decide
      · intro c hc
        obtain rfl : 'n' = c := Option.some.inj hc
        unfold White; decide
  · intro f hf
    simp only [List.map_cons, List.map_nil, List.mem_cons, List.not_mem_nil, or_false] at hf
    rcases hf with rfl | rfl | rfl | rfl
    all_goals
      refine ⟨by decide, by unfold Special White; decide, ?_⟩
      intro c hc
    · obtain rfl : 'a' = c := Option.some.inj hc
      decide
    · obtain rfl : 'l' = c := Option.some.inj hc
      decide
    · obtain rfl : 'l' = c := Option.some.inj hc
      decide
    · obtain rfl : 's' = c := Option.some.inj hc
      decide
  · intro n hn g hg
    obtain ⟨g1, g2, g3⟩ := hg
    simp only [List.map_cons, List.map_nil, List.mem_cons, List.not_mem_nil, or_false] at hn g1
    rcases hn with rfl | rfl <;> rcases g1 with rfl | rfl | rfl | rfl
    · exact absurd g2 (by decide)
    · exact absurd g2 (by decide)
    · exact absurd g2 (by decide)
    · exact absurd g2 (by decide)
    · exact absurd g2 (by decide)
    · exact absurd (g3 "log10".toList (by decide) (by decide)) (by decide)
    · refine ⟨"pMin".toList, by decide, by decide, ?_, ?_, ?_⟩
      · intro c hc
        obtain rfl : 'p' = c := Option.some.inj hc
        unfold White Special; decide
      · intro n hn
        simp only [List.map_cons, List.map_nil, List.mem_cons, List.not_mem_nil, or_false] at hn
        rcases hn with rfl | rfl <;> decide
      · intro n hn
        simp only [List.map_cons, List.map_nil, List.mem_cons, List.not_mem_nil, or_false] at hn
        rcases hn with rfl | rfl | rfl | rfl <;> decide
    · exact absurd g2 (by decide)

/-- the left side `abs(mean-log10pMin)*2 + mean` -/
example : WritesSide (K := ℚ) ["mean", "log10pMin"] ["abs", "log", "log10", "std"]
    ⟨.chain (.two (.fn "abs" (.chain (.two (.par "mean") .sub (.par "log10pMin")))) .mul (.num 2)), [(true, .par "mean")]⟩ "abs(mean-log10pMin)*2 + mean".toList := by
  have two : (Numeral.mk [2] none none (by simp) (by simp)).value (K := ℚ) = 2 := by simp [Numeral.value, decimal]
  have p1 : Writes (K := ℚ) ["mean", "log10pMin"] ["abs", "log", "log10", "std"] 0 (.par "mean") "mean".toList := .par (by simp)
  have p2 : Writes (K := ℚ) ["mean", "log10pMin"] ["abs", "log", "log10", "std"] 0 (.par "log10pMin") "log10pMin".toList := .par (by simp)
  have b : Blank [' '] := by intro c hc; simp at hc; exact .inl hc
  have h1 : Writes (K := ℚ) ["mean", "log10pMin"] ["abs", "log", "log10", "std"] 1 _ ("abs".toList ++ [] ++ '(' :: ("mean".toList ++ '-' :: "log10pMin".toList) ++ [')']) :=
    .fn (by simp) (by intro c hc; simp at hc) (.chain (.two (k := 5) (o := .sub) (by omega) rfl (up_to (by omega) p1) (up_to (by omega) p2)))
  have h2 := Writes.chain (WritesChain.two (k := 4) (o := .mul) (by omega) rfl (up_to (by omega) h1) (up_to (by omega) (.num ⟨[2], none, none, by simp, by simp⟩)))
  rw [two] at h2
  exact .more (b := true) (.one (.after b h2)) (.before b (up_to (by omega) p1))

/-- the word `men`, a typo, cannot be the beginning of an expression -/
theorem men_start : NoStart (["mean", "log10pMin"].map String.toList) (["abs", "log", "log10", "std"].map String.toList) "men ".toList := by
  refine ⟨?_, ?_, ?_⟩
  · intro c hc
    obtain rfl : 'm' = c := Option.some.inj hc
    unfold White Special; decide
  · intro n hn
    simp only [List.map_cons, List.map_nil, List.mem_cons, List.not_mem_nil, or_false] at hn
    rcases hn with rfl | rfl <;> decide
  · intro n hn
    simp only [List.map_cons, List.map_nil, List.mem_cons, List.not_mem_nil, or_false] at hn
    rcases hn with rfl | rfl | rfl | rfl <;> decide


theorem parse_misread : parseText (["p", "log10pMin"].map String.toList) (["abs", "log", "log10", "mean", "std"].map String.toList) "-1*( -2)+log10pMin ".toList =
    .ok (.list [.list [.list [.tok ['-'], .tok ['1']], .tok ['*'], .list [.tok ['-'], .tok ['2']]], .tok ['+'], .list [.tok "log10".toList, .tok ['p']]]) := by
  rfl

theorem tok_digit (N F : List (List Char)) (d : Fin 10) (hN : [digitChar d] ∉ N) (hF : [digitChar d] ∉ F) : (tokOf N F [digitChar d] : Tok ℚ) = .num (d.val : ℚ) := by
  have h1 : symbol [digitChar d] = none := by clear hN hF; revert d; decide
  have h2 : (pyFloat [digitChar d] : Option ℚ) = some (d.val : ℚ) := by
    have := pyFloat_norm (K := ℚ) ⟨[d], none, none, by simp, by simp⟩
    have e : normText ⟨[d], none, none, by simp, by simp⟩ = [digitChar d] := by simp [normText, fracText, expText]
    rw [e] at this
    rw [this]
    simp [Numeral.value, decimal]
  unfold tokOf
  rw [h1]
  simp only [hN, hF, if_false, h2]

theorem tree_misread : STree.toP (K := ℚ) (["p", "log10pMin"].map String.toList) (["abs", "log", "log10", "mean", "std"].map String.toList)
    (.list [.list [.list [.tok ['-'], .tok ['1']], .tok ['*'], .list [.tok ['-'], .tok ['2']]], .tok ['+'], .list [.tok "log10".toList, .tok ['p']]]) =
    .list (reduced (Query.fn "log10" (.par "p")).tree [] (Query.neg (.num 2)).tree) := by
  have h1 := tok_digit (["p", "log10pMin"].map String.toList) (["abs", "log", "log10", "mean", "std"].map String.toList) 1 (by decide) (by decide)
  have h2 := tok_digit (["p", "log10pMin"].map String.toList) (["abs", "log", "log10", "mean", "std"].map String.toList) 2 (by decide) (by decide)
  have e1 : [digitChar 1] = ['1'] := by decide
  have e2 : [digitChar 2] = ['2'] := by decide
  rw [e1] at h1
  rw [e2] at h2
  simp only [STree.toP, STree.toPs, h1, h2]
  rfl

/-- `log10pMin > -2` is read as `log10(p) > -2` -/
theorem text_misread (n : ℕ) : Parser.text mext mall n [studyP] (some 1) "log10pMin > -2".toList = (ask mext n [studyP] (some 1) ⟨.fn "log10" (.par "p"), []⟩ .gt (.neg (.num 2))).map .prob :=
  text_ask (names := ["p", "log10pMin"]) (fs := ["abs", "log", "log10", "mean", "std"]) (l := "log10pMin ".toList) (r := " -2".toList) (by decide +kernel) (by decide +kernel) _ (by decide +kernel) (by decide +kernel) parse_misread tree_misread

/-- a typo on the right side -/
theorem text_typo : Parser.text mext mall 10 [studyM] (some 1) "2 < mean - men".toList = .error .indexError := by
  obtain ⟨ps, hps⟩ : ∃ ps, loadAll [studyM] (some 1) = .ok ps := ⟨_, rfl⟩
  have h1 : parseText (["mean", "log10pMin"].map String.toList) (["abs", "log", "log10", "std"].map String.toList) "-1*( mean - men)+2 ".toList = .ok (.list [.tok ['-'], .tok ['1']]) := by rfl
  have h2 : splitQuery "2 < mean - men".toList = ["2 ".toList, " mean - men".toList] := by decide +kernel
  have h3 : "-1*(".toList ++ " mean - men".toList ++ ")+".toList ++ "2 ".toList = "-1*( mean - men)+2 ".toList := by decide +kernel
  unfold Parser.text
  rw [setupM.names_eq]
  simp only [bind, Except.bind, setupM.fs_eq, hps, h2, h3, h1, STree.toP, STree.toPs, relTree]
  rfl

/-- **C72 refuted (3).** (1) In a study with the parameter `p` and the hyper-parameter `log10pMin`, the query `log10pMin > -2` is answered by the probability of `log10(p) > -2`.  (2) A typo in
the second term of the left side makes the term disappear; on the right side it is reported. -/
theorem C72_refuted :
    (ask mext 10 [studyP] (some 1) ⟨.par "log10pMin", []⟩ .gt (.neg (.num 2)) = .ok (some (3/4)) ∧
      ask mext 10 [studyP] (some 1) ⟨.fn "log10" (.par "p"), []⟩ .gt (.neg (.num 2)) = .ok (some (1/2)) ∧
      Parser.text mext mall 10 [studyP] (some 1) "log10pMin > -2".toList = .ok (.prob (some (1/2)))) ∧
    (Parser.text mext mall 10 [studyM] (some 1) "mean - men > 2".toList = .ok (.prob (some (1/4))) ∧
      Parser.text mext mall 10 [studyM] (some 1) "mean > 2".toList = .ok (.prob (some (1/4))) ∧
      Parser.text mext mall 10 [studyM] (some 1) "2 < mean - men".toList = .error .indexError) := by
  have a1 : ask mext 10 [studyP] (some 1) ⟨.fn "log10" (.par "p"), []⟩ .gt (.neg (.num 2)) = .ok (some (1/2)) := by decide +kernel
  have a2 : ask mext 10 [studyM] (some 1) ⟨.par "mean", []⟩ .gt (.num 2) = .ok (some (1/4)) := by decide +kernel
  have w1 : WritesSide (K := ℚ) ["mean", "log10pMin"] ["abs", "log", "log10", "std"] ⟨.par "mean", []⟩ "mean ".toList :=
    .one (.after (w := [' ']) (by intro c hc; simp at hc; exact .inl hc) (up_to (Nat.zero_le 5) (.par (by simp))))
  have w2 : Writes (K := ℚ) ["mean", "log10pMin"] ["abs", "log", "log10", "std"] 6 (.num 2) " 2".toList := by
    have := Writes.before (K := ℚ) (names := ["mean", "log10pMin"]) (fs := ["abs", "log", "log10", "std"]) (w := [' ']) (by intro c hc; simp at hc; exact .inl hc)
      (up_to (Nat.zero_le 6) (.num ⟨[2], none, none, by simp, by simp⟩))
    have two : (Numeral.mk [2] none none (by simp) (by simp)).value (K := ℚ) = 2 := by simp [Numeral.value, decimal]
    rw [two] at this
    exact this
  have t2 := C72_relation_partial mext mall 10 _ _ _ setupM (some 1) _ _ .gt _ _ w1 w2
  rw [a2] at t2
  have t1 := C72_ignored mext mall 10 _ _ _ setupM (some 1) _ _ .gt _ _ w1 w2 .sub [' '] "men ".toList (by intro c hc; simp at hc; exact .inl hc) men_start (by decide) (by decide)
  rw [t2] at t1
  refine ⟨⟨by decide +kernel, a1, ?_⟩, t1, t2, text_typo⟩
  rw [text_misread, a1]
  rfl

end Props
