import Verif.Props.C47
import Verif.Lemmas.ParserTimes

/-! # C46: complementary queries -/

set_option linter.unusedSectionVars false

namespace Spec
open BL
variable {K : Type} [Field K] [LinearOrder K]

/-- non-negative with positive sum -/
def Weights (l : List K) : Prop := (∀ x ∈ l, 0 ≤ x) ∧ 0 < l.sum

/-- The distributions stored in a study are normalised (those of hyper-parameters up to a factor). -/
structure Ready (s : PStudy K) : Prop where
  posts : ∀ p ∈ s.posts, Dist p
  current : s.store = false → Dist s.current
  static : ∀ cols dist, s.hyper = .static cols dist → Weights dist
  hist : ∀ ms hist cur, s.hyper = .online ms hist cur → ∀ row ∈ hist, ∀ d ∈ row, Weights d
  cur : ∀ ms hist cur, s.hyper = .online ms hist cur → ∀ d ∈ cur, Weights d

/-- operators which keep numbers finite: `+`, `-`, `*` and division by a literal other than zero -/
def Arith.Tame (o : Arith) (b : Query K) : Prop := o = .add ∨ o = .sub ∨ o = .mul ∨ (o = .div ∧ ∃ c, c ≠ 0 ∧ b = .num c)

mutual
/-- Expressions which are finite for all values of the parameters: `+`, `-`, `*`, division by non-zero literals, and functions which are finite everywhere. -/
def Query.Tame (X : PExt K) : Query K → Prop
  | .num _ => True
  | .par _ => True
  | .at _ _ => True
  | .neg e => e.Tame X
  | .pos e => e.Tame X
  | .fn s e => e.Tame X ∧ ∀ f, X.fn s = some f → ∀ x : K, ∃ y : K, f (.fin x) = .fin y
  | .chain c => c.Tame X

/-- chains which are finite for all values of the parameters -/
def Chain.Tame (X : PExt K) : Chain K → Prop
  | .two a o b => a.Tame X ∧ b.Tame X ∧ o.Tame b
  | .more c o b => c.Tame X ∧ b.Tame X ∧ o.Tame b
end

/-- left sides which are finite for all values of the parameters -/
def Side.Tame (X : PExt K) (l : Side K) : Prop := l.head.Tame X ∧ ∀ q ∈ l.tail, q.2.Tame X

end Spec

namespace BL
open Spec
variable {K : Type} [Field K] [LinearOrder K] [IsStrictOrderedRing K]

/-- distributions during the evaluation -/
def GoodProb : Prob K → Prop
  | .seq l => ∀ d ∈ l, Dist d
  | .dist l => Dist l
  | .scal x => 0 ≤ x
  | .nans => True

theorem weights_normed {l : List K} (h : Weights l) : Dist (normed l) := by
  constructor
  · intro x hx
    obtain ⟨y, hy, rfl⟩ := List.mem_map.1 hx
    exact div_nonneg (h.1 y hy) h.2.le
  · simp only [BL.normed, div_eq_mul_inv]
    rw [List.sum_map_mul_right, List.map_id']
    exact mul_inv_cancel₀ h.2.ne'

theorem mapE_mem {α β : Type} {f : α → Except PyErr β} {l : List α} {r : List β} (h : mapE f l = .ok r) {y : β} (hy : y ∈ r) : ∃ x ∈ l, f x = .ok y := by
  induction l generalizing r with
  | nil => simp [mapE] at h; subst h; simp at hy
  | cons a l ih =>
      simp only [mapE, bind_ok] at h
      obtain ⟨z, h1, r', h2, h3⟩ := h
      injection h3 with h3; subst h3
      rcases List.mem_cons.1 hy with rfl | hy
      · exact ⟨a, by simp, h1⟩
      · obtain ⟨x, hx, h⟩ := ih h2 hy
        exact ⟨x, by simp [hx], h⟩

theorem mem_zipWith {α β γ : Type} {f : α → β → γ} {a : List α} {b : List β} {y : γ} (h : y ∈ List.zipWith f a b) : ∃ x z, y = f x z := by
  induction a generalizing b with
  | nil => simp at h
  | cons x a ih =>
      cases b with
      | nil => simp at h
      | cons z b =>
          simp only [List.zipWith_cons_cons, List.mem_cons] at h
          rcases h with rfl | h
          · exact ⟨x, z, rfl⟩
          · exact ih h

theorem allSome_mem {α β : Type} {l : List α} {f : α → Option β} {r : List β} (h : allSome (l.map f) = some r) {y : β} (hy : y ∈ r) : ∃ x ∈ l, f x = some y := by
  induction l generalizing r with
  | nil => simp [allSome] at h; subst h; simp at hy
  | cons a l ih =>
      simp only [List.map_cons] at h
      cases hf : f a with
      | none => rw [hf] at h; simp [allSome] at h
      | some z =>
          rw [hf] at h
          simp only [allSome, Option.map_eq_some_iff] at h
          obtain ⟨r', h1, rfl⟩ := h
          rcases List.mem_cons.1 hy with rfl | hy
          · exact ⟨a, by simp, hf⟩
          · obtain ⟨x, hx, h⟩ := ih h1 hy
            exact ⟨x, by simp [hx], h⟩

/-- what is loaded: finite values and normalised distributions -/
def GoodObj (o : PObj K) : Prop := GoodProb o.prob ∧ ∀ v ∈ o.vals, ∃ x, v = .fin x

theorem loadParams_good {k : ℕ} {s : PStudy K} (hs : Ready s) {t : Option (K × ℕ)} {y : List (PObj K)} (h : loadParams k s t = .ok y) : ∀ o ∈ y, GoodObj o := by
  have fin : ∀ v : List K, ∀ u ∈ v.map FV.fin, ∃ x, u = FV.fin x := by
    intro v u hu
    obtain ⟨x, -, rfl⟩ := List.mem_map.1 hu
    exact ⟨x, rfl⟩
  unfold loadParams at h
  intro o ho
  split at h
  · split at h
    · injection h with h; subst h
      obtain ⟨x, z, rfl⟩ := mem_zipWith ho
      exact ⟨hs.posts, fin z⟩
    · rename_i hst
      split at h
      · simp at h
      · injection h with h; subst h
        obtain ⟨x, z, rfl⟩ := mem_zipWith ho
        exact ⟨hs.current (by simpa using hst), fin z⟩
  · split at h
    · simp at h
    · rename_i p hp
      injection h with h; subst h
      obtain ⟨x, z, rfl⟩ := mem_zipWith ho
      exact ⟨hs.posts p (List.mem_of_getElem? hp), fin z⟩

theorem loadOnline_good {k : ℕ} {s : PStudy K} (hist : List (List (List K))) (cur : List (List K)) (hh : ∀ row ∈ hist, ∀ d ∈ row, Weights d)
    (hc : ∀ d ∈ cur, Weights d) {t : Option (K × ℕ)} {j : ℕ} {m : List (String × List K)} {y : List (PObj K)} (h : loadOnline k s hist cur t j m = .ok y) :
    ∀ o ∈ y, GoodObj o := by
  have fin : ∀ v : List K, ∀ u ∈ v.map FV.fin, ∃ x, u = FV.fin x := by
    intro v u hu
    obtain ⟨x, -, rfl⟩ := List.mem_map.1 hu
    exact ⟨x, rfl⟩
  unfold loadOnline at h
  intro o ho
  split at h
  · split at h
    · split at h
      · simp at h
      · rename_i ds hds
        injection h with h; subst h
        obtain ⟨q, -, rfl⟩ := List.mem_map.1 ho
        refine ⟨fun d hd => ?_, fin _⟩
        obtain ⟨d', hd', rfl⟩ := List.mem_map.1 hd
        obtain ⟨row, hrow, hx⟩ := allSome_mem hds hd'
        exact weights_normed (hh row hrow d' (List.mem_of_getElem? hx))
    · split at h
      · rename_i d tl hd _
        injection h with h; subst h
        obtain ⟨q, -, rfl⟩ := List.mem_map.1 ho
        exact ⟨weights_normed (hc d (List.mem_of_getElem? hd)), fin _⟩
      · simp at h
  · split at h
    · split at h
      · simp at h
      · rename_i d hd
        injection h with h; subst h
        obtain ⟨q, -, rfl⟩ := List.mem_map.1 ho
        obtain ⟨row, hrow, hx⟩ := Option.bind_eq_some_iff.1 hd
        exact ⟨weights_normed (hh row (List.mem_of_getElem? hrow) d (List.mem_of_getElem? hx)), fin _⟩
    · split at h
      · injection h with h; subst h; simp at ho
      · simp at h

theorem loadHyper_good {k : ℕ} {s : PStudy K} (hs : Ready s) {t : Option (K × ℕ)} {y : List (PObj K)} (h : loadHyper k s t = .ok y) : ∀ o ∈ y, GoodObj o := by
  unfold loadHyper at h
  intro o ho
  split at h
  · injection h with h; subst h; simp at ho
  · rename_i cols dist hd
    injection h with h; subst h
    obtain ⟨q, -, rfl⟩ := List.mem_map.1 ho
    refine ⟨weights_normed (hs.static cols dist hd), ?_⟩
    intro u hu
    obtain ⟨x, -, rfl⟩ := List.mem_map.1 hu
    exact ⟨x, rfl⟩
  · rename_i ms hist cur hd
    rw [map_ok] at h
    obtain ⟨r, h1, rfl⟩ := h
    obtain ⟨y, hy, ho⟩ := List.mem_flatten.1 ho
    obtain ⟨q, -, hq⟩ := mapE_mem h1 hy
    exact loadOnline_good hist cur (hs.hist ms hist cur hd) (hs.cur ms hist cur hd) hq o ho

theorem loadAll_good {ss : List (PStudy K)} (hs : ∀ s ∈ ss, Ready s) {t : Option K} {l : List (PObj K)} (h : loadAll ss t = .ok l) : ∀ o ∈ l, GoodObj o := by
  obtain ⟨ti, ps, qs, -, h2, h3, rfl⟩ := loadAll_ok h
  intro o ho
  rcases List.mem_append.1 ho with ho | ho
  · obtain ⟨y, hy, ho⟩ := List.mem_flatten.1 ho
    obtain ⟨q, hq, hq'⟩ := mapE_mem h2 hy
    exact loadParams_good (hs q.1 (by obtain ⟨h, -, hh⟩ := List.mem_zipIdx hq; rw [hh]; simp)) hq' o ho
  · obtain ⟨y, hy, ho⟩ := List.mem_flatten.1 ho
    obtain ⟨q, hq, hq'⟩ := mapE_mem h3 hy
    exact loadHyper_good (hs q.1 (by obtain ⟨h, -, hh⟩ := List.mem_zipIdx hq; rw [hh]; simp)) hq' o ho

theorem index_good {p p' : Prob K} (h : GoodProb p) {i : ℕ} (hi : p.index i = .ok p') : GoodProb p' := by
  unfold Prob.index at hi
  split at hi
  · split at hi
    · rename_i d hd
      injection hi with hi; subst hi
      exact h d (List.mem_of_getElem? hd)
    · simp at hi
  · split at hi
    · rename_i x hx
      injection hi with hi; subst hi
      exact h.1 x (List.mem_of_getElem? hx)
    · simp at hi
  · simp at hi
  · injection hi with hi; subst hi; trivial

theorem refValue_good {E : PEnv K} (hE : ∀ o ∈ E.params, GoodObj o) {r : String × Option K} {v : PVal K} (h : refValue E r = .ok v) :
    v = .none ∨ ∃ o, v = .obj o ∧ GoodObj o := by
  rw [refValue, bind_ok] at h
  obtain ⟨x, h1, h2⟩ := h
  simp only [convert] at h1
  split at h1
  swap
  · simp at h1
  rename_i o ho
  injection h1 with h1; subst h1
  have hg := hE o (List.mem_of_find?_eq_some ho)
  split at h2
  · injection h2 with h2; exact .inr ⟨o, h2.symm, hg⟩
  · simp only [atOp] at h2
    split at h2
    · split at h2
      · simp at h2
      · split at h2
        · simp at h2
        · split at h2
          · simp at h2
          · rename_i hp
            injection h2 with h2
            exact .inr ⟨_, h2.symm, index_good hg.1 hp, hg.2⟩
    · injection h2 with h2; exact .inl h2.symm

theorem flat_nonneg {p : Prob K} (h : GoodProb p) {l : List K} (hl : p.flat = some l) : ∀ x ∈ l, 0 ≤ x := by
  cases p with
  | seq s =>
      simp only [Prob.flat, Option.some.injEq] at hl; subst hl
      intro x hx
      obtain ⟨d, hd, hx⟩ := List.mem_flatten.1 hx
      exact (h d hd).1 x hx
  | dist d => simp only [Prob.flat, Option.some.injEq] at hl; subst hl; exact h.1
  | scal x =>
      simp only [Prob.flat, Option.some.injEq] at hl; subst hl
      intro y hy; simp only [List.mem_singleton] at hy; subst hy; exact h
  | nans => simp [Prob.flat] at hl

theorem product_good {p q : Prob K} (hp : GoodProb p) (hq : GoodProb q) : GoodProb (productProb p q) := by
  unfold productProb
  split
  · rename_i l l' h1 h2
    simp only
    split
    · trivial
    · rename_i hs
      have hnn : ∀ x ∈ (l.flatMap fun x => l'.map fun y => x * y), 0 ≤ x := by
        intro z hz
        obtain ⟨x, hx, hz⟩ := List.mem_flatMap.1 hz
        obtain ⟨y, hy, rfl⟩ := List.mem_map.1 hz
        exact mul_nonneg (flat_nonneg hp h1 x hx) (flat_nonneg hq h2 y hy)
      have hpos : 0 < (l.flatMap fun x => l'.map fun y => x * y).sum := lt_of_le_of_ne (List.sum_nonneg hnn) (Ne.symm hs)
      exact weights_normed ⟨hnn, hpos⟩
  · trivial

/-- distributions stay normalised -/
theorem run_good {E : PEnv K} (hE : ∀ o ∈ E.params, GoodObj o) (n : ℕ) (q : Query K) (v : PVal K) (h : run E n q = .ok v) : ∀ o, v = .obj o → GoodProb o.prob := by
  have bin : ∀ (o : Arith) (x y v : PVal K), (∀ o, x = .obj o → GoodProb o.prob) → (∀ o, y = .obj o → GoodProb o.prob) →
      operate E o.op x y = .ok v → ∀ o, v = .obj o → GoodProb o.prob := by
    intro o x y v hx hy h
    rw [operate_arith] at h
    obtain ⟨⟨a, n, rfl⟩ | ⟨a, rfl⟩, ⟨b, m, rfl⟩ | ⟨b, rfl⟩⟩ := arithOp_cases h
    · rw [arithOp_num_num h]; simp
    · rw [arithOp_num_obj h]; rintro o ho; injection ho with ho; subst ho; exact hy b rfl
    · rw [arithOp_obj_num h]; rintro o ho; injection ho with ho; subst ho; exact hx a rfl
    · rcases arithOp_obj_obj h with ⟨-, rfl⟩ | ⟨-, l, -, rfl⟩
      · rintro o ho; injection ho with ho; subst ho
        exact product_good (hx a rfl) (hy b rfl)
      · rintro o ho; injection ho with ho; subst ho; exact hx a rfl
  refine run_induct E (fun q v => ∀ o, v = .obj o → GoodProb o.prob) ?_ ?_ ?_ ?_ ?_ ?_ ?_ ?_ n q v h
  · intro x; simp
  · intro s v h o ho
    rcases refValue_good hE h with rfl | ⟨o', rfl, hg⟩
    · simp at ho
    · injection ho with ho; subst ho; exact hg.1
  · intro s t v h o ho
    rcases refValue_good hE h with rfl | ⟨o', rfl, hg⟩
    · simp at ho
    · injection ho with ho; subst ho; exact hg.1
  · intro e y v ih h; exact bin .mul _ _ v (by simp) ih h
  · intro e y v ih h; exact bin .mul _ _ v (by simp) ih h
  · intro s f e y v hf ih h
    rcases funcOp_cases h with ⟨a, n, rfl⟩ | ⟨a, rfl⟩
    · rw [funcOp_num hf h]; simp
    · rw [funcOp_obj hf h]; rintro o ho; injection ho with ho; subst ho; exact ih a rfl
  · intro a o b x y v iha ihb h; exact bin o x y v iha ihb h
  · intro c o b x y v iha ihb h; exact bin o x y v iha ihb h

/-- a finite number, or finite values -/
def FiniteVal : PVal K → Prop
  | .num x _ => ∃ y, x = .fin y
  | .obj o => ∀ v ∈ o.vals, ∃ x, v = .fin x
  | _ => True

theorem tame_fin (X : PExt K) (o : Arith) (b : Query K) (ho : o.Tame b) (x y : K) (hy : ∀ c, b = .num c → y = c) : ∃ z, fvOp X o (.fin x) (.fin y) = .fin z := by
  rcases ho with rfl | rfl | rfl | ⟨rfl, c, hc, hb⟩
  · exact ⟨_, rfl⟩
  · exact ⟨_, rfl⟩
  · exact ⟨_, rfl⟩
  · have := hy c hb
    subst this
    exact ⟨x / y, by simp [fvOp, FV.div, hc]⟩

theorem run_tame {E : PEnv K} (hE : ∀ o ∈ E.params, GoodObj o) (n : ℕ) (q : Query K) (v : PVal K) (h : run E n q = .ok v) (hq : q.Tame E.ext) : FiniteVal v := by
  have bin : ∀ (b : Query K) (o : Arith) (x y v : PVal K), FiniteVal x → FiniteVal y → o.Tame b → (∀ c, b = .num c → y = .num (.fin c) false) →
      operate E o.op x y = .ok v → FiniteVal v := by
    intro b o x y v hx hy ho hb h
    rw [operate_arith] at h
    obtain ⟨⟨u, n, rfl⟩ | ⟨u, rfl⟩, ⟨w, m, rfl⟩ | ⟨w, rfl⟩⟩ := arithOp_cases h
    · rw [arithOp_num_num h]
      obtain ⟨u, rfl⟩ := hx
      obtain ⟨w, rfl⟩ := hy
      exact tame_fin _ o b ho u w fun c hc => by have := hb c hc; injection this with h1; injection h1
    · rw [arithOp_num_obj h]
      obtain ⟨u, rfl⟩ := hx
      intro v hv
      obtain ⟨z, hz, rfl⟩ := List.mem_map.1 hv
      obtain ⟨z, rfl⟩ := hy z hz
      exact tame_fin _ o b ho u z fun c hc => by have := hb c hc; simp at this
    · rw [arithOp_obj_num h]
      obtain ⟨w, rfl⟩ := hy
      intro v hv
      obtain ⟨z, hz, rfl⟩ := List.mem_map.1 hv
      obtain ⟨z, rfl⟩ := hx z hz
      exact tame_fin _ o b ho z w fun c hc => by have := hb c hc; injection this with h1; injection h1
    · have key : ∀ z1 ∈ u.vals, ∀ z2 ∈ w.vals, ∃ z, fvOp E.ext o z1 z2 = .fin z := by
        intro z1 h1 z2 h2
        obtain ⟨z1, rfl⟩ := hx z1 h1
        obtain ⟨z2, rfl⟩ := hy z2 h2
        exact tame_fin _ o b ho z1 z2 fun c hc => by have := hb c hc; simp at this
      rcases arithOp_obj_obj h with ⟨-, rfl⟩ | ⟨-, l, hl, rfl⟩
      · intro v hv
        simp only [compoundOp] at hv
        obtain ⟨z1, h1, hv⟩ := List.mem_flatMap.1 hv
        obtain ⟨z2, h2, rfl⟩ := List.mem_map.1 hv
        exact key z1 h1 z2 h2
      · intro v hv
        simp only at hv
        unfold broadcast at hl
        split at hl
        · injection hl with hl; subst hl
          clear hb ho h hx hy
          generalize u.vals = ul at *
          generalize w.vals = wl at *
          clear * - key hv
          induction ul generalizing wl with
          | nil => simp at hv
          | cons a ul ih =>
              cases wl with
              | nil => simp at hv
              | cons b' wl =>
                  simp only [List.zipWith_cons_cons, List.mem_cons] at hv
                  rcases hv with rfl | hv
                  · exact key a (by simp) b' (by simp)
                  · exact ih wl (fun z1 h1 z2 h2 => key z1 (List.mem_cons_of_mem _ h1) z2 (List.mem_cons_of_mem _ h2)) hv
        · split at hl
          · rename_i x hu
            injection hl with hl; subst hl
            obtain ⟨z, hz, rfl⟩ := List.mem_map.1 hv
            exact key x (by rw [hu]; simp) z hz
          · rename_i y hu _
            injection hl with hl; subst hl
            obtain ⟨z, hz, rfl⟩ := List.mem_map.1 hv
            exact key z hz y (by rw [hu]; simp)
          · simp at hl
  refine (run_induct E (fun q v => q.Tame E.ext → FiniteVal v ∧ ∀ c, q = .num c → v = .num (.fin c) false) ?_ ?_ ?_ ?_ ?_ ?_ ?_ ?_ n q v h hq).1
  · intro x _; exact ⟨⟨x, rfl⟩, fun c hc => by injection hc with hc; rw [hc]⟩
  · intro s v h _
    refine ⟨?_, by simp⟩
    rcases refValue_good hE h with rfl | ⟨o', rfl, hg⟩
    · trivial
    · exact hg.2
  · intro s t v h _
    refine ⟨?_, by simp⟩
    rcases refValue_good hE h with rfl | ⟨o', rfl, hg⟩
    · trivial
    · exact hg.2
  · intro e y v ih h hq
    exact ⟨bin e .mul (.num (.fin (-1)) false) _ v ⟨-1, rfl⟩ (ih hq).1 (.inr (.inr (.inl rfl))) (ih hq).2 h, by simp⟩
  · intro e y v ih h hq
    exact ⟨bin e .mul (.num (.fin 1) false) _ v ⟨1, rfl⟩ (ih hq).1 (.inr (.inr (.inl rfl))) (ih hq).2 h, by simp⟩
  · intro s f e y v hf ih h hq
    refine ⟨?_, by simp⟩
    rcases funcOp_cases h with ⟨a, n, rfl⟩ | ⟨a, rfl⟩
    · rw [funcOp_num hf h]
      obtain ⟨a, rfl⟩ := (ih hq.1).1
      exact hq.2 f hf a
    · rw [funcOp_obj hf h]
      intro v hv
      obtain ⟨z, hz, rfl⟩ := List.mem_map.1 hv
      obtain ⟨z, rfl⟩ := (ih hq.1).1 z hz
      exact hq.2 f hf z
  · intro a o b x y v iha ihb h hq
    exact ⟨bin b o x y v (iha hq.1).1 (ihb hq.2.1).1 hq.2.2 (ihb hq.2.1).2 h, by simp⟩
  · intro c o b x y v iha ihb h hq
    exact ⟨bin b o x y v (iha hq.1).1 (ihb hq.2.1).1 hq.2.2 (ihb hq.2.1).2 h, by simp⟩

theorem reducedChain_tame (X : PExt K) (l : Side K) (r : Query K) (hl : l.Tame X) (hr : r.Tame X) : (reducedChain l.head l.tail r).Tame X := by
  obtain ⟨l0, ls⟩ := l
  have key : ∀ (ls : List (Bool × Query K)) (c : Chain K), c.Tame X → (∀ q ∈ ls, q.2.Tame X) →
      (ls.foldl (fun c q => Chain.more c (sign q.1) q.2) c).Tame X := by
    intro ls
    induction ls with
    | nil => intro c hc _; exact hc
    | cons q ls ih =>
        intro c hc hq
        rw [List.foldl_cons]
        refine ih _ ⟨hc, hq q (by simp), ?_⟩ fun q' hq' => hq q' (by simp [hq'])
        rcases q.1
        · exact .inr (.inl rfl)
        · exact .inl rfl
  refine key ls _ ⟨⟨?_, hr, .inr (.inr (.inl rfl))⟩, hl.1, .inl rfl⟩ hl.2
  simp [Query.Tame]

/-- mass of the values which satisfy `test` -/
def mass (o : PObj K) (p : List K) (test : FV K → Bool) : K := ((o.vals.zip p).map fun q => if test q.1 then q.2 else 0).sum

theorem mass_split (o : PObj K) (p : List K) (a b c : FV K → Bool) (h : ∀ v, (c v = (a v || b v)) ∧ ¬ (a v = true ∧ b v = true)) :
    mass o p c = mass o p a + mass o p b := by
  unfold mass
  rw [← List.sum_map_add]
  congr 1
  apply List.map_congr_left
  intro q _
  obtain ⟨h1, h2⟩ := h q.1
  rw [h1]
  cases ha : a q.1 <;> cases hb : b q.1 <;> simp_all

theorem mass_nonneg (o : PObj K) (p : List K) (hp : ∀ x ∈ p, 0 ≤ x) (test : FV K → Bool) : 0 ≤ mass o p test := by
  apply List.sum_nonneg
  intro x hx
  obtain ⟨q, hq, rfl⟩ := List.mem_map.1 hx
  split
  · exact hp _ (List.of_mem_zip hq).2
  · exact le_refl _

theorem mass_all (o : PObj K) (p : List K) (hl : p.length = o.vals.length) : mass o p (fun _ => true) = p.sum := by
  unfold mass
  simp only [↓reduceIte]
  change ((o.vals.zip p).map Prod.snd).sum = _
  rw [List.map_snd_zip (by omega)]

theorem test_ge (v : FV K) : (Rel.ge.test v = (Rel.gt.test v || Rel.eq.test v)) ∧ ¬ (Rel.gt.test v = true ∧ Rel.eq.test v = true) := by
  cases v with
  | fin x =>
      simp only [Rel.test]
      constructor
      · rw [← Bool.decide_or]
        exact decide_eq_decide.2 (by rw [le_iff_lt_or_eq, eq_comm])
      · simp only [decide_eq_true_eq]
        rintro ⟨h1, h2⟩; rw [h2] at h1; exact lt_irrefl _ h1
  | _ => simp [Rel.test]

theorem test_le (v : FV K) : (Rel.le.test v = (Rel.lt.test v || Rel.eq.test v)) ∧ ¬ (Rel.lt.test v = true ∧ Rel.eq.test v = true) := by
  cases v with
  | fin x =>
      simp only [Rel.test]
      constructor
      · rw [← Bool.decide_or]
        exact decide_eq_decide.2 (by rw [le_iff_lt_or_eq])
      · simp only [decide_eq_true_eq]
        rintro ⟨h1, h2⟩; rw [h2] at h1; exact lt_irrefl _ h1
  | _ => simp [Rel.test]

theorem test_not (x : K) : Rel.le.test (.fin x) = !Rel.gt.test (.fin x) ∧ Rel.lt.test (.fin x) = !Rel.ge.test (.fin x) := by
  simp only [Rel.test]
  constructor
  · rw [← decide_not]; exact decide_eq_decide.2 not_lt.symm
  · rw [← decide_not]; exact decide_eq_decide.2 not_le.symm

/-- all answers for one pair of expressions -/
theorem answers {X : PExt K} {n : ℕ} {ss : List (PStudy K)} {t : Option K} {left : Side K} {right : Query K} {rel : Rel} {p : K} (hF : ∀ s ∈ ss, Ready s)
    (h : ask X n ss t left rel right = .ok (some p)) : ∃ (o : PObj K) (w : List K), Dist w ∧ w.length = o.vals.length ∧
      (∀ rel', ask X n ss t left rel' right = .ok (some (mass o w rel'.test))) ∧ (left.Tame X → right.Tame X → ∀ v ∈ o.vals, ∃ x, v = .fin x) := by
  unfold ask Parser.prob at h
  simp only [bind_ok] at h
  obtain ⟨ns, hn, l, hl, h⟩ := h
  obtain ⟨o, h1, h2⟩ := relQuery_ok _ _ _ _ _ _ h
  have hE := loadAll_good hF hl
  have hg := run_good (E := ⟨X, ss.map PStudy.ts, l⟩) hE n _ _ h1 o rfl
  cases hp : o.prob with
  | dist w =>
      rw [hp] at hg
      have hlen : w.length = o.vals.length := by
        by_contra hc
        unfold maskedSum at h2
        rw [hp] at h2
        simp [hc] at h2
      refine ⟨o, w, hg, hlen, fun rel' => ?_, fun hl' hr' => ?_⟩
      · rw [ask_eq X n hn hl, relQuery_eq, h1]
        simp only [bind, Except.bind]
        rw [maskedSum_eq o w hp hlen]; rfl
      · exact run_tame (E := ⟨X, ss.map PStudy.ts, l⟩) hE n _ _ h1 (reducedChain_tame X left right hl' hr')
  | seq w =>
      have hs : o.prob.isSeq = false := chain_notSeq (E := ⟨X, ss.map PStudy.ts, l⟩) (loadAll_seqNeeds hl) n _ o h1
      rw [hp] at hs
      cases hs
  | _ => unfold maskedSum at h2; rw [hp] at h2; simp at h2

end BL

namespace Props
open BL Spec
variable {K : Type} [Field K] [LinearOrder K] [IsStrictOrderedRing K]

/-- **C46 (partial), all expressions.** If a relational query on fitted studies is answered, then all relational operators are answered for these two expressions,
with probabilities in `[0, 1]`; `>=` is `>` or `==`, `<=` is `<` or `==`, and the three exclusive relations `<`, `==`, `>` have total probability at most one.  The
full claim is equality; see `C46_partial` for the expressions for which it holds and `C46_refuted`. -/
theorem C46_bounds_partial (X : PExt K) (n : ℕ) (ss : List (PStudy K)) (t : Option K) (hF : ∀ s ∈ ss, Ready s) (left : Side K) (right : Query K) (rel : Rel) (p : K)
    (h : ask X n ss t left rel right = .ok (some p)) :
    ∃ gt eq lt : K, 0 ≤ gt ∧ 0 ≤ eq ∧ 0 ≤ lt ∧ gt + eq + lt ≤ 1 ∧
      ask X n ss t left .gt right = .ok (some gt) ∧ ask X n ss t left .eq right = .ok (some eq) ∧ ask X n ss t left .lt right = .ok (some lt) ∧
      ask X n ss t left .ge right = .ok (some (gt + eq)) ∧ ask X n ss t left .le right = .ok (some (lt + eq)) := by
  obtain ⟨o, w, hw, hlen, hask, -⟩ := answers hF h
  refine ⟨mass o w Rel.gt.test, mass o w Rel.eq.test, mass o w Rel.lt.test, mass_nonneg _ _ hw.1 _, mass_nonneg _ _ hw.1 _, mass_nonneg _ _ hw.1 _, ?_,
    hask _, hask _, hask _, ?_, ?_⟩
  · rw [← mass_split o w Rel.gt.test Rel.eq.test Rel.ge.test, ← mass_split o w Rel.ge.test Rel.lt.test (fun v => Rel.ge.test v || Rel.lt.test v)]
    · have h1 := mass_split o w (fun v => Rel.ge.test v || Rel.lt.test v) (fun v => !(Rel.ge.test v || Rel.lt.test v)) (fun _ => true) fun v => by
        cases (Rel.ge.test v || Rel.lt.test v) <;> simp
      rw [mass_all o w hlen, hw.2] at h1
      have h2 := mass_nonneg o w hw.1 fun v => !(Rel.ge.test v || Rel.lt.test v)
      linarith
    · intro v
      refine ⟨rfl, ?_⟩
      cases v <;> simp [Rel.test]
    · exact test_ge
  · rw [hask, ← mass_split o w Rel.gt.test Rel.eq.test Rel.ge.test]
    exact test_ge
  · rw [hask, ← mass_split o w Rel.lt.test Rel.eq.test Rel.le.test]
    exact test_le

/-- **C46 (partial), finite expressions.** If a relational query on fitted studies is answered, and both expressions consist of parameters, numbers, `+`, `-`, `*`, division by
non-zero literals and functions which are finite everywhere: `P(a > b) + P(a <= b) = 1` and `P(a >= b) + P(a < b) = 1`, and all lie between 0 and 1.  Missing: other
divisions, powers and functions, for which values may be nan (`C46_refuted`). -/
theorem C46_partial (X : PExt K) (n : ℕ) (ss : List (PStudy K)) (t : Option K) (hF : ∀ s ∈ ss, Ready s) (left : Side K) (right : Query K) (rel : Rel) (p : K)
    (hl : left.Tame X) (hr : right.Tame X) (h : ask X n ss t left rel right = .ok (some p)) :
    ∃ gt ge lt le : K, ask X n ss t left .gt right = .ok (some gt) ∧ ask X n ss t left .ge right = .ok (some ge) ∧
      ask X n ss t left .lt right = .ok (some lt) ∧ ask X n ss t left .le right = .ok (some le) ∧ gt + le = 1 ∧ ge + lt = 1 ∧
      0 ≤ gt ∧ gt ≤ 1 ∧ 0 ≤ ge ∧ ge ≤ 1 ∧ 0 ≤ lt ∧ lt ≤ 1 ∧ 0 ≤ le ∧ le ≤ 1 := by
  obtain ⟨o, w, hw, hlen, hask, hfin⟩ := answers hF h
  have hfin := hfin hl hr
  have congr : ∀ f g : FV K → Bool, (∀ x, f (.fin x) = g (.fin x)) → mass o w f = mass o w g := by
    intro f g hfg
    unfold mass
    congr 1
    apply List.map_congr_left
    intro q hq
    obtain ⟨x, hx⟩ := hfin q.1 (List.of_mem_zip hq).1
    rw [hx, hfg]
  have h1 : mass o w Rel.gt.test + mass o w Rel.le.test = 1 := by
    rw [congr Rel.le.test (fun v => !Rel.gt.test v) fun x => (test_not x).1,
      ← mass_split o w Rel.gt.test (fun v => !Rel.gt.test v) (fun _ => true) (by intro v; cases Rel.gt.test v <;> simp), mass_all o w hlen, hw.2]
  have h2 : mass o w Rel.ge.test + mass o w Rel.lt.test = 1 := by
    rw [congr Rel.lt.test (fun v => !Rel.ge.test v) fun x => (test_not x).2,
      ← mass_split o w Rel.ge.test (fun v => !Rel.ge.test v) (fun _ => true) (by intro v; cases Rel.ge.test v <;> simp), mass_all o w hlen, hw.2]
  have a1 := mass_nonneg o w hw.1 Rel.gt.test
  have a2 := mass_nonneg o w hw.1 Rel.ge.test
  have a3 := mass_nonneg o w hw.1 Rel.lt.test
  have a4 := mass_nonneg o w hw.1 Rel.le.test
  exact ⟨_, _, _, _, hask _, hask _, hask _, hask _, h1, h2, a1, by linarith, a2, by linarith, a3, by linarith, a4, by linarith⟩

open Ex in
/-- the studies of the examples are fitted, and a query with function, division by a literal and three parameters of two studies is answered -/
example : (∀ s ∈ [studyA, studyB], Ready s) ∧
    Side.Tame pext ⟨.fn "abs" (.at "z" 2), [(true, .chain (.two (.at "x" 1) .div (.num 2))), (false, .par "sigma")]⟩ ∧
    ask pext 10 [studyA, studyB] none ⟨.fn "abs" (.at "z" 2), [(true, .chain (.two (.at "x" 1) .div (.num 2))), (false, .par "sigma")]⟩ .ge (.num 0) =
      .ok (some (1/6)) := by
  refine ⟨?_, ?_, ?_⟩
  · intro s hs
    fin_cases hs
    · refine ⟨?_, ?_, ?_, ?_, ?_⟩ <;> simp [studyA, Dist] <;> norm_num
    · refine ⟨?_, ?_, ?_, ?_, ?_⟩ <;> simp [studyB, Dist, Weights] <;> norm_num
  · refine ⟨⟨trivial, ?_⟩, ?_⟩
    · intro f hf x
      simp [pext] at hf
      subst hf
      exact ⟨_, rfl⟩
    · intro q hq
      simp at hq
      rcases hq with rfl | rfl
      · exact ⟨trivial, trivial, .inr (.inr (.inr ⟨rfl, 2, by norm_num, rfl⟩))⟩
      · trivial
  · decide +kernel

open Ex in
/-- **C46 (refuted).** For `x@1/x@1 > 1` the value is nan where `x` is zero (probability 3/4): it belongs to neither of the complementary queries. -/
theorem C46_refuted : (∀ s ∈ [studyA], Ready s) ∧
    ask pext 10 [studyA] none ⟨.chain (.two (.at "x" 1) .div (.at "x" 1)), []⟩ .gt (.num 1) = .ok (some 0) ∧
    ask pext 10 [studyA] none ⟨.chain (.two (.at "x" 1) .div (.at "x" 1)), []⟩ .le (.num 1) = .ok (some (1/4)) := by
  refine ⟨?_, ?_, ?_⟩
  · intro s hs
    fin_cases hs
    refine ⟨?_, ?_, ?_, ?_, ?_⟩ <;> simp [studyA, Dist] <;> norm_num
  · decide +kernel
  · decide +kernel

end Props
