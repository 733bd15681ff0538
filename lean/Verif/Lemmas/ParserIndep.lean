import Verif.Lemmas.ParserValue

/-! # Queries on independent parameters -/

set_option linter.unusedSectionVars false

namespace BL
open Spec
variable {K : Type} [Field K] [LinearOrder K]

theorem cart_append {α : Type} : ∀ a b : List (List α), cart (a ++ b) = (cart a).flatMap fun x => (cart b).map (x ++ ·)
  | [], b => by simp [cart]
  | l :: a, b => by
      simp only [List.cons_append, cart, cart_append a b, List.map_flatMap, List.flatMap_map, List.flatMap_assoc, List.map_map]
      rfl

theorem cart_row_length {α : Type} (ls : List (List α)) (row : List α) (h : row ∈ cart ls) : row.length = ls.length :=
  ((cart_mem ls row).1 h).length_eq

/-- value of parameter `r` in a row of (value, probability) pairs, one for each of the parameters `refs` -/
def rowEnv {V : Type} (d : V) (refs : List (String × Option K)) (row : List (V × K)) (r : String × Option K) : V :=
  ((refs.zip row).lookup r).elim d (·.1)

/-- probability of a row -/
def rowWeight {V : Type} (row : List (V × K)) : K := (row.map (·.2)).prod

theorem lookup_zip_left {V : Type} [DecidableEq K] {ra rb : List (String × Option K)} {a b : List V} (h : a.length = ra.length) {r : String × Option K} (hr : r ∈ ra) :
    ((ra ++ rb).zip (a ++ b)).lookup r = (ra.zip a).lookup r := by
  induction ra generalizing a with
  | nil => simp at hr
  | cons x ra ih =>
      cases a with
      | nil => simp at h
      | cons y a =>
          simp only [List.cons_append, List.zip_cons_cons, List.lookup_cons]
          by_cases hx : r = x
          · simp [hx]
          · have : (r == x) = false := by simpa using hx
            rw [this]
            simp only
            exact ih (by simpa using h) (by simpa [hx] using hr)

theorem lookup_zip_right {V : Type} [DecidableEq K] {ra rb : List (String × Option K)} {a b : List V} (h : a.length = ra.length) {r : String × Option K} (hr : r ∉ ra) :
    ((ra ++ rb).zip (a ++ b)).lookup r = (rb.zip b).lookup r := by
  induction ra generalizing a with
  | nil =>
      have : a = [] := by simpa using h
      subst this; rfl
  | cons x ra ih =>
      cases a with
      | nil => simp at h
      | cons y a =>
          have hx : (r == x) = false := by simpa using (List.ne_of_not_mem_cons hr)
          simp only [List.cons_append, List.zip_cons_cons, List.lookup_cons, hx]
          exact ih (by simpa using h) (List.not_mem_of_not_mem_cons hr)

theorem sum_prod_pairs (p q : List K) : (p.flatMap fun x => q.map fun y => x * y).sum = p.sum * q.sum := by
  induction p with
  | nil => simp
  | cons x p ih => rw [List.flatMap_cons, List.sum_append, ih, List.sum_cons, List.sum_map_mul_left, List.map_id']; ring

/-- rows of the parameters of a query -/
def refRows (T : String × Option K → List (FV K × K)) (refs : List (String × Option K)) : List (List (FV K × K)) := cart (refs.map T)

theorem rows_weight_sum (T : String × Option K → List (FV K × K)) (refs : List (String × Option K)) (h : ∀ r ∈ refs, ((T r).map (·.2)).sum = 1) :
    ((refRows T refs).map rowWeight).sum = 1 := by
  have e : (refRows T refs).map rowWeight = (cart (refs.map fun r => (T r).map (·.2))).map List.prod := by
    have := cart_map (f := fun x : FV K × K => x.2) (refs.map T)
    rw [List.map_map] at this
    change cart (refs.map fun r => (T r).map (·.2)) = _ at this
    rw [this, List.map_map, refRows]; rfl
  rw [e, cart_sum, List.map_map]
  apply List.prod_eq_one
  intro x hx
  obtain ⟨r, hr, rfl⟩ := List.mem_map.1 hx
  exact h r hr

/-- what evaluation yields for independent parameters -/
def IndepResult (E : PEnv K) (T : String × Option K → List (FV K × K)) (hy : String × Option K → Bool) (τ : String × Option K → Option K)
    (st : String × Option K → ℕ) (q : Query K) (v : PVal K) : Prop :=
  (q.refs = [] ∧ ∃ x b, v = .num x b ∧ ∀ ρ, fvQ E.ext ρ q = x) ∨
    ∃ h nm t s, v = .obj ⟨h, (refRows T q.refs).map fun row => fvQ E.ext (rowEnv .nan q.refs row) q, .dist ((refRows T q.refs).map rowWeight), nm, t, s⟩ ∧
      (s = none ∨ ∃ r ∈ q.refs, h = hy r ∧ nm = some r.1 ∧ t = τ r ∧ s = some (st r))

/-- separate parameters are combined as independent -/
theorem compound_separate {hy : String × Option K → Bool} {τ : String × Option K → Option K} {st : String × Option K → ℕ} {ra rb : List (String × Option K)}
    (hp : ∀ r ∈ ra, ∀ r' ∈ rb, Separate hy τ st r r') {a b : PObj K}
    (ha : a.study = none ∨ ∃ r ∈ ra, a.hyper = hy r ∧ a.name = some r.1 ∧ a.time = τ r ∧ a.study = some (st r))
    (hb : b.study = none ∨ ∃ r ∈ rb, b.hyper = hy r ∧ b.name = some r.1 ∧ b.time = τ r ∧ b.study = some (st r)) : compound a b = true := by
  unfold compound
  rcases ha with ha | ⟨r, hr, a1, a2, a3, a4⟩
  · rw [ha]
    cases b.study <;> cases a.hyper <;> cases b.hyper <;> simp
  · rcases hb with hb | ⟨r', hr', b1, b2, b3, b4⟩
    · rw [hb, a4]
      cases a.hyper <;> cases b.hyper <;> simp
    · rw [a1, a2, a3, a4, b1, b2, b3, b4]
      rcases hp r hr r' hr' with h | h | ⟨h1, h2, h3⟩
      · cases hy r <;> cases hy r' <;> simp [h]
      · cases e : hy r <;> cases e' : hy r' <;> simp_all
      · cases e' : hy r' <;> simp [h1, h2, h3]

/-- All parameters of the query are separate: all combinations of values, with the products of the probabilities. -/
theorem run_indep (E : PEnv K) (T : String × Option K → List (FV K × K)) (hy : String × Option K → Bool) (τ : String × Option K → Option K)
    (st : String × Option K → ℕ) (n : ℕ) (q : Query K) (v : PVal K)
    (h : run E n q = .ok v) (hst : q.refs.Pairwise (Separate hy τ st))
    (hr : ∀ r ∈ q.refs, refValue E r = .ok (.obj ⟨hy r, (T r).map (·.1), .dist ((T r).map (·.2)), some r.1, τ r, some (st r)⟩) ∧
      ((T r).map (·.2)).sum = 1) : IndepResult E T hy τ st q v := by
  revert hst hr
  have bin : ∀ (a b q : Query K) (o : Arith) (x y v : PVal K), (∀ ρ, fvQ E.ext ρ q = fvOp E.ext o (fvQ E.ext ρ a) (fvQ E.ext ρ b)) →
      q.refs = a.refs ++ b.refs → q.refs.Pairwise (Separate hy τ st) →
      (∀ r ∈ q.refs, refValue E r = .ok (.obj ⟨hy r, (T r).map (·.1), .dist ((T r).map (·.2)), some r.1, τ r, some (st r)⟩) ∧
        ((T r).map (·.2)).sum = 1) →
      (a.refs.Pairwise (Separate hy τ st) → (∀ r ∈ a.refs, refValue E r = .ok (.obj ⟨hy r, (T r).map (·.1), .dist ((T r).map (·.2)), some r.1, τ r, some (st r)⟩) ∧
        ((T r).map (·.2)).sum = 1) → IndepResult E T hy τ st a x) →
      (b.refs.Pairwise (Separate hy τ st) → (∀ r ∈ b.refs, refValue E r = .ok (.obj ⟨hy r, (T r).map (·.1), .dist ((T r).map (·.2)), some r.1, τ r, some (st r)⟩) ∧
        ((T r).map (·.2)).sum = 1) → IndepResult E T hy τ st b y) →
      operate E o.op x y = .ok v → IndepResult E T hy τ st q v := by
    intro a b q o x y v hq hrefs hp hr iha ihb h
    rw [hrefs] at hp hr
    obtain ⟨hpa, hpb, hpab⟩ := List.pairwise_append.1 hp
    have hra := fun r hx => hr r (List.mem_append_left _ hx)
    have hrb := fun r hx => hr r (List.mem_append_right _ hx)
    rw [operate_arith] at h
    rcases iha hpa hra with ⟨ra, x', n', rfl, hx⟩ | ⟨hya, nma, τa, sa, rfl, hsa⟩ <;>
      rcases ihb hpb hrb with ⟨rb, y', m', rfl, hy'⟩ | ⟨hyb, nmb, τb, sb, rfl, hsb⟩
    · left
      exact ⟨by rw [hrefs, ra, rb]; rfl, _, _, arithOp_num_num h, fun ρ => by rw [hq, hx, hy']⟩
    · right
      have he : q.refs = b.refs := by rw [hrefs, ra]; rfl
      refine ⟨hyb, nmb, τb, sb, ?_, by rw [he]; exact hsb⟩
      rw [arithOp_num_obj h, he]
      simp only [List.map_map]
      congr 2
      apply List.map_congr_left
      intro row _
      simp only [Function.comp, hq, hx]
    · right
      have he : q.refs = a.refs := by rw [hrefs, rb]; simp
      refine ⟨hya, nma, τa, sa, ?_, by rw [he]; exact hsa⟩
      rw [arithOp_obj_num h, he]
      simp only [List.map_map]
      congr 2
      apply List.map_congr_left
      intro row _
      simp only [Function.comp, hq, hy']
    · right
      rcases arithOp_obj_obj h with ⟨-, hv⟩ | ⟨hc, -⟩
      swap
      · exfalso
        rw [compound_separate hpab hsa hsb] at hc
        cases hc
      refine ⟨false, none, none, none, ?_, by simp⟩
      rw [hv, compoundOp, hrefs]
      have hw : ((refRows T a.refs).map rowWeight).flatMap (fun x => ((refRows T b.refs).map rowWeight).map fun y => x * y) =
          (refRows T (a.refs ++ b.refs)).map rowWeight := by
        rw [refRows, refRows, refRows, List.map_append, cart_append, List.map_flatMap, List.flatMap_map]
        apply List.flatMap_congr
        intro x _
        simp only [List.map_map]
        apply List.map_congr_left
        intro y _
        simp [rowWeight]
      have hs : ((refRows T (a.refs ++ b.refs)).map rowWeight).sum = 1 := rows_weight_sum T _ fun r hx => (hr r hx).2
      have hprob : productProb (.dist ((refRows T a.refs).map rowWeight)) (.dist ((refRows T b.refs).map rowWeight)) =
          .dist ((refRows T (a.refs ++ b.refs)).map rowWeight) := by
        simp only [productProb, Prob.flat, hw, hs, one_ne_zero, ↓reduceIte, div_one, List.map_id']
      rw [hprob]
      simp only
      congr 2
      rw [refRows, refRows, refRows, List.map_append, cart_append, List.map_flatMap, List.flatMap_map]
      apply List.flatMap_congr
      intro x hxm
      simp only [List.map_map]
      apply List.map_congr_left
      intro y hym
      simp only [Function.comp, hq]
      have hlen : x.length = a.refs.length := by rw [cart_row_length _ _ hxm, List.length_map]
      congr 1
      · apply fvQ_congr
        intro r hr'
        rw [rowEnv, rowEnv, lookup_zip_left hlen hr']
      · apply fvQ_congr
        intro r hr'
        have hnot : r ∉ a.refs := fun hra' => by
          rcases hpab r hra' r hr' with h | h | ⟨-, -, h⟩ <;> exact h rfl
        rw [rowEnv, rowEnv, lookup_zip_right hlen hnot]
  have single : ∀ (q : Query K) (r : String × Option K) (v : PVal K), q.refs = [r] → (∀ ρ, fvQ E.ext ρ q = ρ r) → refValue E r = .ok v →
      (∀ r ∈ q.refs, refValue E r = .ok (.obj ⟨hy r, (T r).map (·.1), .dist ((T r).map (·.2)), some r.1, τ r, some (st r)⟩) ∧
        ((T r).map (·.2)).sum = 1) → IndepResult E T hy τ st q v := by
    intro q r v he hq h hr
    obtain ⟨h1, h2⟩ := hr r (by rw [he]; simp)
    rw [h1] at h; injection h with h
    right
    refine ⟨hy r, some r.1, τ r, some (st r), ?_, ?_⟩
    · rw [← h, he]
      simp only [refRows, List.map_cons, List.map_nil, cart, List.map_flatMap, hq]
      congr 2
      · rw [List.map_eq_flatMap]
        apply List.flatMap_congr
        intro x _
        simp [rowEnv]
      · congr 1
        rw [List.map_eq_flatMap]
        apply List.flatMap_congr
        intro x _
        simp [rowWeight]
    · exact .inr ⟨r, by rw [he]; simp, rfl, rfl, rfl, rfl⟩
  refine run_induct E (fun q v => q.refs.Pairwise (Separate hy τ st) → (∀ r ∈ q.refs, refValue E r =
    .ok (.obj ⟨hy r, (T r).map (·.1), .dist ((T r).map (·.2)), some r.1, τ r, some (st r)⟩) ∧
      ((T r).map (·.2)).sum = 1) → IndepResult E T hy τ st q v) ?_ ?_ ?_ ?_ ?_ ?_ ?_ ?_ n q v h
  · intro x _ _
    exact .inl ⟨rfl, _, _, rfl, fun _ => rfl⟩
  · intro s v h _ hr
    exact single _ (s, none) v rfl (fun ρ => rfl) h hr
  · intro s t v h _ hr
    exact single _ (s, some t) v rfl (fun ρ => rfl) h hr
  · intro e y v ih h hp hr
    exact bin (.num (-1)) e _ .mul (.num (.fin (-1)) false) y v (fun ρ => rfl) rfl hp hr (fun _ _ => .inl ⟨rfl, _, _, rfl, fun _ => rfl⟩) ih h
  · intro e y v ih h hp hr
    exact bin (.num 1) e _ .mul (.num (.fin 1) false) y v (fun ρ => rfl) rfl hp hr (fun _ _ => .inl ⟨rfl, _, _, rfl, fun _ => rfl⟩) ih h
  · intro s f e y v hf ih h hp hr
    rcases ih hp hr with ⟨h1, x, b, rfl, h2⟩ | ⟨hy', nm, τ', st', rfl, h3⟩
    · left
      exact ⟨h1, _, _, funcOp_num hf h, fun ρ => by rw [fvQ, hf, h2]⟩
    · right
      refine ⟨hy', nm, τ', st', ?_, h3⟩
      rw [funcOp_obj hf h]
      simp only [List.map_map, Query.refs]
      congr 2
      apply List.map_congr_left
      intro i _
      simp only [Function.comp, fvQ, hf]
  · intro a o b x y v iha ihb h hp hr
    exact bin a b _ o x y v (fun ρ => rfl) rfl hp hr iha ihb h
  · intro c o b x y v iha ihb h hp hr
    exact bin (.chain c) b _ o x y v (fun ρ => rfl) rfl hp hr iha ihb h

end BL
