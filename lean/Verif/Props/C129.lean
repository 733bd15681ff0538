import Verif.Props.C127
import Verif.Props.C03
import Verif.Props.C04
import Verif.Model.ParserView

/-! # C129: queries on a fitted study return probabilities given the data -/

set_option linter.unusedSectionVars false
set_option linter.unusedSimpArgs false

namespace BL
open Spec
variable {K : Type} [Field K] [LinearOrder K] [IsStrictOrderedRing K]

theorem ravelIdx_sum : {d : ℕ} → (gs : Fin d → ℕ) → (f : Idx gs → K) → ((ravelIdx gs).map f).sum = ∑ x, f x
  | 0, gs, f => by
      rw [Fintype.sum_eq_single (fun a : Fin 0 => a.elim0 : Idx gs)]
      · simp [ravelIdx]
      · intro x hx; exact absurd (funext fun a => a.elim0) hx
  | d + 1, gs, f => by
      have e : ∑ x : Idx gs, f x = ∑ q : Fin (gs 0) × ((a : Fin d) → Fin (gs a.succ)), f (Fin.cons (α := fun a => Fin (gs a)) q.1 q.2) :=
        ((Fin.consEquiv fun a => Fin (gs a)).sum_comp f).symm
      rw [e, Fintype.sum_prod_type]
      simp only [ravelIdx, List.map_flatMap, List.map_map]
      rw [List.flatMap_def, List.sum_flatten, List.map_map]
      have : (List.sum ∘ fun i => (ravelIdx fun a => gs a.succ).map (f ∘ fun x => Fin.cons (α := fun a => Fin (gs a)) i x))
          = fun i : Fin (gs 0) => ∑ x : (a : Fin d) → Fin (gs a.succ), f (Fin.cons (α := fun a => Fin (gs a)) i x) := by
        funext i
        exact ravelIdx_sum (fun a => gs a.succ) fun x => f (Fin.cons (α := fun a => Fin (gs a)) i x)
      rw [this, ← List.ofFn_eq_map, List.sum_ofFn]

theorem cellsVal_map {α : Type} (l : List α) : cellsVal (l.map Cell.val) = some l := by
  induction l with
  | nil => rfl
  | cons a l ih => simp [cellsVal, ih]

theorem ofFn_get {α : Type} {n : ℕ} (f : Fin n → α) (i : Fin n) : (List.ofFn f)[i.val]? = some (f i) := by simp

end BL

namespace Props
open BL Spec
variable {K : Type} [Field K] [LinearOrder K] [IsStrictOrderedRing K] {d : ℕ} {gs : Fin d → ℕ}

/-- The study `s`, alone or with others (study `k` of `ss`), answers every query about its parameters at time `τ` with the probability that the comparison is true, if the possible histories are `Z`
with weights `W`, and `pt` is the grid point at that time.  The values of the parameters at grid point `x` are `ρ x`.  The time is given in the query (`a@τ > 1`) or as the argument `t`. -/
def AnswersAt (names : Fin d → String) (grid : (a : Fin d) → Fin (gs a) → K) (τ : K) (s : PStudy K) {Z : Type} [Fintype Z] (W : Z → K) (pt : Z → Idx gs) : Prop :=
  ∀ (X : PExt K) (ss : List (PStudy K)) (k : ℕ) (t : Option K), ss[k]? = some s → Accepts ss t → Stamps ss t →
  ∀ (ρ : Idx gs → String × Option K → K), (∀ x a u, ρ x (names a, u) = grid a (x a)) →
  ∀ (left : Side K) (rel : Rel) (right : Query K), left.refs ++ right.refs ≠ [] →
    (∀ r ∈ left.refs ++ right.refs, (∃ a, names a = r.1) ∧ (t = none ∧ r.2 = some τ ∨ t = some τ ∧ r.2 = none)) →
    left.Clean X → right.Clean X → (∀ z, W z ≠ 0 → Comparable (left.extended X (ρ (pt z))) (right.extended X (ρ (pt z)))) →
    ∃ n0, ∀ m ≥ n0, ask X m ss t left rel right =
      .ok (some ((∑ z, W z * xindicator rel (left.extended X (ρ (pt z))) (right.extended X (ρ (pt z)))) / ∑ z, W z))

/-- shares of the weights -/
theorem sum_shares {ι Z : Type} [Fintype ι] [DecidableEq ι] [Fintype Z] (W : Z → K) (pt : Z → ι) (f : ι → K) :
    ∑ x, (∑ z with pt z = x, W z) / (∑ z, W z) * f x = (∑ z, W z * f (pt z)) / ∑ z, W z := by
  have e : ∑ z, W z * f (pt z) = ∑ x, (∑ z with pt z = x, W z) * f x := by
    rw [← Finset.sum_fiberwise (s := Finset.univ) (g := pt)]
    refine Finset.sum_congr rfl fun x _ => ?_
    rw [Finset.sum_mul]
    refine Finset.sum_congr rfl fun z hz => ?_
    rw [(Finset.mem_filter.1 hz).2]
  rw [e, Finset.sum_div]
  refine Finset.sum_congr rfl fun x _ => ?_
  ring

theorem view_answers (names : Fin d → String) (grid : (a : Fin d) → Fin (gs a) → K) {n : ℕ} (τ : Fin (n + 1) → K) (S : FitState K gs) (P : Fin (n + 1) → Idx gs → K)
    (hS : S.posts = List.ofFn fun i => .val (P i)) :
    ∃ s, parserView names grid (List.ofFn τ) S = some s ∧ s.names = List.ofFn names ∧ s.ts = List.ofFn τ ∧ s.store = true ∧ s.hyper = .none ∧ s.posts.length = n + 1 ∧
      ∀ (i : Fin (n + 1)) (hyp : PHyper K) (Z : Type) [Fintype Z] (W : Z → K) (pt : Z → Idx gs), (∀ x, P i x = (∑ z with pt z = x, W z) / ∑ z, W z) →
        AnswersAt names grid (τ i) { s with hyper := hyp } W pt := by
  have hv : cellsVal S.posts = some (List.ofFn P) := by
    rw [hS, show (List.ofFn fun i => Cell.val (P i)) = (List.ofFn P).map Cell.val by rw [List.map_ofFn]; rfl, cellsVal_map]
  refine ⟨_, by rw [parserView, hv]; rfl, rfl, rfl, rfl, rfl, by simp, ?_⟩
  intro i hyp Z _ W pt hP X ss k t hk hA hSt ρ hρ left rel right hne hr hl hrt hc0
  have hc : ∀ x, P i x ≠ 0 → Comparable (left.extended X (ρ x)) (right.extended X (ρ x)) := by
    intro x hx
    rw [hP] at hx
    obtain ⟨z, hz, h⟩ := Finset.exists_ne_zero_of_sum_ne_zero (fun h => hx (by rw [h, zero_div]))
    rw [← (Finset.mem_filter.1 hz).2]
    exact hc0 z h
  let V : String × Option K → List K := fun r => (ravelIdx gs).map fun x => ρ x r
  let w : List K := (ravelIdx gs).map (P i)
  have hr' : ∀ r ∈ left.refs ++ right.refs, Reads ss t r k false (some (τ i)) (V r) w ∧ (V r).length = w.length := by
    intro r h
    refine ⟨?_, by simp [V, w]⟩
    obtain ⟨⟨a, ha⟩, h2⟩ := hr r h
    obtain ⟨nm, u⟩ := r
    simp only at ha h2
    subst ha
    have hV : V (names a, u) = (ravelIdx gs).map fun x => grid a (x a) := by simp only [V, hρ]
    rw [hV]
    rcases h2 with ⟨ht, rfl⟩ | ⟨ht, rfl⟩
    · exact .at (a := a.val) (i := i.val) ht hk rfl (ofFn_get _ a) (ofFn_get _ a) (ofFn_get _ i) (by change (List.map _ (List.ofFn P))[i.val]? = some w; rw [List.getElem?_map, ofFn_get]; rfl)
    · exact .global (a := a.val) (i := i.val) ht hk (ofFn_get _ a) (ofFn_get _ a) (ofFn_get _ i) (by change (List.map _ (List.ofFn P))[i.val]? = some w; rw [List.getElem?_map, ofFn_get]; rfl)
  have hlen : w.length = (ravelIdx gs).length := by simp [w]
  have hρV : ∀ (j : ℕ) (h : j < (ravelIdx gs).length), (fun r => (V r).getD j 0) = ρ (ravelIdx gs)[j] := by
    intro j h
    funext r
    simp [V, List.getD_eq_getElem?_getD, h]
  obtain ⟨n0, h0⟩ := C127_answered X ss t hA hSt left rel right k false (some (τ i)) V w hne hr' hl hrt
  refine ⟨n0, fun m hm => ?_⟩
  obtain ⟨p, hp⟩ := h0 m hm
  have := C127_partial X ss t hSt left rel right k false (some (τ i)) V w hne hr' (by
    intro j h hw
    rw [hρV j (hlen ▸ h)]
    exact hc _ (by simpa [w] using hw)) m p hp
  rw [hp, this]
  congr 2
  rw [← sum_shares W pt fun x => xindicator rel (left.extended X (ρ x)) (right.extended X (ρ x))]
  simp only [← hP]
  rw [← ravelIdx_sum gs, ← Fin.sum_univ_getElem]
  refine Fintype.sum_equiv (finCongr (by simp [w])) _ _ ?_
  intro j
  rw [hρV j (hlen ▸ j.isLt)]
  simp [w]

/-- One study whose parameters have different names is accepted by the parser, for every time of the study. -/
theorem accepts_one {names : Fin d → String} (hn : Function.Injective names) {n : ℕ} {τ : Fin (n + 1) → K} {s : PStudy K} (h1 : s.names = List.ofFn names)
    (h2 : s.ts = List.ofFn τ) (h3 : s.store = true) (h4 : s.hyper = .none) (h5 : s.posts.length = n + 1) (t : Option K) (ht : t = none ∨ ∃ i, t = some (τ i)) : Accepts [s] t := by
  refine ⟨⟨_, by rw [parserNames]; simp [h1, h4, PHyper.names, List.nodup_ofFn.2 hn]; rfl⟩, ?_⟩
  rcases ht with rfl | ⟨i, rfl⟩
  · simp [loadAll, timeIndex, mapE, loadParams, loadHyper, h3, h4, bind, Except.bind]
  · have hm : τ i ∈ s.ts := by rw [h2, List.mem_ofFn]; exact ⟨i, rfl⟩
    have hl : s.ts.idxOf (τ i) < s.posts.length := by
      rw [h5]; have := List.idxOf_lt_length_of_mem hm; simpa [h2] using this
    simp [loadAll, timeIndex, indexOf?, hm, mapE, loadParams, loadHyper, h4, bind, Except.bind, List.getElem?_eq_getElem hl]

theorem unit_injective {n : ℕ} {τ : Fin (n + 1) → K} (hU : ∀ i : Fin n, τ i.succ = τ i.castSucc + 1) : Function.Injective τ :=
  (Fin.strictMono_iff_lt_succ.2 fun i => by rw [hU]; exact lt_add_one _).injective

/-- **C129.** After a full fit with unit-spaced time stamps, a query about the parameters at one of the time stamps is answered with the conditional probability of the comparison given all data:
the share of the parameter paths for which it is true at that time, weighted by initial probability, transition probabilities and likelihoods. -/
theorem C129_partial (E : Env K gs) (grid : (a : Fin d) → Fin (gs a) → K) (tm : TM K)
    (hE : Regular E) (hL : Linear E tm) (S : FitState K gs) (π : Idx gs → K) (hp : PriorMass E.cell S.prior π)
    (hR : ResetFree tm ∨ S.prior = .none)
    {n : ℕ} (L : Fin (n + 1) → Idx gs → K) (hL0 : ∀ i x, 0 ≤ L i x) (τ : Fin (n + 1) → K)
    (hU : ∀ i : Fin n, τ i.succ = τ i.castSucc + 1)
    (hpos : evidence π (fun i : Fin n => kernel E π tm (τ i.castSucc)) L ≠ 0) :
    ∃ S' s, fit E grid tm (List.ofFn L) (List.ofFn τ) false false S = .ok S' ∧ parserView E.names grid (List.ofFn τ) S' = some s ∧
      (Function.Injective E.names → ∀ t, (t = none ∨ ∃ i, t = some (τ i)) → Accepts [s] t ∧ Stamps [s] t) ∧
      ∀ i, AnswersAt E.names grid (τ i) s (pathWeight π (fun i : Fin n => kernel E π tm (τ i.castSucc)) L) fun z => z i := by
  obtain ⟨S', h1, h2⟩ := C04_smoothing E grid tm hE hL S π hp hR L hL0 τ hU hpos
  obtain ⟨s, hs, a1, a2, a3, a4, a5, h⟩ := view_answers E.names grid τ S' _ h2
  refine ⟨S', s, h1, hs, fun hn t ht => ⟨accepts_one hn a1 a2 a3 a4 a5 t ht, ⟨?_, ?_⟩⟩, fun i => h i s.hyper _ _ _ fun x => rfl⟩
  · intro s' hs'
    rw [List.mem_singleton.1 hs', a2]
    exact List.nodup_ofFn.2 (unit_injective hU)
  · intro _ s1 hs1 s2 hs2
    rw [List.mem_singleton.1 hs1, List.mem_singleton.1 hs2]

/-- **C129, forward only.** After a forward-only fit (with different time stamps), the answer is the conditional probability given the data up to that time. -/
theorem C129_filtering_partial (E : Env K gs) (grid : (a : Fin d) → Fin (gs a) → K) (tm : TM K)
    (hE : Regular E) (hL : Linear E tm) (S : FitState K gs) (π : Idx gs → K) (hp : PriorMass E.cell S.prior π)
    (hR : ResetFree tm ∨ S.prior = .none ∨ ∃ v, S.prior = .func v)
    {n : ℕ} (L : Fin (n + 1) → Idx gs → K) (hL0 : ∀ i x, 0 ≤ L i x) (τ : Fin (n + 1) → K) (hτ : Function.Injective τ)
    (hpos : evidence π (fun i : Fin n => kernel E π tm (τ i.castSucc)) L ≠ 0) :
    ∃ S' s, fit E grid tm (List.ofFn L) (List.ofFn τ) true false S = .ok S' ∧ parserView E.names grid (List.ofFn τ) S' = some s ∧
      (Function.Injective E.names → ∀ t, (t = none ∨ ∃ i, t = some (τ i)) → Accepts [s] t ∧ Stamps [s] t) ∧
      ∀ i : Fin (n + 1), AnswersAt E.names grid (τ i) s (pathWeight π (fun j : Fin i.val => kernel E π tm (upTo i τ j.castSucc)) (upTo i L)) fun z => z (Fin.last i.val) := by
  obtain ⟨S', h1, h2⟩ := C03_filtering E grid tm hE hL S π hp hR L hL0 τ hpos
  obtain ⟨s, hs, a1, a2, a3, a4, a5, h⟩ := view_answers E.names grid τ S' _ h2
  refine ⟨S', s, h1, hs, fun hn t ht => ⟨accepts_one hn a1 a2 a3 a4 a5 t ht, ⟨?_, ?_⟩⟩, fun i => h i s.hyper _ _ _ fun x => rfl⟩
  · intro s' hs'
    rw [List.mem_singleton.1 hs', a2]
    exact List.nodup_ofFn.2 hτ
  · intro _ s1 hs1 s2 hs2
    rw [List.mem_singleton.1 hs1, List.mem_singleton.1 hs2]

end Props

namespace Ex
open BL Spec Props

/-- a random walk fitted to three data points -/
def walkFit : Except PyErr (FitState ℚ gs3) := fit (env gs3 (1 / 2)) (grid gs3) (grw 2) (List.ofFn ![v3 1 2 3, v3 0 1 0, v3 1 0 2]) (List.ofFn ![0, 1, 2]) false false (S0 .none)

/-- the answer of the fitted study to `x@0 > 1` -/
example : (walkFit.toOption.bind fun S => (parserView (fun _ => "x") (grid gs3) [0, 1, 2] S).map fun s => ask pext 10 [s] none ⟨.at "x" 0, []⟩ .gt (.num 1)) = some (.ok (some (3/8))) := by decide +kernel

/-- the hypotheses are met: `x@1 > 1` and `x > 1` with `t = 1` have the same answer, the share of the paths with `x > 1` at the second time step -/
example : ∃ S' s, fit (env gs3 (1 / 2)) (grid gs3) (ser true 1 nested (grw 2)) (List.ofFn ![v3 1 2 3, v3 0 1 0, v3 1 0 2]) (List.ofFn ![0, 1, 2]) false false (S0 .none) = .ok S' ∧
    parserView (fun _ => "x") (grid gs3) (List.ofFn ![0, 1, 2]) S' = some s ∧
    ∃ n0, ∀ m ≥ n0, ask pext m [s] none ⟨.at "x" 1, []⟩ .gt (.num 1) = ask pext m [s] (some 1) ⟨.par "x", []⟩ .gt (.num 1) := by
  obtain ⟨S', s, h1, h2, h3, h4⟩ := C129_partial (env gs3 (1 / 2)) (grid gs3) (ser true 1 nested (grw 2)) (regular3 (by norm_num))
    (by simp [ser, nested, grw, static, Linear, LinearAll, axis_x]) (S0 .none) _ .flat (Or.inr rfl) ![v3 1 2 3, v3 0 1 0, v3 1 0 2]
    (by decide +kernel) ![0, 1, 2] (by decide +kernel) (by decide +kernel)
  refine ⟨S', s, h1, h2, ?_⟩
  have hinj : Function.Injective (env gs3 (1 / 2)).names := fun a b _ => Subsingleton.elim _ _
  obtain ⟨a1, b1⟩ := h3 hinj none (.inl rfl)
  obtain ⟨a2, b2⟩ := h3 hinj (some 1) (.inr ⟨1, rfl⟩)
  obtain ⟨n1, c1⟩ := h4 1 pext [s] 0 none rfl a1 b1 (fun x _ => grid gs3 0 (x 0)) (fun x a _ => by rw [Fin.fin_one_eq_zero a]) ⟨.at "x" 1, []⟩ .gt (.num 1) (by simp [Side.refs, Query.refs])
    (by intro r hr; simp [Side.refs, Query.refs] at hr; subst hr; exact ⟨⟨0, rfl⟩, .inl ⟨rfl, rfl⟩⟩) (by simp [Side.Clean, Query.Clean]) (by simp [Query.Clean])
    (by intro z _; simp [Comparable, Side.extended, Query.extended])
  obtain ⟨n2, c2⟩ := h4 1 pext [s] 0 (some 1) rfl a2 b2 (fun x _ => grid gs3 0 (x 0)) (fun x a _ => by rw [Fin.fin_one_eq_zero a]) ⟨.par "x", []⟩ .gt (.num 1) (by simp [Side.refs, Query.refs])
    (by intro r hr; simp [Side.refs, Query.refs] at hr; subst hr; exact ⟨⟨0, rfl⟩, .inr ⟨rfl, rfl⟩⟩) (by simp [Side.Clean, Query.Clean]) (by simp [Query.Clean])
    (by intro z _; simp [Comparable, Side.extended, Query.extended])
  refine ⟨max n1 n2, fun m hm => ?_⟩
  rw [c1 m (le_trans (le_max_left _ _) hm), c2 m (le_trans (le_max_right _ _) hm)]
  rfl

end Ex

namespace Props
open BL Spec Ex

/-- **C129 is false for queries with two time steps.** A study with a constant parameter (`Static`), fitted to uninformative data: the parameter has the same value at all time steps on every path of
non-vanishing weight, but `x@0 > x@1` gets probability 1/4: values of a parameter at different time steps are treated as independent. -/
theorem C129_refuted : ∃ S' s, fit (env gs2 1) (grid gs2) static (List.ofFn ![v2 1 1, v2 1 1]) (List.ofFn ![0, 1]) false false (S0 .none) = .ok S' ∧
    parserView (env gs2 1).names (grid gs2) (List.ofFn ![0, 1]) S' = some s ∧
    (∀ z : Fin 2 → Idx gs2, pathWeight (fun _ => 1 / 2 : Idx gs2 → ℚ) (fun i : Fin 1 => kernel (env gs2 1) (fun _ => 1 / 2) static (![0, 1] i.castSucc)) ![v2 1 1, v2 1 1] z ≠ 0 → z 0 = z 1) ∧
    ask pext 10 [s] none ⟨.at "x" 0, []⟩ .gt (.at "x" 1) = .ok (some (1/4)) := by
  have key : ((fit (env gs2 1) (grid gs2) static (List.ofFn ![v2 1 1, v2 1 1]) (List.ofFn ![0, 1]) false false (S0 .none)).toOption.bind fun S =>
      (parserView (env gs2 1).names (grid gs2) (List.ofFn ![0, 1]) S).map fun s => ask pext 10 [s] none ⟨.at "x" 0, []⟩ .gt (.at "x" 1)) = some (.ok (some (1/4))) := by decide +kernel
  cases hf : fit (env gs2 1) (grid gs2) static (List.ofFn ![v2 1 1, v2 1 1]) (List.ofFn ![0, 1]) false false (S0 .none) with
  | error e => rw [hf] at key; simp [Except.toOption] at key
  | ok S =>
    rw [hf] at key
    simp only [Except.toOption, Option.bind_some, Option.map_eq_some_iff] at key
    obtain ⟨s, h1, h2⟩ := key
    exact ⟨S, s, rfl, h1, by decide +kernel, h2⟩

end Props
