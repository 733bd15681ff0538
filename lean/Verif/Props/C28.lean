import Verif.Props.C26
import Verif.Lemmas.Cart
import Verif.Props.Ex

/-! # C28: the hyper-grid -/

set_option linter.unusedSectionVars false

namespace Spec
open BL
variable {K : Type}

/-- Prior probabilities along all axes; `cs` are the grid constants. -/
def weightsAll [Field K] (tm : TM K) (ts cs : List K) : List (List K) :=
  List.zipWith (fun ep c => weights c (valuesOf ts ep.1.2) ep.2.2) ((entries tm).zip (priorsOf tm)) cs

/-- not a sympy random variable -/
def NoRV : HPrior K → Prop
  | .rv _ => False
  | _ => True

end Spec

namespace Props
open BL Spec

variable {K : Type} [Field K] [LinearOrder K] [IsStrictOrderedRing K]

theorem mapE_ok {α β : Type} {f : α → Except PyErr β} : ∀ {l : List α} {r : List β}, mapE f l = .ok r ↔
    List.Forall₂ (fun x y => f x = .ok y) l r
  | [], r => by
      simp only [mapE, Except.ok.injEq, List.forall₂_nil_left_iff]
      exact eq_comm
  | x :: l, r => by
      simp only [mapE, bind, Except.bind]
      cases hx : f x with
      | error e =>
          simp only [reduceCtorEq, false_iff]
          intro h
          cases h with
          | cons h1 h2 => rw [hx] at h1; cases h1
      | ok y =>
          cases hr : mapE f l with
          | error e =>
              simp only [reduceCtorEq, false_iff]
              intro h
              cases h with
              | cons h1 h2 => rw [mapE_ok.2 h2] at hr; cases hr
          | ok q =>
              simp only [Except.ok.injEq]
              constructor
              · rintro rfl
                exact .cons hx (mapE_ok.1 hr)
              · intro h
                cases h with
                | cons h1 h2 =>
                    rw [hx] at h1; cases h1
                    rw [mapE_ok.2 h2] at hr; cases hr
                    rfl

/-- the axes are the values of the hyper-parameters -/
theorem axisValues_ok {ts : List K} {v : HVal K} {l : List K} (h : axisValues (expandAll ts v) = .ok l) : l = valuesOf ts v := by
  cases v <;> simp [expandAll, axisValues, valuesOf] at h ⊢ <;> exact h.symm

theorem axesOK {ts : List K} : ∀ {vs : List (HVal K)} {ax : List (List K)}, mapE axisValues (vs.map (expandAll ts)) = .ok ax →
    ax = vs.map (valuesOf ts) := by
  intro vs ax h
  rw [mapE_ok, List.forall₂_map_left_iff] at h
  induction h with
  | nil => rfl
  | cons h1 _ ih => rw [axisValues_ok h1, ih]; rfl

/-- what `_createHyperGrid` does in terms of the user's model -/
theorem createHyperGrid_eq {tm : TM K} {ts : List K} {g : HyperGrid K} (hp : Proper tm) (hg : createHyperGrid tm ts = .ok g) :
    g.flat = tm.flatValues.map (expandAll ts) ∧ g.names = (entries tm).map (·.1) ∧ g.hgc = (axes tm ts).map hyperConst ∧
    g.rows = (if entries tm = [] then [] else cart (axes tm ts)) := by
  unfold createHyperGrid at hg
  simp only [bind, Except.bind] at hg
  cases ha : mapE axisValues (tm.flatValues.map (expandAll ts)) with
  | error e => rw [ha] at hg; cases hg
  | ok ax =>
      have hax : ax = axes tm ts := by
        rw [axesOK ha, entries_values tm hp, axes, List.map_map]; rfl
      rw [ha] at hg
      simp only at hg
      split at hg
      · cases hg
      · rename_i pa hpa
        have hn := entries_names tm hp
        split at hg
        · rename_i hlen
          have hne : entries tm ≠ [] := by
            intro h0; rw [hn, h0] at hlen; simp at hlen
          split at hg
          · cases hg
          · cases hg
            exact ⟨rfl, hn, by rw [hax], by rw [if_neg hne, hax]⟩
        · rename_i hlen
          have hne : entries tm = [] := by
            rw [hn, List.length_map] at hlen
            exact List.length_eq_zero_iff.1 (by omega)
          cases hg
          exact ⟨rfl, hn, by rw [hax], by rw [if_pos hne]⟩

/-- **C28.** Every transition model, values and time stamps: the hyper-grid has one row per combination, in C order (last hyper-parameter fastest),
contains every combination, and none twice if the values of each hyper-parameter are distinct. -/
theorem C28_grid (tm : TM K) (ts : List K) (g : HyperGrid K) (hp : Proper tm) (hne : entries tm ≠ [])
    (hg : createHyperGrid tm ts = .ok g) :
    g.names = (entries tm).map (·.1) ∧
    g.rows.length = ((axes tm ts).map List.length).prod ∧
    (∀ k, k < g.rows.length → ∃ row, g.rows[k]? = some row ∧ row.length = (entries tm).length ∧
      ∀ a, a < (entries tm).length → row[a]? = ((axes tm ts)[a]?).bind fun l => l[digit ((axes tm ts).map List.length) k a]?) ∧
    (∀ row, row ∈ g.rows ↔ List.Forall₂ (fun v e => v ∈ valuesOf ts e.2) row (entries tm)) ∧
    ((∀ l ∈ axes tm ts, l.Nodup) → g.rows.Nodup) := by
  obtain ⟨-, h1, -, h2⟩ := createHyperGrid_eq hp hg
  rw [if_neg hne] at h2
  rw [h2]
  have hl : (axes tm ts).length = (entries tm).length := by simp [axes]
  refine ⟨h1, cart_length _, fun k hk => ?_, fun row => ?_, fun h => cart_nodup _ h⟩
  · rw [cart_length] at hk
    obtain ⟨row, r1, r2, r3⟩ := cart_get _ k hk
    exact ⟨row, r1, by rw [r2, hl], fun a ha => r3 a (by rw [hl]; exact ha)⟩
  · rw [cart_mem, axes, List.forall₂_map_right_iff]

theorem allSome_eq {α : Type} : ∀ {l : List (Option α)} {r : List α}, allSome l = some r → l = r.map some
  | [], r, h => by
      simp only [allSome, Option.some.injEq] at h
      subst h; rfl
  | none :: _, r, h => by simp [allSome] at h
  | some a :: l, r, h => by
      simp only [allSome, Option.map_eq_some_iff] at h
      obtain ⟨q, hq, rfl⟩ := h
      rw [allSome_eq hq]; rfl

theorem sum_div_list (l : List K) (c : K) : (l.map fun x => x / c).sum = l.sum / c := by
  induction l with
  | nil => simp
  | cons x l ih => rw [List.map_cons, List.sum_cons, ih, List.sum_cons, add_div]

theorem normPrior_mul {p q : List K} {c : K} (h : normPrior p c = some q) :
    q.map (· * c) = p.map (fun x => x / p.sum) ∧ c ≠ 0 ∧ p.sum ≠ 0 := by
  unfold normPrior at h
  split at h
  · cases h
  · rename_i hn
    rw [not_or] at hn
    cases h
    refine ⟨?_, hn.2, hn.1⟩
    rw [List.map_map]
    apply List.map_congr_left
    intro x _
    exact div_mul_cancel₀ _ hn.2

theorem axis_weights {pr : HPrior K} {v : HVal K} {vals : List K} {c : K} {q : List K}
    (h : hyperPriorAxis pr v vals c = .ok (some q)) :
    q.map (· * c) = weights c vals pr ∧ (NoRV pr → (weights c vals pr).sum = 1) := by
  have hsum : ∀ {p : List K}, p.sum ≠ 0 → (p.map fun x => x / p.sum).sum = 1 := fun {p} h => by
    rw [sum_div_list, div_self h]
  cases pr with
  | none =>
      simp only [hyperPriorAxis, Except.ok.injEq] at h
      obtain ⟨h1, -, h2⟩ := normPrior_mul h
      have h3 : weights c vals .none = (vals.map fun _ => (1 : K)).map fun x => x / (vals.map fun _ => (1 : K)).sum := by
        rw [weights, List.map_map]; simp [Function.comp_def]
      rw [h3]
      exact ⟨h1, fun _ => hsum h2⟩
  | func f =>
      have h' : normPrior (vals.map f) c = some q := by
        cases v <;> simp [hyperPriorAxis] at h <;> exact h
      obtain ⟨h1, -, h2⟩ := normPrior_mul h'
      have h3 : weights c vals (.func f) = (vals.map f).map fun x => x / (vals.map f).sum := by
        rw [weights, List.map_map]; rfl
      rw [h3]
      exact ⟨h1, fun _ => hsum h2⟩
  | arr l =>
      have h' : normPrior l c = some q := by
        cases v <;> simp [hyperPriorAxis] at h <;> (split at h <;> simp at h; exact h)
      obtain ⟨h1, -, h2⟩ := normPrior_mul h'
      exact ⟨h1, fun _ => hsum h2⟩
  | rv pdf =>
      simp only [hyperPriorAxis, Except.ok.injEq, Option.some.injEq] at h
      subst h
      exact ⟨by rw [List.map_map]; rfl, fun h => absurd h (by simp [NoRV])⟩
  | num x => simp [hyperPriorAxis] at h

/-- the axes of the prior grid, multiplied with the grid constants, are the prior probabilities -/
theorem priorAxes_weights {ts : List K} : ∀ {es : List (String × HVal K)} {ps : List (String × HPrior K)} {pa : List (Option (List K))}
    {q : List (List K)} {cs : List K}, ps.length = es.length → cs = (es.map fun e => valuesOf ts e.2).map hyperConst →
    priorAxes (ps.map (·.2)) ((es.map (·.2)).map (expandAll ts)) (es.map fun e => valuesOf ts e.2) cs (es.map (·.1)) = .ok pa →
    allSome pa = some q →
    q.length = es.length ∧
    List.zipWith (fun p c => p.map (· * c)) q cs = List.zipWith (fun ep c => weights c (valuesOf ts ep.1.2) ep.2.2) (es.zip ps) cs ∧
    ((∀ p ∈ ps, NoRV p.2) → ((List.zipWith (fun p c => p.map (· * c)) q cs).map List.sum).prod = 1)
  | [], [], pa, q, cs, _, hcs, h, hq => by
      simp only [priorAxes, List.map_nil, List.zip_nil_left, mapE, Except.ok.injEq] at h
      subst h
      simp only [allSome, Option.some.injEq] at hq
      subst hq
      simp [hcs]
  | [], _ :: _, _, _, _, hl, _, _, _ => by simp at hl
  | _ :: _, [], _, _, _, hl, _, _, _ => by simp at hl
  | e :: es, p :: ps, pa, q, cs, hl, hcs, h, hq => by
      subst hcs
      have hl' : ps.length = es.length := by simpa using hl
      simp only [priorAxes, List.map_cons, List.zip_cons_cons] at h
      rw [mapE_ok] at h
      cases h with
      | @cons _ y _ r h1 h2 =>
        rw [← mapE_ok] at h2
        simp only at h1
        cases y with
        | none => simp [allSome] at hq
        | some y =>
            simp only [allSome, Option.map_eq_some_iff] at hq
            obtain ⟨q', hq', rfl⟩ := hq
            obtain ⟨i1, i2, i3⟩ := priorAxes_weights (ts := ts) (es := es) (ps := ps) hl' rfl h2 hq'
            obtain ⟨w1, w2⟩ := axis_weights h1
            refine ⟨by simp [i1], ?_, fun hn => ?_⟩
            · simp only [List.map_cons, List.zip_cons_cons, List.zipWith_cons_cons, i2, w1]
            · simp only [List.map_cons, List.zipWith_cons_cons, List.prod_cons]
              rw [i3 fun p hp => hn p (by simp [hp]), w1, w2 (hn p (by simp)), mul_one]

theorem prod_zipWith_mul : ∀ (l m : List K), l.length = m.length → (List.zipWith (· * ·) l m).prod = l.prod * m.prod
  | [], [], _ => by simp
  | [], _ :: _, h => by simp at h
  | _ :: _, [], h => by simp at h
  | a :: l, b :: m, h => by
      rw [List.zipWith_cons_cons, List.prod_cons, prod_zipWith_mul l m (by simpa using h), List.prod_cons, List.prod_cons]
      ring

theorem map_prod_cs : ∀ (q : List (List K)) (cs : List K), q.length = cs.length →
    ((List.zipWith (fun p c => p.map (· * c)) q cs).map List.sum).prod = (q.map List.sum).prod * cs.prod
  | [], [], _ => by simp
  | [], _ :: _, h => by simp at h
  | _ :: _, [], h => by simp at h
  | p :: q, c :: cs, h => by
      simp only [List.zipWith_cons_cons, List.map_cons, List.prod_cons]
      rw [map_prod_cs q cs (by simpa using h), List.sum_map_mul_right]
      simp only [List.map_id']
      ring

theorem priors_eq {tm : TM K} {ts : List K} {g : HyperGrid K} (hb : OnePrior tm) (hne : entries tm ≠ [])
    (hg : createHyperGrid tm ts = .ok g) {ps : List K} (hps : g.priors = some ps) :
    ∃ q : List (List K), ps = (cart q).map List.prod ∧ q.length = g.hgc.length ∧
      List.zipWith (fun p c => p.map (· * c)) q g.hgc = weightsAll tm ts g.hgc ∧
      ((∀ p ∈ priorsOf tm, NoRV p.2) → (q.map List.sum).prod * g.hgc.prod = 1) := by
  have hp := hb.proper
  obtain ⟨p1, p2⟩ := hb.priors
  obtain ⟨-, -, h3, -⟩ := createHyperGrid_eq hp hg
  have hn := entries_names tm hp
  unfold createHyperGrid at hg
  simp only [bind, Except.bind] at hg
  cases ha : mapE axisValues (tm.flatValues.map (expandAll ts)) with
  | error e => rw [ha] at hg; cases hg
  | ok ax =>
      have hax : ax = axes tm ts := by
        rw [axesOK ha, entries_values tm hp, axes, List.map_map]; rfl
      rw [ha] at hg
      simp only at hg
      split at hg
      · cases hg
      · rename_i pa hpa
        have hlen : tm.flatNames.length > 0 := by
          rw [hn, List.length_map]; exact List.length_pos_iff.2 hne
        rw [if_pos hlen] at hg
        split at hg
        · cases hg
        · cases hg
          simp only [Option.map_eq_some_iff] at hps
          obtain ⟨q, hq, rfl⟩ := hps
          simp only at h3 ⊢
          rw [h3]
          rw [hax, p1, hn, entries_values tm hp] at hpa
          have hlp : (priorsOf tm).length = (entries tm).length := by
            rw [hn] at p2
            have := congrArg List.length p2
            simpa using this
          obtain ⟨i1, i2, i3⟩ := priorAxes_weights (ts := ts) hlp rfl hpa hq
          have hlq : q.length = ((axes tm ts).map hyperConst).length := by simp [i1, axes]
          exact ⟨q, rfl, hlq, i2, fun h => by rw [← map_prod_cs _ _ hlq]; exact i3 h⟩

/-- **C28 (prior values).** Every model built with the constructors: the `k`-th prior value, as probability (density times grid cell), is the
product of the prior probabilities of the values of the `k`-th combination. -/
theorem C28_prior (tm : TM K) (ts : List K) (g : HyperGrid K) (hb : Built tm) (hne : entries tm ≠ [])
    (hg : createHyperGrid tm ts = .ok g) (ps : List K) (hps : g.priors = some ps) :
    ps.length = ((weightsAll tm ts g.hgc).map List.length).prod ∧
    ∀ k, k < ps.length → ∃ ws : List K, ws.length = (entries tm).length ∧
      (∀ a, a < (entries tm).length →
        ws[a]? = ((weightsAll tm ts g.hgc)[a]?).bind fun l => l[digit ((weightsAll tm ts g.hgc).map List.length) k a]?) ∧
      ps[k]?.map (· * g.hgc.prod) = some ws.prod := by
  have hm := Built.matched hb
  obtain ⟨q, rfl, hl, hw, -⟩ := priors_eq hm hne hg hps
  obtain ⟨-, -, h3, -⟩ := createHyperGrid_eq hm.proper hg
  have hlen : g.hgc.length = (entries tm).length := by rw [h3]; simp [axes]
  have hlens : (weightsAll tm ts g.hgc).map List.length = q.map List.length := by
    rw [← hw]
    clear hw hps
    revert hl
    generalize g.hgc = cs
    intro hl
    induction q generalizing cs with
    | nil => simp
    | cons a q ih =>
        cases cs with
        | nil => simp at hl
        | cons c cs => simp [ih cs (by simpa using hl)]
  rw [hlens]
  refine ⟨by rw [List.length_map, cart_length], fun k hk => ?_⟩
  rw [List.length_map, cart_length] at hk
  obtain ⟨row, r1, r2, r3⟩ := cart_get q k hk
  refine ⟨List.zipWith (· * ·) row g.hgc, by simp [r2, hl, hlen], fun a ha => ?_, ?_⟩
  · rw [← hw, List.getElem?_zipWith, List.getElem?_zipWith, r3 a (by omega)]
    have ha' : a < q.length := by omega
    have ha'' : a < g.hgc.length := by omega
    rw [List.getElem?_eq_getElem ha', List.getElem?_eq_getElem ha'']
    simp only [Option.bind_some, List.getElem?_map]
    cases (q[a])[digit (q.map List.length) k a]? <;> rfl
  · rw [List.getElem?_map, r1, prod_zipWith_mul _ _ (by rw [r2, hl])]
    rfl

/-- **C28 (normalisation, part that holds).** The prior integrates to one if no hyper-prior is a sympy random variable. -/
theorem C28_normalised_partial (tm : TM K) (ts : List K) (g : HyperGrid K) (hb : Built tm) (hg : createHyperGrid tm ts = .ok g)
    (ps : List K) (hps : g.priors = some ps) (hrv : ∀ p ∈ priorsOf tm, NoRV p.2) : (ps.map (· * g.hgc.prod)).sum = 1 := by
  have hm := Built.matched hb
  by_cases hne : entries tm = []
  · obtain ⟨-, -, h3, -⟩ := createHyperGrid_eq hm.proper hg
    have hn := entries_names tm hm.proper
    rw [hne] at hn
    have hps1 : ps = [1] := by
      unfold createHyperGrid at hg
      simp only [bind, Except.bind] at hg
      split at hg
      · cases hg
      · split at hg
        · cases hg
        · rw [hn] at hg
          simp only [List.map_nil, List.length_nil, gt_iff_lt, lt_self_iff_false, ↓reduceIte, Except.ok.injEq] at hg
          rw [← hg] at hps
          simpa using hps.symm
    rw [h3, hps1, axes, hne]
    simp
  · obtain ⟨q, rfl, hl, hw, hs⟩ := priors_eq hm hne hg hps
    rw [List.sum_map_mul_right]
    simp only [List.map_id']
    rw [cart_sum]
    exact hs hrv

end Props

namespace Ex
open BL Spec

/-- two hyper-parameters: a walk with three widths and a change-point at any time, nested -/
def hyper : TM ℚ := .combined [.leaf (.grw "x") ["sigma"] [.array [0, 1, 2]] (some (.item (.func fun v => v + 1))),
  .leaf .changePoint ["t_change"] [.all] (some (.item .none))]

theorem hyper_built : Built hyper := by
  refine .combined (ms := [.leaf (.grw "x") ["sigma"] [.array [0, 1, 2]] (some (.item (.func fun v => v + 1))),
    .leaf .changePoint ["t_change"] [.all] (some (.item .none))]) ?_ rfl
  intro m hm
  simp only [List.mem_cons, List.not_mem_nil, or_false] at hm
  rcases hm with rfl | rfl
  · exact Built.grw (name := "sigma") (value := .list [0, 1, 2]) (target := some "x") (prior := .item (.func fun v => v + 1)) rfl trivial rfl
  · exact Built.changePoint (name := "t_change") (value := .val .all) (prior := .item .none) trivial rfl

end Ex

namespace Props
open BL Spec

/-- its hyper-grid: the hypotheses of C28 are met -/
example : ∃ g, createHyperGrid Ex.hyper [1, 2, 3] = .ok g ∧ entries Ex.hyper ≠ [] ∧
    g.rows = [[0, 1], [0, 2], [1, 1], [1, 2], [2, 1], [2, 2]] ∧ g.priors = some [1 / 12, 1 / 12, 1 / 6, 1 / 6, 1 / 4, 1 / 4] ∧
    g.hgc = [1, 1] := by
  refine ⟨_, rfl, by simp [Ex.hyper, entries, entriesAll], by decide +kernel, by decide +kernel, by decide +kernel⟩

end Props

namespace Ex
open BL Spec

/-- a sympy hyper-prior with density 1 on three values -/
def hyperRV : TM ℚ := .leaf (.grw "x") ["sigma"] [.array [0, 1, 2]] (some (.item (.rv fun _ => 1)))

end Ex

namespace Props
open BL Spec

/-- **C28 refuted** for hyper-priors given as sympy random variables: they are not normalised on the grid. -/
theorem C28_refuted : ∃ g ps, Built Ex.hyperRV ∧ createHyperGrid Ex.hyperRV [1, 2, 3] = .ok g ∧ g.priors = some ps ∧
    (ps.map (· * g.hgc.prod)).sum = 3 := by
  refine ⟨_, _, ?_, rfl, rfl, by decide +kernel⟩
  exact Built.grw (name := "sigma") (value := .list [0, 1, 2]) (target := some "x") (prior := .item (.rv fun _ => 1)) rfl trivial rfl

end Props
