import Verif.Spec.HyperValues
import Verif.Lemmas.Scale
import Verif.Props.C71

/-! # The order of hyper-parameter values -/

set_option linter.unusedSectionVars false

namespace BL
open Spec

/-! ## Grids of pairs -/
section cart
variable {α β : Type}

theorem cart_zip : ∀ (as : List (List α)) (bs : List (List β)), List.Forall₂ (fun a b => a.length = b.length) as bs →
    (cart (List.zipWith List.zip as bs)).map (List.map Prod.fst) = cart as ∧ (cart (List.zipWith List.zip as bs)).map (List.map Prod.snd) = cart bs
  | [], [], _ => by simp [cart]
  | a :: as, b :: bs, h => by
      cases h with
      | cons h1 h2 =>
        obtain ⟨i1, i2⟩ := cart_zip as bs h2
        rw [List.zipWith_cons_cons]
        refine ⟨?_, ?_⟩
        · rw [cart, cart, ← i1, List.map_flatMap]
          conv_rhs => rw [← List.map_fst_zip (l₁ := a) (l₂ := b) h1.le, List.flatMap_map]
          congr 1
          funext x
          simp [Function.comp_def]
        · rw [cart, cart, ← i2, List.map_flatMap]
          conv_rhs => rw [← List.map_snd_zip (l₁ := a) (l₂ := b) h1.ge, List.flatMap_map]
          congr 1
          funext x
          simp [Function.comp_def]

theorem cart_filter (p : α → Bool) : ∀ as : List (List α), (cart as).filter (fun l => l.all p) = cart (as.map (List.filter p))
  | [] => by simp [cart]
  | a :: as => by
      rw [List.map_cons, cart, cart, ← cart_filter p as]
      induction a with
      | nil => rfl
      | cons x a ih =>
          rw [List.flatMap_cons, List.filter_append, ih]
          by_cases hx : p x = true
          · rw [List.filter_cons_of_pos hx, List.flatMap_cons]
            congr 1
            rw [List.filter_map]
            congr 1
            apply List.filter_congr
            intro l _
            simp [hx]
          · rw [List.filter_cons_of_neg hx]
            have : ((cart as).map (x :: ·)).filter (fun l => l.all p) = [] := by
              rw [List.filter_eq_nil_iff]
              intro l hl
              obtain ⟨l', -, rfl⟩ := List.mem_map.1 hl
              simp [hx]
            rw [this, List.nil_append]

theorem cart_perm : ∀ {as bs : List (List α)}, List.Forall₂ List.Perm as bs → (cart as).Perm (cart bs)
  | _, _, .nil => .refl _
  | a :: as, b :: bs, .cons h1 h2 => by
      rw [cart, cart]
      refine (h1.flatMap_right _).trans ?_
      exact List.Perm.flatMap_left _ fun x _ => (cart_perm h2).map _

end cart

variable {K : Type} [Field K] [LinearOrder K] [IsStrictOrderedRing K]

/-- combinations with the products of the probabilities -/
def combos (os : List (List (K × K))) : List (List K × K) := (cart os).map fun l => (l.map Prod.fst, (l.map Prod.snd).prod)

theorem possible_combos (os : List (List (K × K))) : possible (combos os) = combos (os.map possible) := by
  unfold possible combos
  rw [List.filter_map, ← cart_filter]
  congr 1
  apply List.filter_congr
  intro l hl
  clear hl
  simp only [Function.comp, ne_eq, decide_not, List.prod_eq_zero_iff]
  induction l with
  | nil => simp
  | cons q l ih =>
      simp only [List.map_cons, List.mem_cons, List.all_cons]
      rw [← ih]
      by_cases hq : q.2 = 0
      · simp [hq]
      · have : ¬ (0 : K) = q.2 := fun h => hq h.symm
        simp [hq, this]

theorem combos_perm {os os' : List (List (K × K))} (h : List.Forall₂ (fun o o' => (possible o).Perm (possible o')) os os') :
    (possible (combos os)).Perm (possible (combos os')) := by
  rw [possible_combos, possible_combos]
  apply List.Perm.map
  apply cart_perm
  rw [List.forall₂_map_left_iff, List.forall₂_map_right_iff]
  exact h

/-! ## The hyper-grid as list of combinations -/

theorem cart_scaled : ∀ (q : List (List K)) (cs : List K), q.length = cs.length →
    (cart (List.zipWith (fun p c => p.map (· * c)) q cs)).map List.prod = ((cart q).map List.prod).map (· * cs.prod)
  | [], [], _ => by simp [cart]
  | [], _ :: _, h => by simp at h
  | _ :: _, [], h => by simp at h
  | p :: q, c :: cs, h => by
      have ih := cart_scaled q cs (by simpa using h)
      rw [List.zipWith_cons_cons, cart, cart, List.map_flatMap, List.map_flatMap, List.map_flatMap, List.flatMap_map]
      congr 1
      funext x
      have : ∀ (y : K) (l : List (List K)), (l.map (y :: ·)).map List.prod = (l.map List.prod).map (y * ·) := by
        intro y l
        simp [Function.comp_def]
      rw [this, this, ih]
      simp only [List.map_map]
      apply List.map_congr_left
      intro y _
      simp only [Function.comp, List.prod_cons]
      ring

theorem weightsAll_len {ts : List K} {tm : TM K} {g : HyperGrid K} (hb : OnePrior tm) (hne : entries tm ≠ [])
    (hg : createHyperGrid tm ts = .ok g) {ps : List K} (hps : g.priors = some ps) :
    List.Forall₂ (fun a b => a.length = b.length) (axes tm ts) (weightsAll tm ts ((axes tm ts).map hyperConst)) := by
  have hp := hb.proper
  obtain ⟨p1, p2⟩ := hb.priors
  have hn := entries_names tm hp
  have key : ∀ (es : List (String × HVal K)) (prs : List (String × HPrior K)) (pa : List (Option (List K))) (q : List (List K)) (cs : List K),
      prs.length = es.length → cs.length = es.length →
      priorAxes (prs.map (·.2)) ((es.map (·.2)).map (expandAll ts)) (es.map fun e => valuesOf ts e.2) cs (es.map (·.1)) = .ok pa →
      allSome pa = some q → List.Forall₂ (fun a b => a.length = b.length) (es.map fun e => valuesOf ts e.2)
        (List.zipWith (fun ep c => weights c (valuesOf ts ep.1.2) ep.2.2) (es.zip prs) cs) := by
    intro es
    induction es with
    | nil =>
        intro prs pa q cs h1 h2 h hq
        simp
    | cons e es ih =>
        intro prs pa q cs h1 h2 h hq
        cases prs with
        | nil => simp at h1
        | cons p prs =>
          cases cs with
          | nil => simp at h2
          | cons c cs =>
            simp only [priorAxes, List.map_cons, List.zip_cons_cons] at h
            rw [Props.mapE_ok] at h
            cases h with
            | @cons _ y _ r k1 k2 =>
              rw [← Props.mapE_ok] at k2
              simp only at k1
              cases y with
              | none => simp [allSome] at hq
              | some y =>
                  simp only [allSome, Option.map_eq_some_iff] at hq
                  obtain ⟨q', hq', rfl⟩ := hq
                  rw [List.map_cons, List.zip_cons_cons, List.zipWith_cons_cons]
                  refine .cons ?_ (ih prs r q' cs (by simpa using h1) (by simpa using h2) k2 hq')
                  rw [← (Props.axis_weights k1).1, List.length_map, axis_len k1]
  obtain ⟨-, -, h3, -⟩ := Props.createHyperGrid_eq hp hg
  unfold createHyperGrid at hg
  simp only [bind, Except.bind] at hg
  cases ha : mapE axisValues (tm.flatValues.map (expandAll ts)) with
  | error e => rw [ha] at hg; cases hg
  | ok ax =>
      have hax : ax = axes tm ts := by
        rw [Props.axesOK ha, entries_values tm hp, axes, List.map_map]; rfl
      rw [ha] at hg
      simp only at hg
      split at hg
      · cases hg
      · rename_i pa hpa
        have hlen : tm.flatNames.length > 0 := by
          rw [hn, List.length_map]; exact List.length_pos_iff.2 hne
        rw [if_pos hlen] at hg
        split at hg
        · cases hg
        · cases hg
          simp only [Option.map_eq_some_iff] at hps
          obtain ⟨q, hq, rfl⟩ := hps
          rw [hax, p1, hn, entries_values tm hp] at hpa
          have hlp : (priorsOf tm).length = (entries tm).length := by
            rw [hn] at p2
            have := congrArg List.length p2
            simpa using this
          exact key (entries tm) (priorsOf tm) pa q _ hlp (by simp [axes]) hpa hq

/-- the rows of the hyper-grid with their prior probabilities -/
theorem rows_combos {ts : List K} {tm : TM K} {g : HyperGrid K} (hb : OnePrior tm) (hne : entries tm ≠ [])
    (hg : createHyperGrid tm ts = .ok g) {ps : List K} (hps : g.priors = some ps) :
    g.rows.zip (ps.map (· * g.hgc.prod)) = combos (options tm ts) := by
  obtain ⟨-, -, h3, h4⟩ := Props.createHyperGrid_eq hb.proper hg
  rw [if_neg hne] at h4
  obtain ⟨q, rfl, q1, q2, -⟩ := Props.priors_eq hb hne hg hps
  rw [← cart_scaled q _ q1, q2, h4, h3]
  obtain ⟨c1, c2⟩ := cart_zip _ _ (weightsAll_len hb hne hg hps)
  rw [← c1, ← c2, List.map_map, List.zip_map', combos, options]
  rfl

/-! ## Names and priors do not enter the dynamics -/

mutual
/-- the model without names and hyper-priors -/
def anon : TM K → TM K
  | .leaf k _ vals _ => .leaf k [] vals none
  | .combined ms => .combined (anonAll ms)
  | .serial _ vals _ mask ms => .serial [] vals [] mask (anonAll ms)
/-- all sub-models -/
def anonAll : List (TM K) → List (TM K)
  | [] => []
  | m :: ms => anon m :: anonAll ms
end

section dyn
variable {d : ℕ} {gs : Fin d → ℕ}

mutual
theorem fwd_anon (E : Env K gs) : ∀ (tm : TM K) (o : K) (p : Arr K gs) (t : K), (anon tm).fwd E o p t = tm.fwd E o p t
  | .leaf k _ vals _, o, p, t => by simp only [anon, TM.fwd]
  | .combined ms, o, p, t => by simp only [anon, TM.fwd, fwdAll_anon E ms]
  | .serial _ vals _ mask ms, o, p, t => by simp only [anon, TM.fwd, fwdNth_anon E ms]
theorem fwdAll_anon (E : Env K gs) : ∀ (ms : List (TM K)) (o : K) (p : Arr K gs) (t : K), TM.fwdAll E o (anonAll ms) p t = TM.fwdAll E o ms p t
  | [], o, p, t => by simp only [anonAll, TM.fwdAll]
  | m :: ms, o, p, t => by simp only [anonAll, TM.fwdAll, fwd_anon E m, fwdAll_anon E ms]
theorem fwdNth_anon (E : Env K gs) : ∀ (ms : List (TM K)) (i : ℕ) (o : K) (p : Arr K gs) (t : K),
    TM.fwdNth E o (anonAll ms) i p t = TM.fwdNth E o ms i p t
  | [], i, o, p, t => by simp only [anonAll, TM.fwdNth]
  | m :: ms, 0, o, p, t => by simp only [anonAll, TM.fwdNth, fwd_anon E m]
  | m :: ms, i + 1, o, p, t => by simp only [anonAll, TM.fwdNth, fwdNth_anon E ms]
end

mutual
theorem bwd_anon (E : Env K gs) : ∀ (tm : TM K) (o : K) (p : Arr K gs) (t : K), (anon tm).bwd E o p t = tm.bwd E o p t
  | .leaf k _ vals _, o, p, t => by simp only [anon, TM.bwd]
  | .combined ms, o, p, t => by simp only [anon, TM.bwd, bwdAll_anon E ms]
  | .serial _ vals _ mask ms, o, p, t => by simp only [anon, TM.bwd, bwdNth_anon E ms]
theorem bwdAll_anon (E : Env K gs) : ∀ (ms : List (TM K)) (o : K) (p : Arr K gs) (t : K), TM.bwdAll E o (anonAll ms) p t = TM.bwdAll E o ms p t
  | [], o, p, t => by simp only [anonAll, TM.bwdAll]
  | m :: ms, o, p, t => by simp only [anonAll, TM.bwdAll, bwd_anon E m, bwdAll_anon E ms]
theorem bwdNth_anon (E : Env K gs) : ∀ (ms : List (TM K)) (i : ℕ) (o : K) (p : Arr K gs) (t : K),
    TM.bwdNth E o (anonAll ms) i p t = TM.bwdNth E o ms i p t
  | [], i, o, p, t => by simp only [anonAll, TM.bwdNth]
  | m :: ms, 0, o, p, t => by simp only [anonAll, TM.bwdNth, bwd_anon E m]
  | m :: ms, i + 1, o, p, t => by simp only [anonAll, TM.bwdNth, bwdNth_anon E ms]
end

mutual
theorem returnsArg_anon : ∀ (tm : TM K) (t : K), (anon tm).returnsArg t = tm.returnsArg t
  | .leaf k _ vals _, t => by simp only [anon, TM.returnsArg]
  | .combined ms, t => by simp only [anon, TM.returnsArg]
  | .serial _ vals _ mask ms, t => by simp only [anon, TM.returnsArg, returnsArgNth_anon ms]
theorem returnsArgNth_anon : ∀ (ms : List (TM K)) (i : ℕ) (t : K), TM.returnsArgNth (anonAll ms) i t = TM.returnsArgNth ms i t
  | [], i, t => by simp only [anonAll]
  | m :: ms, 0, t => by simp only [anonAll, TM.returnsArgNth, returnsArg_anon m]
  | m :: ms, i + 1, t => by simp only [anonAll, TM.returnsArgNth, returnsArgNth_anon ms]
end

theorem fwdPass_anon (E : Env K gs) (tm : TM K) : ∀ (Ls : List (Idx gs → K)) (al : Bool) (pr : PriorSpec K gs) (a : Arr K gs) (ts : List K),
    fwdPass E (anon tm) al pr a Ls ts = fwdPass E tm al pr a Ls ts
  | [], al, pr, a, ts => by cases a <;> simp only [fwdPass]
  | L :: Ls, al, pr, none, ts => by simp only [fwdPass]
  | L :: Ls, al, pr, some a, [] => by simp only [fwdPass]
  | L :: Ls, al, pr, some a, t :: ts => by simp only [fwdPass, fwd_anon, returnsArg_anon, fwdPass_anon E tm Ls]

theorem bwdPass_anon (E : Env K gs) (tm : TM K) : ∀ ss : List (Step K gs), bwdPass E (anon tm) ss = bwdPass E tm ss
  | [] => by simp only [bwdPass]
  | s :: ss => by simp only [bwdPass, bwdPass_anon E tm ss, bwd_anon]

theorem fit_anon (E : Env K gs) (grid : (a : Fin d) → Fin (gs a) → K) (tm : TM K) (Ls : List (Idx gs → K)) (ts : List K) (fo eo : Bool)
    (S : FitState K gs) : fit E grid (anon tm) Ls ts fo eo S = fit E grid tm Ls ts fo eo S := by
  simp only [fit, fwdPass_anon, bwdPass_anon]

end dyn

/-! ## Models of the same make -/

theorem zipWith_alike {g g' : String → HVal K → HVal K} : ∀ {names : List String} {vals vals' : List (HVal K)}, vals.length = vals'.length →
    (∀ n ∈ names, ∀ v v', g n v = g' n v') → List.zipWith g names vals = List.zipWith g' names vals'
  | [], vals, vals', _, _ => by simp
  | n :: names, [], [], _, _ => rfl
  | n :: names, [], _ :: _, h, _ => by simp at h
  | n :: names, _ :: _, [], h, _ => by simp at h
  | n :: names, v :: vals, v' :: vals', h, hg => by
      rw [List.zipWith_cons_cons, List.zipWith_cons_cons, hg n (by simp) v v',
        zipWith_alike (by simpa using h) fun n hn => hg n (by simp [hn])]

theorem zip_names {names : List String} : ∀ {vals vals' : List (HVal K)}, vals.length = vals'.length →
    (names.zip vals).map Prod.fst = (names.zip vals').map Prod.fst := by
  induction names with
  | nil => intro vals vals' _; simp
  | cons n names ih =>
      intro vals vals' h
      cases vals with
      | nil => cases vals' with
        | nil => rfl
        | cons _ _ => simp at h
      | cons v vals => cases vals' with
        | nil => simp at h
        | cons v' vals' =>
            simp only [List.zip_cons_cons, List.map_cons]
            rw [ih (by simpa using h)]

mutual
theorem alike_names : ∀ {tm tm' : TM K}, Alike tm tm' → (entries tm).map Prod.fst = (entries tm').map Prod.fst
  | _, _, .leaf k names vals vals' pr pr' h => by rw [entries, entries, zip_names h]
  | _, _, .combined h => by rw [entries, entries, alikeAll_names h]
  | _, _, .serial names vals vals' pr pr' mask h1 h2 => by
      rw [entries, entries, List.map_append, List.map_append, alikeAll_names h2, zip_names h1]
theorem alikeAll_names : ∀ {ms ms' : List (TM K)}, AlikeAll ms ms' → (entriesAll ms).map Prod.fst = (entriesAll ms').map Prod.fst
  | _, _, .nil => rfl
  | _, _, .cons h1 h2 => by rw [entriesAll, entriesAll, List.map_append, List.map_append, alike_names h1, alikeAll_names h2]
end

theorem mem_zip_names {names : List String} {vals : List (HVal K)} (h : names.length = vals.length) {n : String} (hn : n ∈ names) :
    n ∈ (names.zip vals).map Prod.fst := by rw [List.map_fst_zip h.le]; exact hn

mutual
theorem alike_anon {g g' : String → HVal K → HVal K} : ∀ {tm tm' : TM K}, Alike tm tm' → Proper tm →
    (∀ n ∈ (entries tm).map Prod.fst, ∀ v v', g n v = g' n v') → anon (withValues g tm) = anon (withValues g' tm')
  | _, _, .leaf k names vals vals' pr pr' h, hp, hg => by
      have hl : names.length = vals.length := by cases k <;> first | exact hp.1 | exact hp.elim
      rw [withValues, withValues, anon, anon, zipWith_alike h fun n hn => hg n (by rw [entries]; exact mem_zip_names hl hn)]
  | _, _, .combined h, hp, hg => by
      rw [withValues, withValues, anon, anon, alikeAll_anon h hp hg]
  | _, _, .serial names vals vals' pr pr' mask h1 h2, hp, hg => by
      rw [entries, List.map_append] at hg
      rw [withValues, withValues, anon, anon, alikeAll_anon h2 hp.2.2 fun n hn => hg n (List.mem_append_left _ hn),
        zipWith_alike h1 fun n hn => hg n (List.mem_append_right _ (mem_zip_names hp.1 hn))]
theorem alikeAll_anon {g g' : String → HVal K → HVal K} : ∀ {ms ms' : List (TM K)}, AlikeAll ms ms' → ProperAll ms →
    (∀ n ∈ (entriesAll ms).map Prod.fst, ∀ v v', g n v = g' n v') → anonAll (withValuesAll g ms) = anonAll (withValuesAll g' ms')
  | _, _, .nil, _, _ => rfl
  | _, _, .cons h1 h2, hp, hg => by
      rw [entriesAll, List.map_append] at hg
      rw [withValuesAll, withValuesAll, anonAll, anonAll, alike_anon h1 hp.1 fun n hn => hg n (List.mem_append_left _ hn),
        alikeAll_anon h2 hp.2 fun n hn => hg n (List.mem_append_right _ hn)]
end

theorem modelAt_alike {tm tm' : TM K} (h : Alike tm tm') (hp : Proper tm) {row : List K} (hl : row.length = (entries tm).length) :
    anon (modelAt tm row) = anon (modelAt tm' row) := by
  unfold modelAt
  have hn := alike_names h
  have e : (entries tm').map (·.1) = (entries tm).map (·.1) := hn.symm
  rw [e]
  apply alike_anon h hp
  intro n hn v v'
  obtain ⟨x, -, hx⟩ := assigned_some (xs := row.map HVal.scalar) (ns := (entries tm).map (·.1)) (by simp [hl]) hn
  rw [hx, hx]

section sums
variable {d : ℕ} {gs : Fin d → ℕ}

theorem singleFit_alike (I : FitIn K gs) {tm tm' : TM K} (h : Alike tm tm') (hp : Proper tm) (S : FitState K gs) {row : List K}
    (hl : row.length = (entries tm).length) : singleFit I tm' S row = singleFit I tm S row := by
  unfold singleFit
  rw [← fit_anon _ _ (modelAt tm row), modelAt_alike h hp hl, fit_anon]

/-- result of a plain fit that succeeds -/
def resultAt (I : FitIn K gs) (tm : TM K) (S : FitState K gs) (row : List K) : FitState K gs :=
  match singleFit I tm S row with
  | .ok A => A
  | .error _ => S

theorem singles_map {I : FitIn K gs} {tm : TM K} {S : FitState K gs} {rows : List (List K)} {As : List (FitState K gs)}
    (h : List.Forall₂ (fun row A => singleFit I tm S row = .ok A) rows As) : As = rows.map (resultAt I tm S) := by
  induction h with
  | nil => rfl
  | cons h1 _ ih => rw [List.map_cons, ← ih, resultAt, h1]

theorem sum_possible {α M : Type} [AddCommMonoid M] (f : α × K → M) (hf : ∀ a, f (a, 0) = 0) (l : List (α × K)) :
    (l.map f).sum = ((possible l).map f).sum := by
  induction l with
  | nil => rfl
  | cons q l ih =>
      unfold possible at ih ⊢
      by_cases hq : q.2 = 0
      · rw [List.filter_cons_of_neg (by simp [hq]), List.map_cons, List.sum_cons, ih]
        have : f q = 0 := by rw [← hf q.1, ← hq]
        rw [this, zero_add]
      · rw [List.filter_cons_of_pos (by simp [hq]), List.map_cons, List.sum_cons, List.map_cons, List.sum_cons, ih]

/-- the average posterior does not depend on a common factor -/
theorem finishAvg_smul {c : K} (hc : 0 < c) (n : ℕ) (F : ℕ → Idx gs → K) : finishAvg (rep n fun t x => c * F t x) = finishAvg (rep n F) := by
  unfold finishAvg
  have hr : ∀ F : ℕ → Idx gs → K, rep n F = (List.range n).map fun t => some (fun x => (⟨F t x⟩ : LogV K)) := fun _ => rfl
  rw [hr, hr, allSome_map, allSome_map]
  simp only
  have hl : (((List.range n).map fun t => fun x => (⟨c * F t x⟩ : LogV K)).flatMap fun a => (amax fun x => (a x).exp).toList) =
      (((List.range n).map fun t => fun x => (⟨F t x⟩ : LogV K)).flatMap fun a => (amax fun x => (a x).exp).toList).map (· * c) := by
    rw [List.map_flatMap, List.flatMap_map, List.flatMap_map]
    congr 1
    funext t
    have := amax_smul hc (F t)
    change (amax fun x => c * F t x).toList = _
    rw [this]
    change _ = (amax (F t)).toList.map (· * c)
    cases amax (F t) <;> simp [mul_comm]
  rw [hl, Props.listMax_scale hc]
  cases listMax (((List.range n).map fun t => fun x => (⟨F t x⟩ : LogV K)).flatMap fun a => (amax fun x => (a x).exp).toList) with
  | none => rfl
  | some M =>
      simp only [Option.map_some, mul_eq_zero, hc.ne', or_false]
      by_cases hM : M = 0
      · simp [hM]
      · simp only [hM, if_false]
        rw [List.map_map, List.map_map]
        apply List.map_congr_left
        intro t _
        have e : ∀ x, (⟨c * F t x⟩ : LogV K).exp / (M * c) = (⟨F t x⟩ : LogV K).exp / M := by
          intro x
          change c * F t x / (M * c) = F t x / M
          rw [mul_comm c, mul_div_mul_right _ _ hc.ne']
        simp only [Function.comp, e]

end sums
end BL
