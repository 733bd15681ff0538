import Verif.Model.HyperStudy
import Verif.Spec.Hyper
import Verif.Lemmas.HyperParams
import Verif.Props.C25
import Verif.Props.C07
import Verif.Props.C15
import Mathlib.Algebra.BigOperators.Pi

/-! # The loop of `HyperStudy.fit` -/

set_option linter.unusedSectionVars false

namespace BL
open Spec

section values
variable {K : Type} [Field K] [LinearOrder K]

theorem zipWith_congr_zip (g g' : String → HVal K → HVal K) : ∀ (names : List String) (vals : List (HVal K)),
    (∀ e ∈ names.zip vals, g e.1 e.2 = g' e.1 e.2) → List.zipWith g names vals = List.zipWith g' names vals
  | [], _, _ => rfl
  | _ :: _, [], _ => rfl
  | a :: names, b :: vals, h => by
      rw [List.zipWith_cons_cons, List.zipWith_cons_cons, h (a, b) (by simp), zipWith_congr_zip g g' names vals fun e he => h e (by simp [he])]

mutual
theorem withValues_congr (g g' : String → HVal K → HVal K) : ∀ tm : TM K, (∀ e ∈ entries tm, g e.1 e.2 = g' e.1 e.2) →
    withValues g tm = withValues g' tm
  | .leaf k names vals pr, h => by rw [withValues, withValues, zipWith_congr_zip g g' names vals h]
  | .combined ms, h => by rw [withValues, withValues, withValuesAll_congr g g' ms h]
  | .serial names vals pr mask ms, h => by
      rw [entries] at h
      rw [withValues, withValues, withValuesAll_congr g g' ms fun e he => h e (by simp [he]),
        zipWith_congr_zip g g' names vals fun e he => h e (List.mem_append_right _ he)]
theorem withValuesAll_congr (g g' : String → HVal K → HVal K) : ∀ ms : List (TM K), (∀ e ∈ entriesAll ms, g e.1 e.2 = g' e.1 e.2) →
    withValuesAll g ms = withValuesAll g' ms
  | [], _ => rfl
  | m :: ms, h => by
      rw [entriesAll] at h
      rw [withValuesAll, withValuesAll, withValues_congr g g' m fun e he => h e (by simp [he]),
        withValuesAll_congr g g' ms fun e he => h e (by simp [he])]
end

theorem assigned_some {ns : List String} {xs : List (HVal K)} (hl : xs.length = ns.length) {n : String} (hn : n ∈ ns) :
    ∃ x ∈ xs, ∀ v, assigned ns xs n v = x := by
  unfold assigned
  cases hf : (ns.zip xs).find? fun p => p.1 = n with
  | none =>
      rw [List.find?_eq_none] at hf
      obtain ⟨i, hi, rfl⟩ := List.getElem_of_mem hn
      have := hf (ns[i], xs[i]'(by omega)) (by
        rw [List.mem_iff_getElem]
        exact ⟨i, by simp; omega, by simp⟩)
      simp at this
  | some p =>
      have h1 := List.mem_of_find?_eq_some hf
      exact ⟨p.2, (List.of_mem_zip h1).2, fun v => rfl⟩

theorem plain_assigned {ns : List String} {xs : List (HVal K)} (hx : ∀ x ∈ xs, Plain x) (n : String) (v : HVal K) (hv : Plain v) :
    Plain (assigned ns xs n v) := by
  unfold assigned
  cases hf : (ns.zip xs).find? fun p => p.1 = n with
  | none => exact hv
  | some p => exact hx _ (List.of_mem_zip (List.mem_of_find?_eq_some hf)).2

/-- models which differ from `tm` in the values only -/
def SameShape (tm tm' : TM K) : Prop := ∃ g : String → HVal K → HVal K, (∀ n v, Plain v → Plain (g n v)) ∧ tm' = withValues g tm

theorem SameShape.refl {tm : TM K} (hp : Proper tm) : SameShape tm tm :=
  ⟨fun _ v => v, fun _ _ h => h, (withValues_id _ tm hp fun _ _ _ => rfl).symm⟩

theorem setAll_shape {tm tm' : TM K} (hw : WellNamed tm) (h : SameShape tm tm') {xs : List (HVal K)} (hl : xs.length = (entries tm).length)
    (hx : ∀ x ∈ xs, Plain x) :
    tm'.setAll xs = .ok (withValues (assigned ((entries tm).map (·.1)) xs) tm) ∧
      SameShape tm (withValues (assigned ((entries tm).map (·.1)) xs) tm) := by
  obtain ⟨hp, hnd, hsp⟩ := hw
  obtain ⟨g, hg, rfl⟩ := h
  have hp' := proper_withValues g hg tm hp
  have hnames : (entries (withValues g tm)).map (·.1) = (entries tm).map (·.1) := by
    rw [entries_withValues, List.map_map]; rfl
  obtain ⟨tm'', h1, h2, -⟩ := Props.C25_all_partial (withValues g tm) xs hp' (by rw [hnames]; exact hnd) (by rw [hnames]; exact hsp)
    (by rw [hl, entries_withValues, List.length_map]) hx
  refine ⟨?_, _, fun n v hv => plain_assigned hx n v hv, rfl⟩
  rw [h1, h2, hnames, withValues_comp]
  congr 1
  apply withValues_congr
  intro e he
  obtain ⟨x, -, h⟩ := assigned_some (xs := xs) (by rw [hl, List.length_map]) (List.mem_map_of_mem (f := (·.1)) he)
  rw [h, h]

end values

variable {K : Type} [Field K] [LinearOrder K] [IsStrictOrderedRing K] {d : ℕ} {gs : Fin d → ℕ}

/-- a fit depends on the state of the study through the prior only -/
theorem fit_rel (E : Env K gs) (grid : (a : Fin d) → Fin (gs a) → K) (tm : TM K) (Ls : List (Idx gs → K)) (ts : List K) (fo eo : Bool)
    {S T : FitState K gs} (hT : T.prior = S.prior) :
    (∃ e, fit E grid tm Ls ts fo eo S = .error e ∧ fit E grid tm Ls ts fo eo T = .error e) ∨
    ∃ A B, fit E grid tm Ls ts fo eo S = .ok A ∧ fit E grid tm Ls ts fo eo T = .ok B ∧ B.prior = A.prior ∧ B.logEv = A.logEv ∧
      B.locals = A.locals ∧ (eo = false → B.posts = A.posts) ∧ (eo = true → B.posts = T.posts) := by
  unfold fit
  rw [hT]
  simp only [bind, Except.bind]
  cases computePrior { E with prior := S.prior } with
  | error e => exact .inl ⟨e, rfl, rfl⟩
  | ok ap =>
      simp only
      cases fwdPass E tm ap.2.isArray ap.2 ap.1 Ls ts with
      | error e => exact .inl ⟨e, rfl, rfl⟩
      | ok f =>
          simp only
          by_cases hs : f.stopped = true
          · simp only [hs, ↓reduceIte]
            exact .inr ⟨_, _, rfl, rfl, rfl, rfl, rfl, fun h => by simp [h], fun h => by simp [h]⟩
          · simp only [hs]
            cases eo with
            | true => exact .inr ⟨_, _, rfl, rfl, rfl, rfl, rfl, fun h => by simp at h, fun _ => rfl⟩
            | false =>
                cases fo with
                | true => exact .inr ⟨_, _, rfl, rfl, rfl, rfl, rfl, fun _ => rfl, fun h => by simp at h⟩
                | false =>
                    simp only [Bool.false_eq_true, ↓reduceIte]
                    cases bwdPass { E with prior := f.prior } tm f.steps with
                    | error e => exact .inl ⟨e, rfl, rfl⟩
                    | ok b =>
                        simp only
                        by_cases hb : b.stopped = true
                        · simp only [hb, ↓reduceIte]
                          exact .inr ⟨_, _, rfl, rfl, rfl, rfl, rfl, fun _ => rfl, fun h => by simp at h⟩
                        · simp only [hb]
                          exact .inr ⟨_, _, rfl, rfl, rfl, rfl, rfl, fun _ => rfl, fun h => by simp at h⟩

/-- the fit with the numbers of one row, as a plain study with state `S` would do it -/
def singleFit (I : FitIn K gs) (tm : TM K) (S : FitState K gs) (row : List K) : Except PyErr (FitState K gs) :=
  fit I.E I.grid (modelAt tm row) I.liks I.ts I.forwardOnly I.evidenceOnly S

theorem fit_prior_kept {E : Env K gs} {grid : (a : Fin d) → Fin (gs a) → K} {tm : TM K} {Ls : List (Idx gs → K)} {ts : List K} {fo eo : Bool}
    {S A : FitState K gs} (hn : S.prior.isArray = false) (h : fit E grid tm Ls ts fo eo S = .ok A) : A.prior = S.prior :=
  (Props.fit_again hn rfl h).1

/-- posterior at time index `t` of a finished fit -/
def postAt (A : FitState K gs) (t : ℕ) : Idx gs → K :=
  match A.posts[t]? with
  | some (.val p) => p
  | _ => fun _ => 0

/-- what one fit adds to the average posterior at time index `t` -/
def contrib (ε : K) (A : FitState K gs) (p : K) : ℕ → Idx gs → K := fun t x =>
  if A.logEv = LogV.ninf then 0 else (if postAt A t x < ε then ε else postAt A t x) * A.logEv.exp * p

/-- averages without nan -/
def rep (n : ℕ) (F : ℕ → Idx gs → K) : List (Option (Idx gs → LogV K)) := (List.range n).map fun t => some fun x => ⟨F t x⟩

theorem zipWith_range {α β γ : Type} (f : α → β → γ) (u : ℕ → α) (v : ℕ → β) (n : ℕ) :
    List.zipWith f ((List.range n).map u) ((List.range n).map v) = (List.range n).map fun t => f (u t) (v t) := by
  rw [List.zipWith_map, List.zipWith_self]

theorem posts_range {I : FitIn K gs} {tm : TM K} {S A : FitState K gs} (heo : I.evidenceOnly = false)
    (h : fit I.E I.grid tm I.liks I.ts I.forwardOnly I.evidenceOnly S = .ok A) (hA : A.logEv ≠ LogV.ninf) :
    A.posts = (List.range I.liks.length).map fun t => .val (postAt A t) := by
  rw [heo] at h
  obtain ⟨h1, h2⟩ := Props.C07_normalised _ _ _ _ _ _ _ _ h hA
  apply List.ext_getElem?
  intro t
  by_cases ht : t < I.liks.length
  · have ht' : t < A.posts.length := by omega
    obtain ⟨p, hp, -⟩ := h2 _ (List.getElem_mem ht')
    rw [List.getElem?_map, List.getElem?_range ht, List.getElem?_eq_getElem ht', hp]
    simp only [Option.map_some]
    unfold postAt
    rw [List.getElem?_eq_getElem ht', hp]
  · rw [List.getElem?_eq_none (by omega), List.getElem?_eq_none (by simp; omega)]

theorem avgAdd_rep {ε : K} {n : ℕ} {F : ℕ → Idx gs → K} {A : FitState K gs} {p : K} (hA : A.logEv ≠ LogV.ninf)
    (hp : A.posts = (List.range n).map fun t => .val (postAt A t)) :
    avgAdd ε (rep n F) A.posts A.logEv (LogV.log p) = rep n (F + contrib ε A p) := by
  rw [hp, avgAdd, rep, zipWith_range, rep]
  apply List.map_congr_left
  intro t _
  simp only [Cell.get?]
  congr 1
  funext x
  apply LogV.ext_exp
  simp only [Pi.add_apply, contrib, if_neg hA]
  rfl

/-- The loop over rows does the plain fits; none of them influences another one. -/
theorem hyperLoop_spec (I : FitIn K gs) (tm : TM K) (hw : WellNamed tm) (S : FitState K gs) (hn : S.prior.isArray = false) :
    ∀ (rps : List (List K × K)) (L : HLoop K gs), (∀ rp ∈ rps, rp.1.length = (entries tm).length) → SameShape tm L.tm →
      L.S.prior = S.prior → (I.evidenceOnly = true → L.S.posts = S.posts) →
    match mapE (fun rp : List K × K => singleFit I tm S rp.1) rps with
    | .error e => hyperLoop I rps L = .error e
    | .ok As => ∃ L', hyperLoop I rps L = .ok L' ∧ L'.evs = L.evs ++ As.map FitState.logEv ∧ L'.locs = L.locs ++ As.map FitState.locals ∧
        SameShape tm L'.tm ∧ L'.S.prior = S.prior ∧ (I.evidenceOnly = true → L'.S.posts = S.posts) ∧ (I.evidenceOnly = true → L'.avg = L.avg) ∧
        (I.evidenceOnly = false → ∀ F, L.avg = rep I.liks.length F →
          L'.avg = rep I.liks.length (F + (List.zipWith (contrib I.ε) As (rps.map (·.2))).sum))
  | [], L, _, h1, h2, h3 => by
      simp only [mapE]
      refine ⟨L, rfl, by simp, by simp, h1, h2, h3, fun _ => rfl, fun _ F hF => by simpa using hF⟩
  | rp :: rest, L, hlen, h1, h2, h3 => by
      have hset := setAll_shape hw h1 (xs := rp.1.map .scalar) (by rw [List.length_map]; exact hlen rp (by simp))
        (by intro x hx; obtain ⟨v, -, rfl⟩ := List.mem_map.1 hx; trivial)
      simp only [mapE, bind, Except.bind, hyperLoop, hyperStep]
      rw [hset.1]
      simp only
      have hm : withValues (assigned ((entries tm).map (·.1)) (rp.1.map .scalar)) tm = modelAt tm rp.1 := rfl
      rw [hm] at hset ⊢
      rcases fit_rel I.E I.grid (modelAt tm rp.1) I.liks I.ts I.forwardOnly I.evidenceOnly (S := S) (T := L.S) h2 with
        ⟨e, e1, e2⟩ | ⟨A, B, e1, e2, b1, b2, b3, b4, b5⟩
      · rw [singleFit, e1, e2]
      · rw [singleFit, e1, e2]
        simp only
        have hAp := fit_prior_kept hn e1
        have ih := hyperLoop_spec I tm hw S hn rest
          { tm := modelAt tm rp.1, S := B, evs := L.evs ++ [B.logEv], locs := L.locs ++ [B.locals],
            avg := if !I.evidenceOnly && B.logEv.isFinite then avgAdd I.ε L.avg B.posts B.logEv (LogV.log rp.2) else L.avg }
          (fun r hr => hlen r (by simp [hr])) hset.2 (by rw [b1, hAp]) (fun h => by rw [b5 h, h3 h])
        cases hr : mapE (fun rp : List K × K => singleFit I tm S rp.1) rest with
        | error e =>
            rw [hr] at ih
            simp only at ih ⊢
            exact ih
        | ok As =>
            rw [hr] at ih
            simp only at ih ⊢
            obtain ⟨L', i1, i2, i3, i4, i5, i6, i7, i8⟩ := ih
            refine ⟨L', i1, by rw [i2, b2]; simp, by rw [i3, b3]; simp, i4, i5, i6, fun h => by rw [i7 h]; simp [h], fun h F hF => ?_⟩
            have hpost := b4 h
            by_cases hz : B.logEv = LogV.ninf
            · have : B.logEv.isFinite = false := by rw [hz]; simp [LogV.isFinite, LogV.ninf]
              rw [i8 h F (by simp [this, hF])]
              congr 1
              rw [List.map_cons, List.zipWith_cons_cons, List.sum_cons]
              have h0 : contrib I.ε A rp.2 = 0 := by
                funext t x
                simp only [contrib]
                rw [if_pos (by rw [← b2]; exact hz)]
                rfl
              rw [h0, zero_add]
            · have : B.logEv.isFinite = true := by
                simp only [LogV.isFinite, decide_eq_true_eq]
                intro h0
                exact hz (LogV.ext_exp h0)
              rw [i8 h (F + contrib I.ε A rp.2) (by
                rw [this, h, hF]
                simp only [Bool.not_false, Bool.and_self, ↓reduceIte]
                rw [hpost, b2]
                exact avgAdd_rep (by rw [← b2]; exact hz) (posts_range h e1 (by rw [← b2]; exact hz)))]
              rw [List.map_cons, List.zipWith_cons_cons, List.sum_cons, add_assoc]

/-! ## Parallel fits -/

theorem splitPart_take {α : Type} (l : List α) (n : ℕ) : ∀ j, j ≤ n →
    ((List.range j).map (splitPart l n)).flatten = l.take (j * (l.length / n) + min j (l.length % n))
  | 0, _ => by simp
  | j + 1, h => by
      rw [List.range_succ, List.map_append, List.flatten_append, splitPart_take l n j (by omega)]
      simp only [List.map_cons, List.map_nil, List.flatten_cons, List.flatten_nil, List.append_nil, splitPart]
      rw [← List.take_add]
      congr 1
      have : (j + 1) * (l.length / n) = j * (l.length / n) + l.length / n := by ring
      rw [this]
      by_cases hj : j < l.length % n
      · rw [if_pos hj, Nat.min_eq_left (by omega), Nat.min_eq_left (by omega)]; omega
      · rw [if_neg hj, Nat.min_eq_right (by omega), Nat.min_eq_right (by omega)]; omega

/-- `array_split` distributes all elements, in order -/
theorem splitPart_flatten {α : Type} (l : List α) (n : ℕ) (hn : 0 < n) : ((List.range n).map (splitPart l n)).flatten = l := by
  rw [splitPart_take l n n le_rfl, Nat.min_eq_right (Nat.mod_lt _ hn).le, List.take_of_length_le]
  have := Nat.div_add_mod l.length n
  omega

theorem mapE_map {α β γ : Type} (f : β → Except PyErr γ) (g : α → β) : ∀ l : List α, mapE (fun x => f (g x)) l = mapE f (l.map g)
  | [] => rfl
  | x :: l => by simp only [mapE, List.map_cons, mapE_map f g l]

theorem mapE_append {α β : Type} (f : α → Except PyErr β) : ∀ l m : List α,
    mapE f (l ++ m) = (mapE f l).bind fun a => (mapE f m).bind fun b => .ok (a ++ b)
  | [], m => by
      cases h : mapE f m <;> simp [mapE, Except.bind, h]
  | x :: l, m => by
      simp only [List.cons_append, mapE, mapE_append f l m, bind, Except.bind]
      cases f x with
      | error e => rfl
      | ok y =>
          simp only
          cases mapE f l with
          | error e => rfl
          | ok a =>
              simp only
              cases mapE f m <;> rfl

theorem mapE_length {α β : Type} {f : α → Except PyErr β} : ∀ {l : List α} {r : List β}, mapE f l = .ok r → r.length = l.length
  | [], r, h => by simp only [mapE, Except.ok.injEq] at h; subst h; rfl
  | x :: l, r, h => by
      simp only [mapE, bind, Except.bind] at h
      cases hx : f x with
      | error e => rw [hx] at h; cases h
      | ok y =>
          rw [hx] at h
          cases hl : mapE f l with
          | error e => rw [hl] at h; cases h
          | ok q =>
              rw [hl] at h
              simp only [Except.ok.injEq] at h
              subst h
              simp [mapE_length hl]

theorem start_avg (I : FitIn K gs) (tm : TM K) (S : FitState K gs) : (HLoop.start I tm S).avg = rep I.liks.length 0 := by
  change I.liks.map (fun _ => some fun _ => LogV.ninf) = (List.range I.liks.length).map fun _ => some fun _ => LogV.ninf
  simp

theorem avgMerge_rep (n : ℕ) (F G : ℕ → Idx gs → K) : avgMerge (rep n F) (rep n G) = rep n (F + G) := by
  rw [avgMerge, rep, rep, zipWith_range, rep]
  rfl

theorem subs_spec (I : FitIn K gs) (tm : TM K) (hw : WellNamed tm) (S : FitState K gs) (hn : S.prior.isArray = false) :
    ∀ cs : List (List (List K × K)), (∀ rp ∈ cs.flatten, rp.1.length = (entries tm).length) →
    match mapE (fun rp : List K × K => singleFit I tm S rp.1) cs.flatten with
    | .error e => mapE (fun c => hyperLoop I c (HLoop.start I tm S)) cs = .error e
    | .ok As => ∃ subs, mapE (fun c => hyperLoop I c (HLoop.start I tm S)) cs = .ok subs ∧ ∀ M : HLoop K gs,
        (mergeSubs M subs).evs = M.evs ++ As.map FitState.logEv ∧ (mergeSubs M subs).locs = M.locs ++ As.map FitState.locals ∧
        (mergeSubs M subs).tm = M.tm ∧ (mergeSubs M subs).S = M.S ∧
        (I.evidenceOnly = false → ∀ F, M.avg = rep I.liks.length F →
          (mergeSubs M subs).avg = rep I.liks.length (F + (List.zipWith (contrib I.ε) As (cs.flatten.map (·.2))).sum))
  | [], _ => by
      simp only [List.flatten_nil, mapE]
      exact ⟨[], rfl, fun M => ⟨by simp [mergeSubs], by simp [mergeSubs], rfl, rfl, fun _ F hF => by simpa [mergeSubs] using hF⟩⟩
  | c :: cs, hlen => by
      rw [List.flatten_cons] at hlen ⊢
      have h1 := hyperLoop_spec I tm hw S hn c (HLoop.start I tm S) (fun rp h => hlen rp (by simp [h])) (SameShape.refl hw.1) rfl (fun _ => rfl)
      have ih := subs_spec I tm hw S hn cs (fun rp h => hlen rp (List.mem_append_right _ h))
      rw [mapE_append]
      simp only [mapE, bind, Except.bind]
      cases hA : mapE (fun rp : List K × K => singleFit I tm S rp.1) c with
      | error e =>
          rw [hA] at h1
          simp only at h1 ⊢
          rw [h1]
      | ok A1 =>
          rw [hA] at h1
          simp only at h1 ⊢
          obtain ⟨L', l1, l2, l3, l4, l5, l6, l7, l8⟩ := h1
          rw [l1]
          simp only
          cases hB : mapE (fun rp : List K × K => singleFit I tm S rp.1) cs.flatten with
          | error e =>
              rw [hB] at ih
              simp only at ih ⊢
              rw [ih]
          | ok A2 =>
              rw [hB] at ih
              simp only at ih ⊢
              obtain ⟨subs, s1, s2⟩ := ih
              rw [s1]
              refine ⟨_, rfl, fun M => ?_⟩
              obtain ⟨m1, m2, m3, m4, m5⟩ := s2 { M with evs := M.evs ++ L'.evs, locs := M.locs ++ L'.locs, avg := avgMerge M.avg L'.avg }
              rw [mergeSubs]
              refine ⟨by rw [m1, l2]; simp [HLoop.start], by rw [m2, l3]; simp [HLoop.start], m3, m4, fun h F hF => ?_⟩
              have := l8 h 0 (start_avg I tm S)
              rw [m5 h _ (by rw [hF, this, avgMerge_rep])]
              congr 1
              rw [zero_add, List.map_append, List.zipWith_append (by rw [mapE_length hA, List.length_map]), List.sum_append, add_assoc]

/-- All single fits of a hyper-study, for every number of jobs. -/
theorem hyperRun_spec (I : FitIn K gs) (tm : TM K) (hw : WellNamed tm) (S : FitState K gs) (hn : S.prior.isArray = false) (nJobs : ℕ)
    (rps : List (List K × K)) (hlen : ∀ rp ∈ rps, rp.1.length = (entries tm).length) :
    match mapE (fun rp : List K × K => singleFit I tm S rp.1) rps with
    | .error e => hyperRun I nJobs rps (HLoop.start I tm S) = .error e
    | .ok As => ∃ L', hyperRun I nJobs rps (HLoop.start I tm S) = .ok L' ∧ L'.evs = As.map FitState.logEv ∧ L'.locs = As.map FitState.locals ∧
        SameShape tm L'.tm ∧ L'.S.prior = S.prior ∧ (I.evidenceOnly = true → L'.S.posts = S.posts) ∧
        (I.evidenceOnly = false → L'.avg = rep I.liks.length (List.zipWith (contrib I.ε) As (rps.map (·.2))).sum) := by
  unfold hyperRun
  by_cases hj : nJobs > 1
  · rw [if_pos hj]
    have hs := subs_spec I tm hw S hn ((List.range nJobs).map (splitPart rps nJobs)) (by rw [splitPart_flatten _ _ (by omega)]; exact hlen)
    rw [splitPart_flatten _ _ (by omega)] at hs
    rw [mapE_map (fun c => hyperLoop I c (HLoop.start I tm S)) (splitPart rps nJobs)]
    cases hA : mapE (fun rp : List K × K => singleFit I tm S rp.1) rps with
    | error e =>
        rw [hA] at hs
        simp only at hs ⊢
        rw [hs]
        rfl
    | ok As =>
        rw [hA] at hs
        simp only at hs ⊢
        obtain ⟨subs, s1, s2⟩ := hs
        obtain ⟨m1, m2, m3, m4, m5⟩ := s2 (HLoop.start I tm S)
        rw [s1]
        refine ⟨_, rfl, by rw [m1]; simp [HLoop.start], by rw [m2]; simp [HLoop.start], by rw [m3]; exact SameShape.refl hw.1,
          by rw [m4]; rfl, fun _ => by rw [m4]; rfl, fun h => by rw [m5 h 0 (start_avg I tm S), zero_add]⟩
  · rw [if_neg hj]
    have h1 := hyperLoop_spec I tm hw S hn rps (HLoop.start I tm S) hlen (SameShape.refl hw.1) rfl (fun _ => rfl)
    cases hA : mapE (fun rp : List K × K => singleFit I tm S rp.1) rps with
    | error e =>
        rw [hA] at h1
        exact h1
    | ok As =>
        rw [hA] at h1
        simp only at h1 ⊢
        obtain ⟨L', l1, l2, l3, l4, l5, l6, l7, l8⟩ := h1
        exact ⟨L', l1, by rw [l2]; simp [HLoop.start], by rw [l3]; simp [HLoop.start], l4, l5, l6,
          fun h => by rw [l8 h 0 (start_avg I tm S), zero_add]⟩

end BL
