import Verif.Props.Ex
import Verif.Model.Construct
import Verif.Spec.Serial
import Verif.Lemmas.Linear

/-! # C20: serial models -/

set_option linter.unusedSectionVars false

namespace Props
open BL Spec

variable {K : Type} [Field K] [LinearOrder K] [IsStrictOrderedRing K] {d : ℕ} {gs : Fin d → ℕ}

theorem fwdNth_get {E : Env K gs} {toff : K} : ∀ (ms : List (TM K)) (i : ℕ) (h : i < ms.length) (p : Arr K gs) (t : K),
    TM.fwdNth E toff ms i p t = TM.fwd E toff ms[i] p t
  | m :: ms, 0, _, p, t => by simp [TM.fwdNth]
  | m :: ms, i + 1, h, p, t => by
      simp only [TM.fwdNth, List.getElem_cons_succ]
      exact fwdNth_get ms i (by simpa using h) p t

theorem bwdNth_get {E : Env K gs} {toff : K} : ∀ (ms : List (TM K)) (i : ℕ) (h : i < ms.length) (p : Arr K gs) (t : K),
    TM.bwdNth E toff ms i p t = TM.bwd E toff ms[i] p t
  | m :: ms, 0, _, p, t => by simp [TM.bwdNth]
  | m :: ms, i + 1, h, p, t => by
      simp only [TM.bwdNth, List.getElem_cons_succ]
      exact bwdNth_get ms i (by simpa using h) p t

theorem scalars_map (bs : List K) : scalars (bs.map HVal.scalar) = .ok bs := by
  induction bs with
  | nil => rfl
  | cons b bs ih => simp [scalars, ih, bind, Except.bind]

theorem countP_sorted : ∀ (bs : List K), bs.Pairwise (· < ·) → ∀ (t : K) (i : ℕ) (h : i < bs.length),
    (bs[i] ≤ t ↔ i < bs.countP fun v => decide (v ≤ t))
  | b :: bs, hs, t, 0, h => by
      rw [List.pairwise_cons] at hs
      by_cases hb : b ≤ t
      · simp [List.countP_cons, hb]
      · have : bs.countP (fun v => decide (v ≤ t)) = 0 := by
          rw [List.countP_eq_zero]
          intro v hv
          simp only [decide_eq_true_eq]
          exact fun h => hb ((hs.1 v hv).le.trans h)
        simp [List.countP_cons, hb, this]
  | b :: bs, hs, t, i + 1, h => by
      have hs' := (List.pairwise_cons.1 hs)
      have hlt : i < bs.length := by simpa using h
      have ih := countP_sorted bs hs'.2 t i hlt
      by_cases hb : b ≤ t
      · simp only [List.getElem_cons_succ, List.countP_cons, hb, decide_true, if_true]
        rw [ih]; omega
      · have hi : ¬ bs[i] ≤ t := fun h => hb ((hs'.1 _ (List.getElem_mem hlt)).le.trans h)
        simp only [List.getElem_cons_succ, List.countP_cons, hb, decide_false, Bool.false_eq_true, if_false]
        rw [ih] at hi
        simp only [ih]; omega

theorem breakOffset_eq (bs : List K) : ∀ (i : ℕ) (hi : i < bs.length + 1),
    breakOffset bs i = if h : 0 < i then bs[i - 1]'(by omega) else 0
  | 0, _ => by simp [breakOffset]
  | j + 1, hj => by
      have : j < bs.length := by omega
      simp [breakOffset, this]

/-- **C20 (selection).** For increasing break times `bs`, every time `t` lies in exactly one segment `k`
(`bs[k-1] ≤ t < bs[k]`), and the serial model applies sub-model `k`, with time measured from `bs[k-1]`, and then (if `t` is a change-point) resets; the backward
transition into time `t` uses the segment of `t-1`. -/
theorem C20_segment (E : Env K gs) (names : List String) (bs : List K) (pri : List (Nest (HPrior K))) (mask : List Bool) (ms : List (TM K))
    (hlen : ms.length = bs.length + 1) (hinc : bs.Pairwise (· < ·)) (t : K) :
    ∃! k : Fin (bs.length + 1),
      ((∀ i (h : i < bs.length), i < k.val → bs[i] ≤ t) ∧ (∀ i (h : i < bs.length), k.val ≤ i → t < bs[i])) ∧
      (∀ toff p, TM.fwd E toff (.serial names (bs.map .scalar) pri mask ms) p t =
        (TM.fwd E (if h : 0 < k.val then bs[k.val - 1]'(by omega) else 0) (ms[k.val]'(by omega)) p t).map
          fun q => if (t, true) ∈ bs.zip mask then E.resetCell else q) ∧
      (∀ toff p, TM.bwd E toff (.serial names (bs.map .scalar) pri mask ms) p (t + 1) =
        (TM.bwd E (if h : 0 < k.val then bs[k.val - 1]'(by omega) else 0) (ms[k.val]'(by omega)) p (t + 1)).map
          fun q => if (t, true) ∈ bs.zip mask then E.resetCell else q) := by
  have hk : modelIndex bs t < bs.length + 1 := Nat.lt_succ_of_le List.countP_le_length
  have hoff : breakOffset bs (modelIndex bs t) = if h : 0 < modelIndex bs t then bs[modelIndex bs t - 1]'(by omega) else 0 := breakOffset_eq bs _ hk
  have hcp : ∀ q : Arr K gs, cpCheck E bs mask q t = if (t, true) ∈ bs.zip mask then E.resetCell else q := by
    intro q
    unfold cpCheck
    by_cases h : IsChange bs mask t
    · rw [if_pos ((cpIn_iff _ _ _).2 h)]; exact (if_pos h).symm
    · rw [if_neg (fun h' => h ((cpIn_iff _ _ _).1 h'))]; exact (if_neg h).symm
  refine ⟨⟨modelIndex bs t, hk⟩, ⟨⟨fun i h hi => (countP_sorted bs hinc t i h).2 hi, fun i h hi => ?_⟩, fun toff p => ?_, fun toff p => ?_⟩, ?_⟩
  · refine not_le.1 fun hle => ?_
    have h1 := (countP_sorted bs hinc t i h).1 hle
    have h2 : modelIndex bs t ≤ i := hi
    unfold modelIndex at h2
    omega
  · simp only [TM.fwd, scalars_map, bind, Except.bind]
    rw [fwdNth_get ms _ (by omega), hoff]
    cases TM.fwd E (if h : 0 < modelIndex bs t then bs[modelIndex bs t - 1]'(by omega) else 0) (ms[modelIndex bs t]'(by omega)) p t with
    | error e => rfl
    | ok q => simp only [Except.map]; rw [hcp]
  · simp only [TM.bwd, scalars_map, bind, Except.bind, add_sub_cancel_right]
    rw [bwdNth_get ms _ (by omega), hoff]
    cases TM.bwd E (if h : 0 < modelIndex bs t then bs[modelIndex bs t - 1]'(by omega) else 0) (ms[modelIndex bs t]'(by omega)) p (t + 1) with
    | error e => rfl
    | ok q => simp only [Except.map]; rw [hcp]
  · rintro ⟨k, hk'⟩ ⟨⟨h1, h2⟩, -, -⟩
    apply Fin.ext
    simp only at h1 h2 ⊢
    by_contra hne
    rcases lt_or_gt_of_ne hne with h | h
    · have hkl : k < bs.length := by omega
      exact absurd ((countP_sorted bs hinc t k hkl).2 h) (not_le.2 (h2 k hkl le_rfl))
    · have hkl : modelIndex bs t < bs.length := by omega
      have := (countP_sorted bs hinc t _ hkl).1 (h1 _ hkl h)
      unfold modelIndex at this
      omega

example (p : Arr ℚ Ex.gs2) := C20_segment (Ex.env Ex.gs2 2) ["a", "b"] [3, 5] [] [true, false] [Ex.grw 1, Ex.static, Ex.regime] rfl (by decide +kernel) 4

/-- **C20 (never fails).** For arbitrary (also unordered) break times, the selected index is valid, so the serial model fails only if the selected
sub-model fails. -/
theorem C20_total (E : Env K gs) (toff : K) (names : List String) (bs : List K) (pri : List (Nest (HPrior K))) (mask : List Bool) (ms : List (TM K))
    (hlen : ms.length = bs.length + 1) (t : K) (p : Arr K gs) (e : PyErr)
    (h : TM.fwd E toff (.serial names (bs.map .scalar) pri mask ms) p t = .error e) :
    ∃ m ∈ ms, ∃ toff', TM.fwd E toff' m p t = .error e := by
  simp only [TM.fwd, scalars_map, bind, Except.bind] at h
  have hk : modelIndex bs t < ms.length := by rw [hlen]; exact Nat.lt_succ_of_le List.countP_le_length
  rw [fwdNth_get ms _ hk] at h
  refine ⟨ms[modelIndex bs t], List.getElem_mem hk, breakOffset bs (modelIndex bs t), ?_⟩
  cases hq : TM.fwd E (breakOffset bs (modelIndex bs t)) ms[modelIndex bs t] p t with
  | error e' => rw [hq] at h; simpa using h
  | ok q => rw [hq] at h; simp at h

theorem serialArgs_proper : ∀ (args : List (TM K)), (∀ m ∈ args, ProperArg m) →
    ∃ l, serialArgs args = .ok l ∧
      l.filterMap SerialArg.brk? = breaksOf args ∧
      l.filterMap SerialArg.model? = modelsOf args
  | [], _ => ⟨[], rfl, rfl, rfl⟩
  | m :: args, h => by
      obtain ⟨l, h1, h2, h3⟩ := serialArgs_proper args fun m hm => h m (by simp [hm])
      have hm := h m (by simp)
      have nb : serialArg m = .ok (.model m) → breaksOf (m :: args) = breaksOf args → modelsOf (m :: args) = m :: modelsOf args →
          ∃ l, serialArgs (m :: args) = .ok l ∧
            l.filterMap SerialArg.brk? = breaksOf (m :: args) ∧
            l.filterMap SerialArg.model? = modelsOf (m :: args) := by
        intro e1 e2 e3
        refine ⟨.model m :: l, ?_, ?_, ?_⟩
        · simp only [serialArgs, e1, h1, bind, Except.bind]
        · simp only [e2, List.filterMap_cons, SerialArg.brk?, h2]
        · simp only [e3, List.filterMap_cons, SerialArg.model?, h3]
      cases m with
      | leaf k ns vs pr =>
        cases k
        case breakPoint =>
            obtain ⟨n, v, p, rfl, rfl, rfl, -⟩ := hm
            refine ⟨.brk n v p false :: l, ?_, ?_, ?_⟩
            · simp [serialArgs, serialArg, h1, bind, Except.bind]
            · simp only [breaksOf, List.filterMap_cons, SerialArg.brk?, h2]
            · simp only [modelsOf, List.filterMap_cons, SerialArg.model?, h3]
        case changePoint =>
            obtain ⟨n, v, p, rfl, rfl, rfl, -⟩ := hm
            refine ⟨.brk n v p true :: l, ?_, ?_, ?_⟩
            · simp [serialArgs, serialArg, h1, bind, Except.bind]
            · simp only [breaksOf, List.filterMap_cons, SerialArg.brk?, h2]
            · simp only [modelsOf, List.filterMap_cons, SerialArg.model?, h3]
        all_goals exact nb (by simp only [serialArg]) (by simp only [breaksOf]) (by simp only [modelsOf])
      | combined ms => exact nb (by simp only [serialArg]) (by simp only [breaksOf]) (by simp only [modelsOf])
      | serial a b c e ms => exact nb (by simp only [serialArg]) (by simp only [breaksOf]) (by simp only [modelsOf])

theorem breaksOf_proper : ∀ (args : List (TM K)), (∀ m ∈ args, ProperArg m) → ∀ b ∈ breaksOf args,
    (b.2.1 = .all ∨ (∃ c, b.2.1 = .scalar c) ∨ ∃ c l, b.2.1 = .array (c :: l))
  | [], _, b, hb => by simp [breaksOf] at hb
  | m :: args, h, b, hb => by
      have ih := breaksOf_proper args (fun m hm => h m (by simp [hm])) b
      have hm := h m (by simp)
      cases m with
      | leaf k ns vs pr =>
        cases k
        case breakPoint =>
            obtain ⟨n, v, p, rfl, rfl, rfl, hv⟩ := hm
            simp only [breaksOf, List.mem_cons] at hb
            rcases hb with rfl | hb
            · exact hv
            · exact ih hb
        case changePoint =>
            obtain ⟨n, v, p, rfl, rfl, rfl, hv⟩ := hm
            simp only [breaksOf, List.mem_cons] at hb
            rcases hb with rfl | hb
            · exact hv
            · exact ih hb
        all_goals exact ih (by simpa only [breaksOf] using hb)
      | combined ms => exact ih (by simpa only [breaksOf] using hb)
      | serial a b c e ms => exact ih (by simpa only [breaksOf] using hb)

theorem firstValues_proper : ∀ (vs : List (HVal K)), (∀ v ∈ vs, v = .all ∨ (∃ c, v = .scalar c) ∨ ∃ c l, v = .array (c :: l)) →
    firstValues vs = .ok (vs.map fun v => (firstTime v).map some)
  | [], _ => rfl
  | v :: vs, h => by
      have ih := firstValues_proper vs fun v hv => h v (by simp [hv])
      have : firstValue v = .ok ((firstTime v).map some) := by
        rcases h v (by simp) with rfl | ⟨c, rfl⟩ | ⟨c, l, rfl⟩ <;> rfl
      simp only [firstValues, this, ih, bind, Except.bind, List.map_cons]

theorem increasing_iff : ∀ (vs : List (HVal K)),
    ∃ b, increasing (vs.map fun v => (firstTime v).map some) = .ok b ∧ (b = true ↔ Increasing vs)
  | [] => ⟨true, rfl, by simp [Increasing]⟩
  | [v] => ⟨true, rfl, by simp [Increasing]⟩
  | v :: w :: vs => by
      obtain ⟨b, h1, h2⟩ := increasing_iff (w :: vs)
      simp only [List.map_cons] at h1 ⊢
      unfold increasing
      unfold Increasing at h2 ⊢
      cases hv : firstTime v with
      | none => exact ⟨b, by simpa using h1, by rw [h2]; simp [hv]⟩
      | some x =>
        cases hw : firstTime w with
        | none =>
            rw [hw] at h1
            exact ⟨b, by simpa using h1, by rw [h2]; simp [hv, hw]⟩
        | some y =>
            rw [hw] at h1
            by_cases hxy : x < y
            · exact ⟨b, by simpa [hxy] using h1, by rw [h2]; simp [hv, hw, hxy]⟩
            · exact ⟨false, by simp [hxy], by simp [hv, hw, hxy]⟩

open Classical in
/-- **C20 (constructor).** An argument list is accepted exactly if the first values of neighbouring breaks increase (where given as numbers) and there is one more
sub-model than breaks; the constructed model then holds sub-models, names, values, hyper-priors and change-point flags in the order of the arguments.  Otherwise a ConfigurationError is raised. -/
theorem C20_constructor (args : List (TM K)) (h : ∀ m ∈ args, ProperArg m) :
    mkSerial args =
      if Increasing ((breaksOf args).map fun b => b.2.1) ∧ (modelsOf args).length = (breaksOf args).length + 1 then
        .ok (.serial ((breaksOf args).map fun b => b.1) ((breaksOf args).map fun b => b.2.1) ((breaksOf args).map fun b => b.2.2.1)
          ((breaksOf args).map fun b => b.2.2.2) (modelsOf args))
      else .error .configuration := by
  obtain ⟨l, h1, h2, h3⟩ := serialArgs_proper args h
  obtain ⟨b, h4, h5⟩ := increasing_iff ((breaksOf args).map fun b => b.2.1)
  have h6 := firstValues_proper ((breaksOf args).map fun b => b.2.1) (by
    intro v hv
    obtain ⟨b, hb, rfl⟩ := List.mem_map.1 hv
    exact breaksOf_proper args h b hb)
  unfold mkSerial
  simp only [h1, bind, Except.bind, h2, h3, h6, h4, List.length_map]
  cases b with
  | false =>
      have : ¬ Increasing ((breaksOf args).map fun b => b.2.1) := fun hh => by simpa using h5.2 hh
      simp [this]
  | true =>
      have : Increasing ((breaksOf args).map fun b => b.2.1) := h5.1 rfl
      by_cases hl : (modelsOf args).length = (breaksOf args).length + 1 <;> simp [this, hl]

/-- non-trivial argument lists: accepted, wrong order, wrong number -/
example : (∀ m ∈ [Ex.static, .leaf .breakPoint ["t1"] [.array [5, 6]] (some (.item .none)), Ex.grw 1,
      .leaf .changePoint ["t2"] [.scalar 7] (some (.item .none)), Ex.regime], ProperArg m) := by
  intro m hm
  simp only [List.mem_cons, List.not_mem_nil, or_false] at hm
  rcases hm with rfl | rfl | rfl | rfl | rfl <;> simp [ProperArg, Ex.static, Ex.grw, Ex.regime]

end Props
