import Verif.Spec.Jumps
import Verif.Props.C103
import Verif.Props.C125

/-! # C126: change-points together with random walks and structural breaks -/

set_option linter.unusedSectionVars false

open MeasureTheory
open scoped ENNReal

namespace Props
open BL Spec

section jump
variable {K : Type} [Field K] [LinearOrder K] [IsStrictOrderedRing K] {d : ℕ} {gs : Fin d → ℕ} {E : Env K gs}

/-- the entries whose mask is set -/
def masked {α : Type} (l : List α) (mask : List Bool) : List α := ((l.zip mask).filter (·.2)).map (·.1)

theorem masked_length {α β : Type} : ∀ (l : List α) (l' : List β) (mask : List Bool), l.length = l'.length → (masked l mask).length = (masked l' mask).length
  | [], [], _, _ => rfl
  | [], _ :: _, _, h => by simp at h
  | _ :: _, [], _, h => by simp at h
  | a :: l, b :: l', [], _ => rfl
  | a :: l, b :: l', c :: mask, h => by
      have ih := masked_length l l' mask (by simpa using h)
      unfold masked at ih ⊢
      cases c <;> simpa using ih

theorem isChange_masked (vs : List K) (mask : List Bool) (t : K) : IsChange vs mask t ↔ t ∈ masked vs mask := by
  unfold IsChange masked
  simp

mutual
/-- times at which a model draws the parameters afresh -/
def jumpTimes : TM K → List K
  | .leaf .changePoint _ vs _ => [val0 vs]
  | .leaf _ _ _ _ => []
  | .combined ms => jumpTimesAll ms
  | .serial _ vs _ mask _ => masked (vals vs) mask
/-- all sub-models -/
def jumpTimesAll : List (TM K) → List K
  | [] => []
  | m :: ms => jumpTimes m ++ jumpTimesAll ms
end

mutual
theorem jump_withValues (g : String → HVal K → HVal K) : ∀ tm : TM K, JumpModel E tm → JumpModel E (withValues g tm)
  | .leaf k names vs pr, h => by
      cases k <;> simp [JumpModel] at h <;> simp [JumpModel, withValues, h]
  | .combined ms, h => jumpAll_withValues g ms h
  | .serial names vs pr mask ms, h => by
      rw [JumpModel] at h
      obtain ⟨a, b, c, e⟩ := h
      rw [withValues, JumpModel]
      exact ⟨by simp [a], b, by rw [walkAll_length (E := E), c], walkAll_withValues g ms e⟩
theorem jumpAll_withValues (g : String → HVal K → HVal K) : ∀ ms : List (TM K), JumpModelAll E ms → JumpModelAll E (withValuesAll g ms)
  | [], _ => trivial
  | m :: ms, h => ⟨jump_withValues g m h.1, jumpAll_withValues g ms h.2⟩
end

mutual
theorem changeNames_withValues (g : String → HVal K → HVal K) : ∀ tm : TM K, changeNames (withValues g tm) = changeNames tm
  | .leaf k names vs pr => by cases k <;> rfl
  | .combined ms => changeNamesAll_withValues g ms
  | .serial names vs pr mask ms => rfl
theorem changeNamesAll_withValues (g : String → HVal K → HVal K) : ∀ ms : List (TM K), changeNamesAll (withValuesAll g ms) = changeNamesAll ms
  | [] => rfl
  | m :: ms => by rw [withValuesAll, changeNamesAll, changeNamesAll, changeNames_withValues g m, changeNamesAll_withValues g ms]
end

mutual
theorem changeNames_sub : ∀ tm : TM K, ∀ n ∈ changeNames tm, n ∈ pointNames tm
  | .leaf k names vs pr, n, h => by cases k <;> first | exact h | simp [changeNames] at h
  | .combined ms, n, h => changeNamesAll_sub ms n h
  | .serial names vs pr mask ms, n, h => by
      rw [pointNames]
      refine List.mem_append_right _ ?_
      rw [changeNames] at h
      obtain ⟨p, hp, rfl⟩ := List.mem_map.1 h
      exact (List.of_mem_zip (List.mem_filter.1 hp).1).1
theorem changeNamesAll_sub : ∀ ms : List (TM K), ∀ n ∈ changeNamesAll ms, n ∈ pointNamesAll ms
  | [], n, h => by simp [changeNamesAll] at h
  | m :: ms, n, h => by
      rw [changeNamesAll, List.mem_append] at h
      rw [pointNamesAll, List.mem_append]
      exact h.imp (changeNames_sub m n) (changeNamesAll_sub ms n)
end

mutual
/-- one time per change-point -/
theorem jumpTimes_length : ∀ tm : TM K, JumpModel E tm → (jumpTimes tm).length = (changeNames tm).length
  | .leaf k names vs pr, h => by
      cases k <;> simp [JumpModel] at h <;> simp [jumpTimes, changeNames, h]
  | .combined ms, h => jumpTimesAll_length ms h
  | .serial names vs pr mask ms, h => by
      rw [JumpModel] at h
      exact masked_length _ _ mask (by rw [vals_length, h.1])
theorem jumpTimesAll_length : ∀ ms : List (TM K), JumpModelAll E ms → (jumpTimesAll ms).length = (changeNamesAll ms).length
  | [], _ => rfl
  | m :: ms, h => by rw [jumpTimesAll, changeNamesAll, List.length_append, List.length_append, jumpTimes_length m h.1, jumpTimesAll_length ms h.2]
end

theorem masked_sublist (N : List String) : ∀ (names : List String) (vs : List (HVal K)) (mask : List Bool), vs.length = names.length →
    (∀ n ∈ masked names mask, n ∈ N) → (masked (vals vs) mask).Sublist (vals (((names.zip vs).filter fun e => decide (e.1 ∈ N)).map (·.2)))
  | [], [], mask, _, _ => by simp [vals, masked]
  | [], _ :: _, _, h, _ => by simp at h
  | _ :: _, [], _, h, _ => by simp at h
  | n :: names, v :: vs, [], _, _ => by simp [masked]
  | n :: names, v :: vs, b :: mask, h, hN => by
      have hN' : ∀ n ∈ masked names mask, n ∈ N := fun n hn => hN n (by
        unfold masked at hn ⊢
        cases b <;> simp only [List.zip_cons_cons, List.filter_cons] <;> simp at hn ⊢ <;> simp [hn])
      have ih := masked_sublist N names vs mask (by simpa using h) hN'
      have hv : vals (v :: vs) = val0 [v] :: vals vs := by cases v <;> rfl
      have hv' : ∀ l, vals (v :: l) = val0 [v] :: vals l := fun l => by cases v <;> rfl
      rw [hv]
      cases b with
      | false =>
          have e : masked (val0 [v] :: vals vs) (false :: mask) = masked (vals vs) mask := by simp [masked]
          rw [e, List.zip_cons_cons, List.filter_cons]
          split
          · rw [List.map_cons, hv']
            exact ih.cons _
          · exact ih
      | true =>
          have e : masked (val0 [v] :: vals vs) (true :: mask) = val0 [v] :: masked (vals vs) mask := by simp [masked]
          have hn : n ∈ N := hN n (by simp [masked])
          rw [e, List.zip_cons_cons, List.filter_cons, if_pos (by simpa using hn), List.map_cons, hv']
          exact ih.cons_cons _

mutual
theorem jumpTimes_sublist (N : List String) : ∀ tm : TM K, JumpModel E tm → (∀ n ∈ changeNames tm, n ∈ N) →
    (jumpTimes tm).Sublist (vals (((entries tm).filter fun e => decide (e.1 ∈ N)).map (·.2)))
  | .leaf k names vs pr, h, hN => by
      cases k with
      | changePoint =>
          obtain ⟨n, rfl⟩ := List.length_eq_one_iff.1 h.1
          obtain ⟨v, rfl⟩ := List.length_eq_one_iff.1 h.2
          have hn : n ∈ N := hN n (by simp [changeNames])
          cases v <;> simp [jumpTimes, entries, vals, val0, hn]
      | _ => first | exact List.nil_sublist _ | exact absurd h (by simp [JumpModel])
  | .combined ms, h, hN => by
      rw [jumpTimes, entries]
      exact jumpTimesAll_sublist N ms h hN
  | .serial names vs pr mask ms, h, hN => by
      rw [JumpModel] at h
      rw [jumpTimes, entries, List.filter_append, List.map_append, vals_append]
      exact (masked_sublist N names vs mask h.1 hN).trans (List.sublist_append_right _ _)
theorem jumpTimesAll_sublist (N : List String) : ∀ ms : List (TM K), JumpModelAll E ms → (∀ n ∈ changeNamesAll ms, n ∈ N) →
    (jumpTimesAll ms).Sublist (vals (((entriesAll ms).filter fun e => decide (e.1 ∈ N)).map (·.2)))
  | [], _, _ => List.nil_sublist _
  | m :: ms, h, hN => by
      rw [jumpTimesAll, entriesAll, List.filter_append, List.map_append, vals_append]
      exact (jumpTimes_sublist N m h.1 fun n hn => hN n (by rw [changeNamesAll]; exact List.mem_append_left _ hn)).append
        (jumpTimesAll_sublist N ms h.2 fun n hn => hN n (by rw [changeNamesAll]; exact List.mem_append_right _ hn))
end

theorem vals_filter (N : List String) : ∀ (names : List String) (row : List K),
    vals (((names.zip (row.map HVal.scalar)).filter fun e => decide (e.1 ∈ N)).map (·.2)) = ((names.zip row).filter fun e => decide (e.1 ∈ N)).map (·.2)
  | [], _ => rfl
  | _ :: _, [] => rfl
  | n :: names, c :: row => by
      have ih := vals_filter N names row
      rw [List.map_cons, List.zip_cons_cons, List.zip_cons_cons, List.filter_cons, List.filter_cons]
      by_cases hn : n ∈ N
      · simp only [hn, decide_true, ↓reduceIte, List.map_cons, vals, ih]
      · simpa only [hn, decide_false, Bool.false_eq_true, ↓reduceIte] using ih

mutual
theorem linear_jump : ∀ tm : TM K, JumpModel E tm → (∀ e ∈ entries tm, ∃ c, e.2 = .scalar c) → Linear E tm
  | .leaf k names vs pr, h, he => by
      cases k with
      | static => exact trivial
      | grw target =>
          obtain ⟨h0, h1, h2⟩ := h
          obtain ⟨n, rfl⟩ := List.length_eq_one_iff.1 h1
          obtain ⟨v, rfl⟩ := List.length_eq_one_iff.1 h2
          obtain ⟨c, hc⟩ := he (n, v) (by simp [entries])
          simp only at hc
          subst hc
          exact ⟨h0, c, rfl⟩
      | changePoint =>
          obtain ⟨n, rfl⟩ := List.length_eq_one_iff.1 h.1
          obtain ⟨v, rfl⟩ := List.length_eq_one_iff.1 h.2
          obtain ⟨c, hc⟩ := he (n, v) (by simp [entries])
          simp only at hc
          subst hc
          exact ⟨c, rfl⟩
      | _ => exact absurd h (by simp [JumpModel])
  | .combined ms, h, he => linearAll_jump ms h he
  | .serial names vs pr mask ms, h, he => by
      rw [JumpModel] at h
      obtain ⟨a, b, c, e⟩ := h
      rw [entries] at he
      have hs : ∀ v ∈ vs, ∃ c, v = .scalar c := by
        intro v hv
        rw [← List.map_snd_zip (l₁ := names) (l₂ := vs) (by omega)] at hv
        obtain ⟨q, hq, rfl⟩ := List.mem_map.1 hv
        exact he q (List.mem_append_right _ hq)
      exact ⟨hs, by omega, (linearAll_walk ms e fun e h => he e (List.mem_append_left _ h)).1⟩
theorem linearAll_jump : ∀ ms : List (TM K), JumpModelAll E ms → (∀ e ∈ entriesAll ms, ∃ c, e.2 = .scalar c) → LinearAll E ms
  | [], _, _ => trivial
  | m :: ms, h, he => by
      rw [entriesAll] at he
      exact ⟨linear_jump m h.1 fun e h => he e (List.mem_append_left _ h), linearAll_jump ms h.2 fun e h => he e (List.mem_append_right _ h)⟩
end

mutual
theorem walk_resetFree : ∀ tm : TM K, WalkModel E tm → ResetFree tm
  | .leaf k names vs pr, h => by
      cases k <;> first | trivial | exact absurd h (by simp [WalkModel])
  | .combined ms, h => walkAll_resetFree ms h
  | .serial names vs pr mask ms, h => by
      rw [WalkModel] at h
      exact ⟨h.2.1, walkAll_resetFree ms h.2.2.2⟩
theorem walkAll_resetFree : ∀ ms : List (TM K), WalkModelAll E ms → ResetFreeAll ms
  | [], _ => trivial
  | m :: ms, h => ⟨walk_resetFree m h.1, walkAll_resetFree ms h.2⟩
end

mutual
/-- every change-point brings one factor -/
theorem massOut_jump (R t : K) : ∀ (tm : TM K) (s : K), JumpModel E tm →
    massOut E R tm t s = if t ∈ jumpTimes tm then R * E.cell else s
  | .leaf k names vs pr, s, h => by
      cases k <;> simp [JumpModel] at h <;> simp [massOut, jumpTimes, Env.cell]
  | .combined ms, s, h => by
      rw [massOut, jumpTimes]
      exact massOutAll_jump R t ms s h
  | .serial names vs pr mask ms, s, h => by
      rw [JumpModel] at h
      rw [massOut, jumpTimes, massOutNth_resetFree ms (walkAll_resetFree ms h.2.2.2)]
      simp only [isChange_masked, Env.cell]
theorem massOutAll_jump (R t : K) : ∀ (ms : List (TM K)) (s : K), JumpModelAll E ms →
    massOutAll E R ms t s = if t ∈ jumpTimesAll ms then R * E.cell else s
  | [], s, _ => by simp [massOutAll, jumpTimesAll]
  | m :: ms, s, h => by
      rw [massOutAll, jumpTimesAll, massOut_jump R t m s h.1, massOutAll_jump R t ms _ h.2]
      by_cases h1 : t ∈ jumpTimes m <;> by_cases h2 : t ∈ jumpTimesAll ms <;> simp [h1, h2]
end

/-- the model of one combination -/
theorem modelAt_jump {tm : TM K} (h : JumpModel E tm) (hnd : ((entries tm).map (·.1)).Nodup) {row : List K} (hl : row.length = (entries tm).length) :
    JumpModel E (modelAt tm row) ∧ Linear E (modelAt tm row) ∧ (jumpTimes (modelAt tm row)).length = (changeNames tm).length ∧
    (jumpTimes (modelAt tm row)).Sublist (pointsOf tm row) ∧ jumpTimes (modelAt tm row) = changesOf tm row := by
  have h1 : JumpModel E (modelAt tm row) := jump_withValues _ tm h
  have hc : changeNames (modelAt tm row) = changeNames tm := changeNames_withValues _ tm
  have he := entries_modelAt hnd hl
  have hs : ∀ N : List String, (∀ n ∈ changeNames tm, n ∈ N) → (jumpTimes (modelAt tm row)).Sublist (((((entries tm).map (·.1)).zip row).filter fun e => decide (e.1 ∈ N)).map (·.2)) := by
    intro N hN
    have := jumpTimes_sublist N _ h1 (by rw [hc]; exact hN)
    rwa [he, vals_filter] at this
  have hlen : (jumpTimes (modelAt tm row)).length = (changeNames tm).length := by rw [jumpTimes_length _ h1, hc]
  refine ⟨h1, linear_jump _ h1 ?_, hlen, hs _ (changeNames_sub tm), (hs _ fun n hn => hn).eq_of_length_le ?_⟩
  · intro e hm
    rw [he] at hm
    obtain ⟨c, -, hc⟩ := List.mem_map.1 (List.of_mem_zip (show (e.1, e.2) ∈ _ from hm)).2
    exact ⟨c, hc.symm⟩
  · rw [hlen, List.length_map, ← List.length_map (f := (·.1))]
    have hsub : (((((entries tm).map (·.1)).zip row).filter fun e => decide (e.1 ∈ changeNames tm)).map (·.1)).Sublist ((entries tm).map (·.1)) := by
      have := (List.filter_sublist (p := fun e : String × K => decide (e.1 ∈ changeNames tm)) (l := ((entries tm).map (·.1)).zip row)).map (·.1)
      rwa [List.map_fst_zip (by simp [hl])] at this
    refine (List.subperm_of_subset (hnd.sublist hsub) ?_).length_le
    intro n hn
    obtain ⟨p, hp, rfl⟩ := List.mem_map.1 hn
    simpa using (List.mem_filter.1 hp).2

theorem comp_forgets {A B : Idx gs → Idx gs → K} (h : (∃ f : Idx gs → K, A = fun _ y => f y) ∨ ((∀ x, ∑ y, A x y = 1) ∧ ∃ f : Idx gs → K, B = fun _ y => f y)) : ∃ f : Idx gs → K, comp A B = fun _ y => f y := by
  rcases h with ⟨f, rfl⟩ | ⟨h1, f, rfl⟩
  · exact ⟨fun z => ∑ y, f y * B y z, rfl⟩
  · refine ⟨f, ?_⟩
    funext x z
    unfold comp
    rw [← Finset.sum_mul, h1, one_mul]

mutual
theorem kernel_forgets (hG : GaussOK E.ext) {π : Idx gs → K} (h1 : ∑ x, π x = 1) (t : K) : ∀ tm : TM K, JumpModel E tm → Linear E tm → t ∈ jumpTimes tm → ∃ f : Idx gs → K, kernel E π tm t = fun _ y => f y
  | .leaf k names vs pr, h, hL, ht => by
      cases k with
      | changePoint =>
          rw [jumpTimes, List.mem_singleton] at ht
          exact ⟨π, by rw [kernel, if_pos ht]; rfl⟩
      | _ => exact absurd ht (by simp [jumpTimes])
  | .combined ms, h, hL, ht => by
      rw [kernel]
      exact kernelAll_forgets hG h1 t ms h hL ht
  | .serial names vs pr mask ms, h, hL, ht => by
      rw [Linear] at hL
      rw [kernel, if_pos ((isChange_masked _ _ _).2 ht)]
      refine comp_forgets (.inr ⟨kernelNth_sum hG ms hL.2.2 (.inr h1) _ ?_ t, π, rfl⟩)
      have := breaksUpTo_le (vals vs) t
      rw [vals_length] at this
      omega
theorem kernelAll_forgets (hG : GaussOK E.ext) {π : Idx gs → K} (h1 : ∑ x, π x = 1) (t : K) : ∀ ms : List (TM K), JumpModelAll E ms → LinearAll E ms → t ∈ jumpTimesAll ms → ∃ f : Idx gs → K, kernelAll E π ms t = fun _ y => f y
  | [], _, _, ht => by simp [jumpTimesAll] at ht
  | m :: ms, h, hL, ht => by
      rw [LinearAll] at hL
      rw [kernelAll]
      rw [jumpTimesAll, List.mem_append] at ht
      exact comp_forgets (ht.imp (kernel_forgets hG h1 t m h.1 hL.1) fun ht => ⟨kernel_sum hG m hL.1 (.inr h1) t, kernelAll_forgets hG h1 t ms h.2 hL.2 ht⟩)
end

mutual
theorem kernel_nojump {π π' : Idx gs → K} (t : K) : ∀ tm : TM K, JumpModel E tm → t ∉ jumpTimes tm → kernel E π tm t = kernel E π' tm t
  | .leaf k names vs pr, h, ht => by
      cases k with
      | changePoint =>
          rw [jumpTimes, List.mem_singleton] at ht
          rw [kernel, kernel, if_neg ht, if_neg ht]
      | static => rfl
      | grw target => rfl
      | _ => exact absurd h (by simp [JumpModel])
  | .combined ms, h, ht => by
      rw [kernel, kernel]
      exact kernelAll_nojump t ms h ht
  | .serial names vs pr mask ms, h, ht => by
      rw [JumpModel] at h
      have : ¬ IsChange (vals vs) mask t := fun hc => ht ((isChange_masked _ _ _).1 hc)
      rw [kernel, kernel, if_neg this, if_neg this, kernelNth_fresh ms (walkAll_resetFree ms h.2.2.2)]
theorem kernelAll_nojump {π π' : Idx gs → K} (t : K) : ∀ ms : List (TM K), JumpModelAll E ms → t ∉ jumpTimesAll ms → kernelAll E π ms t = kernelAll E π' ms t
  | [], _, _ => rfl
  | m :: ms, h, ht => by
      rw [jumpTimesAll, List.mem_append, not_or] at ht
      rw [kernelAll, kernelAll, kernel_nojump t m h.1 ht.1, kernelAll_nojump t ms h.2 ht.2]
end

/-- **C126, meaning of the model.** For the combination `r` of hyper-parameter values, the distribution of the parameters after the transition at time `t` does not depend on the parameters before if `t` is a change-point of `r`; if `t` is
no change-point, the transition does not depend on the prior distribution of the parameters. -/
theorem C126_meaning (hG : GaussOK E.ext) {tm : TM K} (htm : JumpModel E tm) (hnd : ((entries tm).map (·.1)).Nodup) (r : List K) (hl : r.length = (entries tm).length)
    (π : Idx gs → K) (h1 : ∑ x, π x = 1) (t : K) :
    (t ∈ changesOf tm r → ∀ x x' y, kernel E π (modelAt tm r) t x y = kernel E π (modelAt tm r) t x' y) ∧
    (t ∉ changesOf tm r → ∀ π', kernel E π (modelAt tm r) t = kernel E π' (modelAt tm r) t) := by
  obtain ⟨s1, s2, -, -, s5⟩ := modelAt_jump htm hnd hl
  rw [← s5]
  refine ⟨fun ht x x' y => ?_, fun ht π' => kernel_nojump t _ s1 ht⟩
  obtain ⟨f, hf⟩ := kernel_forgets hG h1 t _ s1 s2 ht
  rw [hf]

/-- Modes in which the full fit reports the evidence of its forward pass (C08). -/
def JumpMode (I : FitIn K gs) (S : FitState K gs) {n : ℕ} (τ : Fin (n + 1) → K) : Prop :=
  I.evidenceOnly = true ∨ I.forwardOnly = true ∨ (S.prior = .none ∧ ∀ i : Fin n, τ i.succ = τ i.castSucc + 1)

/-- evidence of one combination -/
theorem single_jumps (I : FitIn K gs) (tm : TM K) (S : FitState K gs) (hE : Regular I.E) (htm : JumpModel I.E tm) (hnd : ((entries tm).map (·.1)).Nodup)
    (π : Idx gs → K) (hp : PriorMass I.E.cell S.prior π) (hprior : S.prior = .none ∨ ∃ v, S.prior = .func v) {n : ℕ} (τ : Fin (n + 1) → K)
    (hτ : StrictMono τ) (hts : I.ts = List.ofFn τ) (L : Fin (n + 1) → Idx gs → K) (hls : I.liks = List.ofFn L) (hL0 : ∀ i x, 0 ≤ L i x)
    (hmode : JumpMode I S τ) {row : List K} (hl : row.length = (entries tm).length) (ho : InOrder tm row)
    (hv : ∀ p ∈ ((entries tm).map (·.1)).zip row, p.1 ∈ changeNames tm → ∃ i : Fin n, p.2 = τ i.castSucc) :
    ∃ A, singleFit I tm S row = .ok A ∧ A.logEv.exp = rowEvidence I.E π tm τ L row * I.E.cell ^ (changeNames tm).length := by
  obtain ⟨s1, s2, s3, s4, s5⟩ := modelAt_jump htm hnd hl
  unfold singleFit
  rw [hls, hts]
  have := hE.nonempty
  have hno : (jumpTimes (modelAt tm row)).Nodup := (ho.imp fun h => h.ne : (pointsOf tm row).Nodup).sublist s4
  have hmass : ∏ i : Fin n, massOut I.E 1 (modelAt tm row) (τ i.castSucc) 1 = I.E.cell ^ (changeNames tm).length := by
    rw [← s3, ← mass_steps hno τ hτ (fun c hc => by
      rw [s5] at hc
      obtain ⟨p, hp, rfl⟩ := List.mem_map.1 hc
      exact hv p (List.mem_filter.1 hp).1 (by simpa using (List.mem_filter.1 hp).2)) I.E.cell]
    refine Finset.prod_congr rfl fun i _ => ?_
    rw [massOut_jump _ _ _ _ s1, one_mul]
  rw [← hmass]
  by_cases hm : I.evidenceOnly = true ∨ I.forwardOnly = true
  · exact C02_exact_factor I.E I.grid _ hE s2 S π hp hprior L hL0 τ I.forwardOnly I.evidenceOnly hm
  · have hfo : I.forwardOnly = false := by simpa using fun h => hm (.inr h)
    have heo : I.evidenceOnly = false := by simpa using fun h => hm (.inl h)
    obtain ⟨S2, f2, e2⟩ := C02_exact_factor I.E I.grid _ hE s2 S π hp hprior L hL0 τ true false (Or.inr rfl)
    rcases hmode with hm | hm | ⟨m1, m2⟩
    · rw [hm] at heo; simp at heo
    · rw [hm] at hfo; simp at hfo
    · obtain ⟨Sa, Sb, Sc, fa, fb, -, e, -⟩ := C08_partial I.E I.grid (modelAt tm row) hE s2 S π hp (.inr m1) L hL0 τ m2
      rw [fb] at f2
      cases f2
      exact ⟨Sa, by rw [hfo, heo]; exact fa, by rw [e, e2]; rfl⟩

/-- candidates of change-points -/
theorem rows_changes {tm : TM K} {ts : List K} {g : HyperGrid K} (hp : Proper tm) (hg : createHyperGrid tm ts = .ok g) {P : K → Prop}
    (h : ∀ e ∈ entries tm, e.1 ∈ changeNames tm → ∀ c ∈ valuesOf ts e.2, P c) : ∀ r ∈ g.rows, ∀ p ∈ ((entries tm).map (·.1)).zip r, p.1 ∈ changeNames tm → P p.2 := by
  intro r hr p hm hc
  obtain ⟨-, -, -, e4⟩ := createHyperGrid_eq hp hg
  rw [e4] at hr
  split at hr
  · simp at hr
  · rw [cart_mem] at hr
    obtain ⟨k, hk, rfl⟩ := List.getElem_of_mem hm
    have hk1 : k < (entries tm).length := by simp at hk; omega
    have hk2 : k < r.length := by simp at hk; omega
    have hk3 : k < (axes tm ts).length := hr.length_eq ▸ hk2
    have := (List.forall₂_iff_get.1 hr).2 k hk2 hk3
    simp only [axes, List.get_eq_getElem, List.getElem_map] at this
    simp only [List.getElem_zip, List.getElem_map] at hc ⊢
    exact h _ (List.getElem_mem _) hc _ this

theorem overInOrder_mul (tm : TM K) (rows : List (List K)) (ps : List K) (f : List K → K) (κ : K) :
    overInOrder tm rows ps (fun r => f r * κ) = overInOrder tm rows ps f * κ := by
  unfold overInOrder
  rw [← List.sum_map_mul_right]
  congr 1
  exact List.map_congr_left fun q _ => by ring

/-- **C126 (what is proved).** Consider a change-point study whose transition model contains change-points together with Gaussian random walks and structural breaks (`JumpModel`), e.g. a random walk combined with a change-point, or random walks in series
that are separated by change-points; standard deviations of random walks may be uncertain as well.  Let the time stamps increase, let every candidate value of every change-point be a time stamp other than the last (`'all'` stands for all of them, `all_candidates`), let more than one combination
of hyper-parameter values be in order, let the prior of the parameters be the default or a function with probabilities `π`, and let the evidence reported be non-zero.  Then the distribution stored by `fit` gives every combination in order the
posterior probability of Bayes' theorem: prior probability times the probability of the data (a sum over all parameter paths) divided by the sum of these products; combinations not in order get zero.  The evidence reported is the average of the probability of the data
over the combinations in order, times `ps.sum * g.hgc.prod` (one if the prior of the hyper-parameters is normalised, C27), times the volume of a grid cell for every change-point (C02).  Not covered: priors given as array or random variables, full fits with a prior given as function or with time stamps not one unit
apart (C08), change-points within the sub-models of a serial model. -/
theorem C126_partial (I : FitIn K gs) (nJobs : ℕ) (H : HState K gs) (C : CState K gs) (g : HyperGrid K) (ps : List K) (hb : Built H.tm)
    (hsp : " " ∉ (entries H.tm).map (·.1)) (htm : JumpModel I.E H.tm) (hE : Regular I.E)
    (π : Idx gs → K) (hp : PriorMass I.E.cell H.S.prior π) (hprior : H.S.prior = .none ∨ ∃ v, H.S.prior = .func v)
    {n : ℕ} (τ : Fin (n + 1) → K) (hτ : StrictMono τ) (hts : I.ts = List.ofFn τ)
    (L : Fin (n + 1) → Idx gs → K) (hls : I.liks = List.ofFn L) (hL0 : ∀ i x, 0 ≤ L i x) (hmode : JumpMode I H.S τ)
    (hg : createHyperGrid H.tm I.ts = .ok g) (hps : g.priors = some ps) (hnn : ∀ p ∈ ps, 0 ≤ p)
    (hv : ∀ e ∈ entries H.tm, e.1 ∈ changeNames H.tm → ∀ c ∈ valuesOf I.ts e.2, ∃ i : Fin n, c = τ i.castSucc)
    (hr : 1 < (g.rows.filter fun r => decide (InOrder H.tm r)).length)
    (h : cpFit I nJobs H = .ok (some C)) (hpos : C.R.S.logEv ≠ LogV.ninf) :
    (∃ D, C.R.hpd = some D ∧ D.length = g.rows.length ∧ D.map (· * g.hgc.prod) = (g.rows.zip ps).map fun q =>
      if InOrder H.tm q.1 then q.2 * rowEvidence I.E π H.tm τ L q.1 / overInOrder H.tm g.rows ps (rowEvidence I.E π H.tm τ L) else 0) ∧
    C.R.S.logEv.exp = I.E.cell ^ (changeNames H.tm).length * (ps.sum * g.hgc.prod) * overInOrder H.tm g.rows ps (rowEvidence I.E π H.tm τ L) /
      (((g.rows.zip ps).filter fun q => decide (InOrder H.tm q.1)).map (·.2)).sum := by
  have hpr := (Built.matched hb).proper
  have hnd := cpFit_nodup hpr hg h
  have hlen := rows_length hpr hg
  have hv := rows_changes hpr hg hv
  have hn : H.S.prior.isArray = false := by rcases hprior with h | ⟨v, h⟩ <;> rw [h] <;> rfl
  have hκ : I.E.cell ^ (changeNames H.tm).length ≠ 0 := pow_ne_zero _ (Finset.prod_pos fun a _ => hE.lattice_pos a).ne'
  generalize hκd : I.E.cell ^ (changeNames H.tm).length = κ at hκ
  obtain ⟨⟨D, d1, d2, d3⟩, h2, -⟩ := cp_exact I nJobs H C g ps hb hsp hE hn hg hps hnn hr h hpos (fun r => rowEvidence I.E π H.tm τ L r * κ)
    fun r hr ho A hA => by
      obtain ⟨A', a1, a2⟩ := single_jumps I H.tm H.S hE htm hnd π hp hprior τ hτ hts L hls hL0 hmode (hlen r hr) ho (hv r hr)
      rw [hA] at a1
      cases a1
      rw [a2, hκd]
  rw [overInOrder_mul] at d3 h2
  refine ⟨⟨D, d1, d2, ?_⟩, ?_⟩
  · rw [d3]
    refine List.map_congr_left fun q _ => ?_
    rw [← mul_assoc, mul_div_mul_right _ _ hκ]
  · rw [h2]
    ring

/-- **C126, parameter estimates.** In the same setting, after a full fit with the default prior and time stamps one unit apart, the posterior distribution stored for every time step sums to one and differs by at most `ε` (the code's `10^-300`) times the
number of grid points from the exact one, which averages the posterior distributions for given hyper-parameter values with the posterior probabilities of the combinations in order; the reported mean values are the means of the stored distributions. -/
theorem C126_average_partial (I : FitIn K gs) (nJobs : ℕ) (H : HState K gs) (C : CState K gs) (g : HyperGrid K) (ps : List K) (hb : Built H.tm)
    (hsp : " " ∉ (entries H.tm).map (·.1)) (htm : JumpModel I.E H.tm) (hE : Regular I.E)
    (π : Idx gs → K) (hp : PriorMass I.E.cell H.S.prior π) (hprior : H.S.prior = .none)
    {n : ℕ} (τ : Fin (n + 1) → K) (hU : ∀ i : Fin n, τ i.succ = τ i.castSucc + 1) (hts : I.ts = List.ofFn τ)
    (L : Fin (n + 1) → Idx gs → K) (hls : I.liks = List.ofFn L) (hL0 : ∀ i x, 0 ≤ L i x)
    (hfo : I.forwardOnly = false) (heo : I.evidenceOnly = false) (hε : 0 < I.ε)
    (hg : createHyperGrid H.tm I.ts = .ok g) (hps : g.priors = some ps) (hnn : ∀ p ∈ ps, 0 ≤ p)
    (hv : ∀ e ∈ entries H.tm, e.1 ∈ changeNames H.tm → ∀ c ∈ valuesOf I.ts e.2, ∃ i : Fin n, c = τ i.castSucc)
    (hr : 1 < (g.rows.filter fun r => decide (InOrder H.tm r)).length)
    (h : cpFit I nJobs H = .ok (some C)) (hpos : C.R.S.logEv ≠ LogV.ninf) :
    ∃ P : Fin (n + 1) → Idx gs → K, C.R.S.posts = List.ofFn (fun i => .val (P i)) ∧
      (∀ a, C.R.S.means a = List.ofFn fun i => ∑ x, P i x * I.grid a (x a)) ∧ ∀ i, ∑ x, P i x = 1 ∧ ∀ x,
        |P i x - overInOrder H.tm g.rows ps (fun r => rowEvidence I.E π H.tm τ L r * rowPosterior I.E π H.tm τ L r i x) /
          overInOrder H.tm g.rows ps (rowEvidence I.E π H.tm τ L)| ≤ (Fintype.card (Idx gs) : K) * I.ε := by
  have := hE.nonempty
  have hpr := (Built.matched hb).proper
  have hnd := cpFit_nodup hpr hg h
  have hlen := rows_length hpr hg
  have hv := rows_changes hpr hg hv
  have hτ : StrictMono τ := Fin.strictMono_iff_lt_succ.2 fun i => by rw [hU i]; linarith
  have hπ0 : ∀ x, 0 ≤ π x := priorMass_nonneg (Finset.prod_pos fun a _ => hE.lattice_pos a) hp
  have hκ : I.E.cell ^ (changeNames H.tm).length ≠ 0 := pow_ne_zero _ (Finset.prod_pos fun a _ => hE.lattice_pos a).ne'
  generalize hκd : I.E.cell ^ (changeNames H.tm).length = κ at hκ
  obtain ⟨-, -, h3⟩ := cp_exact I nJobs H C g ps hb hsp hE (by rw [hprior]; rfl) hg hps hnn hr h hpos (fun r => rowEvidence I.E π H.tm τ L r * κ)
    fun r hr ho A hA => by
      obtain ⟨A', a1, a2⟩ := single_jumps I H.tm H.S hE htm hnd π hp (.inl hprior) τ hτ hts L hls hL0 (.inr (.inr ⟨hprior, hU⟩)) (hlen r hr) ho (hv r hr)
      rw [hA] at a1
      cases a1
      rw [a2, hκd]
  obtain ⟨P, p1, p2, p3⟩ := h3 heo hε (n + 1) (by rw [hls, List.length_ofFn]) (rowPosterior I.E π H.tm τ L) (by
    intro r hr _ A hA h0 i
    have h0 := left_ne_zero_of_mul h0
    obtain ⟨-, w1, -⟩ := modelAt_jump htm hnd (hlen r hr)
    obtain ⟨q1, q2⟩ := posterior_dist I.E hE.gauss π hπ0 τ L hL0 h0 i
    refine ⟨q1, q2, fun x => ?_⟩
    obtain ⟨S', f1, f2⟩ := C04_smoothing I.E I.grid _ hE w1 H.S π hp (.inr hprior) L hL0 τ hU h0
    unfold singleFit at hA
    rw [hls, hts, hfo, heo, f1] at hA
    cases hA
    unfold postOf
    rw [f2, List.getElem?_ofFn, dif_pos i.2]
    rfl)
  refine ⟨P, p1, p2, fun i => ⟨(p3 i).1, fun x => ?_⟩⟩
  have := (p3 i).2 x
  have e : ∀ r, rowEvidence I.E π H.tm τ L r * κ * rowPosterior I.E π H.tm τ L r i x = rowEvidence I.E π H.tm τ L r * rowPosterior I.E π H.tm τ L r i x * κ := fun r => by ring
  simp only [e] at this
  rwa [overInOrder_mul, overInOrder_mul, mul_div_mul_right _ _ hκ] at this

/-- **C126, one hyper-parameter.** In the setting of `C126_partial`, the query for the distribution of one hyper-parameter (time of a change-point or structural break, standard deviation of a random walk) returns its grid values and for every
value its posterior probability: the sum over the combinations in order with this value, divided by the sum over all combinations in order, of prior probability times probability of the data. -/
theorem C126_query_partial (I : FitIn K gs) (nJobs : ℕ) (H : HState K gs) (C : CState K gs) (g : HyperGrid K) (ps : List K) (hb : Built H.tm)
    (hsp : " " ∉ (entries H.tm).map (·.1)) (htm : JumpModel I.E H.tm) (hE : Regular I.E)
    (π : Idx gs → K) (hp : PriorMass I.E.cell H.S.prior π) (hprior : H.S.prior = .none ∨ ∃ v, H.S.prior = .func v)
    {n : ℕ} (τ : Fin (n + 1) → K) (hτ : StrictMono τ) (hts : I.ts = List.ofFn τ)
    (L : Fin (n + 1) → Idx gs → K) (hls : I.liks = List.ofFn L) (hL0 : ∀ i x, 0 ≤ L i x) (hmode : JumpMode I H.S τ)
    (hg : createHyperGrid H.tm I.ts = .ok g) (hps : g.priors = some ps) (hnn : ∀ p ∈ ps, 0 ≤ p)
    (hv : ∀ e ∈ entries H.tm, e.1 ∈ changeNames H.tm → ∀ c ∈ valuesOf I.ts e.2, ∃ i : Fin n, c = τ i.castSucc)
    (hr : 1 < (g.rows.filter fun r => decide (InOrder H.tm r)).length)
    (h : cpFit I nJobs H = .ok (some C)) (hpos : C.R.S.logEv ≠ LogV.ninf) (name : String) (v : HVal K) (a : ℕ)
    (he : (entries H.tm)[a]? = some (name, v)) (hvn : (valuesOf I.ts v).Nodup) :
    ∃ D D' A, C.R.hpd = some D ∧ getHPD C.R.tm C.grid D name = (D', .ok (expandAll I.ts v, A)) ∧
      A.flat = (valuesOf I.ts v).map fun t =>
        overInOrder H.tm g.rows ps (fun r => if r[a]? = some t then rowEvidence I.E π H.tm τ L r else 0) / overInOrder H.tm g.rows ps (rowEvidence I.E π H.tm τ L) := by
  obtain ⟨⟨D, d1, d2, d3⟩, -⟩ := C126_partial I nJobs H C g ps hb hsp htm hE π hp hprior τ hτ hts L hls hL0 hmode hg hps hnn hv hr h hpos
  have hn : H.S.prior.isArray = false := by rcases hprior with h | ⟨v, h⟩ <;> rw [h] <;> rfl
  have hpr := (Built.matched hb).proper
  have hnd := cpFit_nodup hpr hg h
  obtain ⟨As, qs, hpd, c1, c2, c3, c4, c5, c6, c7, c8, c9, c10, c11, c12, c13, c14⟩ := cpFit_spec I nJobs H C g ps hb hsp hn hg hps hr h
  obtain ⟨g1, g2, g3⟩ := cpFit_grid hg h
  have hr2 : 2 ≤ g.rows.length := le_trans hr (List.length_filter_le _ _)
  obtain ⟨D', A, a1, a2, -, -⟩ := C34 H.tm I.ts g D name v a hpr hnd hg hr2 d2 he hvn
  refine ⟨D, D', A, d1, ?_, ?_⟩
  · rw [← a1]
    unfold getHPD TM.hyperIndex marginalise
    have x1 : ¬ (g.rows.filter fun r => decide (InOrder H.tm r)).length < 2 := by omega
    have x2 : ¬ g.rows.length < 2 := by omega
    rw [g1, g2, g3, c14, c2, if_neg x1, if_neg x2]
  · rw [a2]
    refine List.map_congr_left fun t _ => ?_
    rw [← pick_total_order H.tm g.rows ps D g.hgc.prod _ (rowEvidence I.E π H.tm τ L) c6 d3 (fun r => r[a]? = some t), probOf, List.zip_map_right, List.filter_map, List.map_map]
    rfl

/-- **C126, durations.** In the setting of `C126_partial`, the query for the distribution of the time between two change-points or structural breaks returns all distances that occur in a combination in order, in increasing order, and for every distance
its posterior probability.  With three and more change-points or structural breaks the query may raise an exception instead (`C39_refuted`). -/
theorem C126_duration_partial (I : FitIn K gs) (nJobs : ℕ) (H : HState K gs) (C : CState K gs) (g : HyperGrid K) (ps : List K) (hb : Built H.tm)
    (hsp : " " ∉ (entries H.tm).map (·.1)) (htm : JumpModel I.E H.tm) (hE : Regular I.E)
    (π : Idx gs → K) (hp : PriorMass I.E.cell H.S.prior π) (hprior : H.S.prior = .none ∨ ∃ v, H.S.prior = .func v)
    {n : ℕ} (τ : Fin (n + 1) → K) (hτ : StrictMono τ) (hts : I.ts = List.ofFn τ)
    (L : Fin (n + 1) → Idx gs → K) (hls : I.liks = List.ofFn L) (hL0 : ∀ i x, 0 ≤ L i x) (hmode : JumpMode I H.S τ)
    (hg : createHyperGrid H.tm I.ts = .ok g) (hps : g.priors = some ps) (hnn : ∀ p ∈ ps, 0 ≤ p)
    (hv : ∀ e ∈ entries H.tm, e.1 ∈ changeNames H.tm → ∀ c ∈ valuesOf I.ts e.2, ∃ i : Fin n, c = τ i.castSucc)
    (hr : 1 < (g.rows.filter fun r => decide (InOrder H.tm r)).length)
    (h : cpFit I nJobs H = .ok (some C)) (hpos : C.R.S.logEv ≠ LogV.ninf) (n1 n2 : String) (hn1 : n1 ∈ pointNames H.tm) (hn2 : n2 ∈ pointNames H.tm) (hne : n1 ≠ n2) :
    ∃ D dur pr, C.R.hpd = some D ∧ dur.Pairwise (· < ·) ∧ (∀ δ, δ ∈ dur ↔ ∃ row ∈ g.rows, InOrder H.tm row ∧ distance H.tm n1 n2 row = δ) ∧
      pr = dur.map (fun δ => overInOrder H.tm g.rows ps (fun r => if distance H.tm n1 n2 r = δ then rowEvidence I.E π H.tm τ L r else 0) /
        overInOrder H.tm g.rows ps (rowEvidence I.E π H.tm τ L)) ∧
      (getDD C D [n1, n2] = .ok (dur, some pr) ∨ getDD C D [n1, n2] = .error .indexError) ∧
      ((∀ n ∈ pointNames H.tm, n = n1 ∨ n = n2) → getDD C D [n1, n2] = .ok (dur, some pr)) := by
  obtain ⟨⟨D, d1, d2, d3⟩, -⟩ := C126_partial I nJobs H C g ps hb hsp htm hE π hp hprior τ hτ hts L hls hL0 hmode hg hps hnn hv hr h hpos
  have hn : H.S.prior.isArray = false := by rcases hprior with h | ⟨v, h⟩ <;> rw [h] <;> rfl
  obtain ⟨As, qs, hpd, c1, c2, c3, c4, c5, c6, -⟩ := cpFit_spec I nJobs H C g ps hb hsp hn hg hps hr h
  obtain ⟨D0, dur, pr, e1, e2, e3, e4, e5, e6, e7⟩ := C39_partial I nJobs H C g ps hb hsp hn (Finset.prod_pos fun a _ => hE.lattice_pos a).le hg hps hnn hr h hpos n1 n2 hn1 hn2 hne
  rw [d1] at e1
  cases e1
  refine ⟨D, dur, pr, d1, e2, e3, ?_, e6, e7⟩
  rw [e4]
  refine List.map_congr_left fun δ _ => ?_
  exact pick_total_order H.tm g.rows ps D g.hgc.prod _ (rowEvidence I.E π H.tm τ L) c6 d3 (fun r => distance H.tm n1 n2 r = δ)

end jump

section calibration
variable {d : ℕ} {gs : Fin d → ℕ} {Y : Type}

/-- **C126, calibration.** A combination of hyper-parameter values (times of change-points and structural breaks, standard deviations of random walks) is drawn from the prior distribution of the study, given that change-points and breaks are in order; then a parameter path
from prior and transition model with these values; then the data.  The distribution of the combinations that the change-point study reports is calibrated.  The setting is that of `C126_partial`.  After a full fit with default prior and time stamps one unit apart, the averaged posterior probabilities and
mean values are, up to the floor `ε`, the conditional probabilities and expectations given all data. -/
theorem C126_calibrated_partial {Ω : Type} [MeasurableSpace Ω] [MeasurableSpace Y] (E : Env ℝ gs) (grid : (a : Fin d) → Fin (gs a) → ℝ) (nJobs : ℕ) (H : HState ℝ gs) (g : HyperGrid ℝ) (ps : List ℝ) (hb : Built H.tm)
    (hsp : " " ∉ (entries H.tm).map (·.1)) (htm : JumpModel E H.tm) (hE : Regular E) (π : Idx gs → ℝ) (hp : PriorMass E.cell H.S.prior π) (hprior : H.S.prior = .none ∨ ∃ v, H.S.prior = .func v)
    {n : ℕ} (τ : Fin (n + 1) → ℝ) (hτ : StrictMono τ) (hg : createHyperGrid H.tm (List.ofFn τ) = .ok g) (hps : g.priors = some ps) (hnn : ∀ p ∈ ps, 0 ≤ p)
    (hv : ∀ e ∈ entries H.tm, e.1 ∈ changeNames H.tm → ∀ c ∈ valuesOf (List.ofFn τ) e.2, ∃ i : Fin n, c = τ i.castSucc)
    (hr : 1 < (g.rows.filter fun r => decide (InOrder H.tm r)).length) (μ : Measure Y) [SigmaFinite μ] (q : Idx gs → Y → ℝ) (hq : ∀ x, Measurable (q x)) (hq0 : ∀ x y, 0 ≤ q x y) (hqi : ∀ x, Integrable (q x) μ)
    (fo eo : Bool) (ε : ℝ) (hmode : eo = true ∨ fo = true ∨ (H.S.prior = .none ∧ ∀ i : Fin n, τ i.succ = τ i.castSucc + 1))
    (hok : ∃ (y : Fin (n + 1) → Y) (C : CState ℝ gs), cpFit ⟨E, grid, List.ofFn fun i x => q x (y i), List.ofFn τ, fo, eo, ε⟩ nJobs H = .ok (some C))
    (P : Measure Ω) [IsProbabilityMeasure P] (J : Ω → Fin g.rows.length) (Z : Ω → Fin (n + 1) → Idx gs) (X : Ω → Fin (n + 1) → Y)
    (hD : HyperDraws P J Z X (orderedPrior H.tm g ps) π (fun j i => kernel E π (modelAt H.tm g.rows[j]) (τ i.castSucc)) fun x => μ.withDensity fun y => ENNReal.ofReal (q x y)) :
    (Calibrated P J X fun ω => changeProbIn (cpFit ⟨E, grid, List.ofFn fun i x => q x (X ω i), List.ofFn τ, fo, eo, ε⟩ nJobs H) g) ∧
    (H.S.prior = .none → (∀ i : Fin n, τ i.succ = τ i.castSucc + 1) → fo = false → eo = false → 0 < ε → ∀ k : Fin (n + 1),
      (∀ A : Finset (Idx gs), ∀ᵐ ω ∂P, |probIn (changeAveraged (cpFit ⟨E, grid, List.ofFn fun i x => q x (X ω i), List.ofFn τ, fo, eo, ε⟩ nJobs H)) k A -
        (P[{ω | Z ω k ∈ A}.indicator fun _ => (1 : ℝ) | MeasurableSpace.comap X inferInstance]) ω| ≤ A.card * (Fintype.card (Idx gs) * ε)) ∧
      ∀ a, ∀ᵐ ω ∂P, |meanAt (changeAveraged (cpFit ⟨E, grid, List.ofFn fun i x => q x (X ω i), List.ofFn τ, fo, eo, ε⟩ nJobs H)) k a -
        (P[fun ω => grid a (Z ω k a) | MeasurableSpace.comap X inferInstance]) ω| ≤ (∑ x : Idx gs, |grid a (x a)|) * (Fintype.card (Idx gs) * ε)) := by
  have := hE.nonempty
  have hpr := (Built.matched hb).proper
  have hcell := cell_pos hE.lattice_pos
  have hπ : ∀ x, 0 ≤ π x := priorMass_nonneg hcell hp
  have hlen := rows_length hpr hg
  have hρ0 := orderedPrior_nonneg (tm := H.tm) (g := g) hnn (hgc_nonneg hpr hg)
  obtain ⟨L, hLdef⟩ : ∃ L : (Fin (n + 1) → Y) → Fin (n + 1) → Idx gs → ℝ, L = fun y i x => q x (y i) := ⟨_, rfl⟩
  obtain ⟨I, hI⟩ : ∃ I : (Fin (n + 1) → Y) → FitIn ℝ gs, I = fun y => ⟨E, grid, List.ofFn (L y), List.ofFn τ, fo, eo, ε⟩ := ⟨_, rfl⟩
  have hIE : ∀ y, (⟨E, grid, List.ofFn fun i x => q x (y i), List.ofFn τ, fo, eo, ε⟩ : FitIn ℝ gs) = I y := fun y => by rw [hI, hLdef]
  have hL0 : ∀ y i x, 0 ≤ L y i x := fun y i x => by rw [hLdef]; exact hq0 _ _
  simp only [hIE] at hok ⊢
  have hnd : ((entries H.tm).map (·.1)).Nodup := by
    obtain ⟨y, C, hC⟩ := hok
    exact cpFit_nodup hpr (by rw [hI]; exact hg) hC
  have hn : H.S.prior.isArray = false := by rcases hprior with h | ⟨v, h⟩ <;> rw [h] <;> rfl
  have hrc := rows_changes hpr hg hv
  have hX : Exactly I nJobs H g ps (fun y r => rowEvidence E π H.tm τ (L y) r) (E.cell ^ (changeNames H.tm).length) := by
    refine ⟨hb, hsp, fun y => by rw [hI]; exact hE, hn, fun y => by rw [hI]; exact hg, hps, hnn, hr, hok, pow_ne_zero _ hcell.ne', fun y r hr1 hr2 => ?_⟩
    rw [hI]
    exact single_jumps ⟨E, grid, List.ofFn (L y), List.ofFn τ, fo, eo, ε⟩ H.tm H.S hE htm hnd π hp hprior τ hτ rfl (L y) rfl (hL0 y) hmode (hlen r hr1) hr2 (hrc r hr1)
  have hts : ∀ y y', (I y).ts = (I y').ts := fun y y' => by rw [hI]
  obtain ⟨T, hTdef⟩ : ∃ T : Fin g.rows.length → Fin n → Idx gs → Idx gs → ℝ, T = fun j i => kernel E π (modelAt H.tm g.rows[j]) (τ i.castSucc) := ⟨_, rfl⟩
  have hT0 : ∀ j i x y, 0 ≤ T j i x y := fun j i x y => by
    rw [hTdef]
    exact kernel_nonneg hE.gauss _ (.inr hπ) _ _ _
  have hJ : Joint P (fun ω => (J ω, Z ω)) X (Measure.pi fun _ => μ) fun jz y => orderedPrior H.tm g ps jz.1 * pathWeight π (T jz.1) (L y) jz.2 := by
    rw [hLdef]
    exact joint_of_hyperDraws μ q hq hq0 hqi hρ0 hπ hT0 (hTdef ▸ hD)
  have hw : ∀ jz : Fin g.rows.length × (Fin (n + 1) → Idx gs), Measurable fun y => orderedPrior H.tm g ps jz.1 * pathWeight π (T jz.1) (L y) jz.2 := fun jz => by
    rw [hLdef]
    unfold pathWeight
    fun_prop
  have hpw : ∀ j z y, 0 ≤ pathWeight π (T j) (L y) z := fun j z y => mul_nonneg (mul_nonneg (hπ _) (Finset.prod_nonneg fun i _ => hT0 _ _ _ _)) (Finset.prod_nonneg fun i _ => hL0 _ _ _)
  have hw0 : ∀ (jz : Fin g.rows.length × (Fin (n + 1) → Idx gs)) y, 0 ≤ orderedPrior H.tm g ps jz.1 * pathWeight π (T jz.1) (L y) jz.2 := fun jz y => mul_nonneg (hρ0 _) (hpw _ _ _)
  have hsum : ∀ y (j : Fin g.rows.length), ∑ z, orderedPrior H.tm g ps j * pathWeight π (T j) (L y) z = orderedPrior H.tm g ps j * rowEvidence E π H.tm τ (L y) g.rows[j] := fun y j => by
    rw [← Finset.mul_sum, hTdef]
    rfl
  refine ⟨cp_calibrated hX hts hJ hw hw0 hsum, fun hpn hU hfo heo hε k => ?_⟩
  have hrow : ∀ y (j : Fin g.rows.length), rowEvidence E π H.tm τ (L y) g.rows[j] = evidence π (T j) (L y) ∧ ∀ x, rowPosterior E π H.tm τ (L y) g.rows[j] k x = posterior π (T j) (L y) k x := fun y j => by
    rw [hTdef]
    exact ⟨rfl, fun _ => rfl⟩
  refine cp_averaged hX hts hJ hw hw0 hsum k (fun jz => jz.2 k) (fun y r x => rowPosterior E π H.tm τ (L y) r k x) (fun y j f => ?_) fun y C hC hfin => ?_
  · simp only [mul_assoc]
    rw [← Finset.mul_sum]
    congr 1
    rw [(hrow y j).1]
    simp only [(hrow y j).2]
    rw [posterior_given]
    by_cases h0 : ∑ z, pathWeight π (T j) (L y) z = 0
    · have hz := (Finset.sum_eq_zero_iff_of_nonneg fun z _ => hpw j z y).1 h0
      rw [evidence, h0, zero_mul]
      exact Finset.sum_eq_zero fun z hz' => by rw [hz z hz', zero_mul]
    · rw [evidence, mul_div_cancel₀ _ h0]
  · obtain ⟨p, p1, p2, p3⟩ := C126_average_partial (I y) nJobs H C g ps hb hsp (by rw [hI]; exact htm) (by rw [hI]; exact hE) π (by rw [hI]; exact hp) hpn τ hU (by rw [hI]) (L y) (by rw [hI]) (hL0 y)
      (by rw [hI]; exact hfo) (by rw [hI]; exact heo) (by rw [hI]; exact hε) (by rw [hI]; exact hg) hps hnn (by rw [hI]; exact hv) hr hC hfin
    refine ⟨p, p1, fun a => by rw [p2, hI], fun x => ?_⟩
    have := (p3 k).2 x
    rw [hI] at this
    exact this

end calibration

end Props

namespace Ex
open BL Spec

/-- a static period, a change-point, a random walk with uncertain standard deviation, a structural break, another static period -/
def jmpArgs : List (TM ℚ) := [mkStatic, mkChangePoint "t1" (.list [0, 1]) (.item .none), .leaf (.grw "x") ["s"] [.array [0, 1]] (some (.item .none)),
  mkBreakPoint "t2" (.list [1, 2]) (.item .none), mkStatic]
/-- the model returned by the constructor -/
def jmpTM : TM ℚ := .serial ["t1", "t2"] [.array [0, 1], .array [1, 2]] [.item .none, .item .none] [true, false]
  [mkStatic, .leaf (.grw "x") ["s"] [.array [0, 1]] (some (.item .none)), mkStatic]
/-- study with a prior given as function -/
def jmpStudy : HState ℚ gs2 := ⟨jmpTM, S0 (.func (v2 1 2)), [], none⟩
/-- forward-only fit -/
def jmpFwd : FitIn ℚ gs2 := { brkFull with forwardOnly := true }
/-- a random walk with uncertain standard deviation and a change-point at any time -/
def jmpWalkTM : TM ℚ := .combined [.leaf (.grw "x") ["s"] [.array [0, 1]] (some (.item .none)), cpAll "t"]
/-- study with the default prior -/
def jmpWalk : HState ℚ gs2 := ⟨jmpWalkTM, S0 .none, [], none⟩

end Ex

namespace Props
open BL Spec

theorem Ex.jmp_built : Built Ex.jmpTM := by
  refine .serial (args := Ex.jmpArgs) ?_ rfl
  intro a ha hn
  simp only [Ex.jmpArgs, List.mem_cons, List.not_mem_nil, or_false] at ha
  rcases ha with rfl | rfl | rfl | rfl | rfl
  · exact .static
  · exact .changePoint (name := "t1") (value := .list [0, 1]) (prior := .item .none) trivial rfl
  · exact .grw (name := "s") (value := .list [0, 1]) (target := some "x") (prior := .item .none) rfl trivial rfl
  · exact absurd ⟨_, _, _, rfl, trivial, rfl⟩ hn
  · exact .static

theorem Ex.jmp_model : JumpModel Ex.jmpFwd.E Ex.jmpTM :=
  ⟨rfl, rfl, rfl, trivial, ⟨⟨0, Ex.axis_x _ _⟩, rfl, rfl⟩, trivial, trivial⟩

theorem Ex.jmpWalk_built : Built Ex.jmpWalkTM := by
  refine .combined (ms := [.leaf (.grw "x") ["s"] [.array [0, 1]] (some (.item .none)), Ex.cpAll "t"]) ?_ rfl
  intro a ha
  simp only [List.mem_cons, List.not_mem_nil, or_false] at ha
  rcases ha with rfl | rfl
  · exact .grw (name := "s") (value := .list [0, 1]) (target := some "x") (prior := .item .none) rfl trivial rfl
  · exact .changePoint (name := "t") (value := .val .all) (prior := .item .none) trivial rfl

theorem Ex.jmpWalk_model : JumpModel Ex.brkFull.E Ex.jmpWalkTM := ⟨⟨⟨0, Ex.axis_x _ _⟩, rfl, rfl⟩, ⟨rfl, rfl⟩, trivial⟩

/-- Concrete case: four data points, a change-point, a structural break and the standard deviation of a random walk uncertain, a prior that is not flat, grid cells of volume 2, forward-only fit.  Eight combinations, six of them in order; the
study returns, and the standard deviation and the duration of the random walk have the exact posterior probabilities; the evidence contains the factor 2 once. -/
example : ∃ g ps C D, createHyperGrid Ex.jmpTM Ex.jmpFwd.ts = .ok g ∧ g.priors = some ps ∧ g.rows.length = 8 ∧ (g.rows.filter fun r => decide (InOrder Ex.jmpTM r)).length = 6 ∧
    cpFit Ex.jmpFwd 1 Ex.jmpStudy = .ok (some C) ∧ C.R.hpd = some D ∧
    C.R.S.logEv.exp = 2 * (ps.sum * g.hgc.prod) * overInOrder Ex.jmpTM g.rows ps (rowEvidence Ex.jmpFwd.E Ex.brkPrior Ex.jmpTM Ex.brkTimes Ex.cpLik) /
      (((g.rows.zip ps).filter fun q => decide (InOrder Ex.jmpTM q.1)).map (·.2)).sum ∧
    (∃ D' A, getHPD C.R.tm C.grid D "s" = (D', .ok (.array [0, 1], A)) ∧ A.flat = [0, 1].map fun t : ℚ =>
      overInOrder Ex.jmpTM g.rows ps (fun r => if r[0]? = some t then rowEvidence Ex.jmpFwd.E Ex.brkPrior Ex.jmpTM Ex.brkTimes Ex.cpLik r else 0) /
        overInOrder Ex.jmpTM g.rows ps (rowEvidence Ex.jmpFwd.E Ex.brkPrior Ex.jmpTM Ex.brkTimes Ex.cpLik)) ∧
    ∃ dur pr, getDD C D ["t1", "t2"] = .ok (dur, some pr) ∧ pr = dur.map (fun δ =>
      overInOrder Ex.jmpTM g.rows ps (fun r => if distance Ex.jmpTM "t1" "t2" r = δ then rowEvidence Ex.jmpFwd.E Ex.brkPrior Ex.jmpTM Ex.brkTimes Ex.cpLik r else 0) /
        overInOrder Ex.jmpTM g.rows ps (rowEvidence Ex.jmpFwd.E Ex.brkPrior Ex.jmpTM Ex.brkTimes Ex.cpLik)) := by
  obtain ⟨C, h1, h2⟩ := Ex.CpOk_iff.1 (show Ex.CpOk (cpFit Ex.jmpFwd 1 Ex.jmpStudy) (fun C => decide (C.R.S.logEv.exp ≠ 0)) = true by decide +kernel)
  have hf : ∀ g, createHyperGrid Ex.jmpTM Ex.jmpFwd.ts = .ok g → g.rows.length = 8 ∧ (g.rows.filter fun r => decide (InOrder Ex.jmpTM r)).length = 6 := by
    intro g hg
    cases hg
    decide +kernel
  have hps : ∀ g, createHyperGrid Ex.jmpTM Ex.jmpFwd.ts = .ok g → ∃ ps, g.priors = some ps ∧ ∀ p ∈ ps, 0 ≤ p := by
    intro g hg
    cases hg
    exact ⟨List.replicate 8 (1 / 8), by decide +kernel, by decide +kernel⟩
  obtain ⟨g, hg⟩ : ∃ g, createHyperGrid Ex.jmpTM Ex.jmpFwd.ts = .ok g := ⟨_, rfl⟩
  have hpos : C.R.S.logEv ≠ LogV.ninf := fun h0 => (of_decide_eq_true h2) (by rw [h0]; rfl)
  obtain ⟨ps, hp1, hp2⟩ := hps g hg
  have hE : Regular Ex.jmpFwd.E := Ex.regular2 (by norm_num)
  have hpm : PriorMass Ex.jmpFwd.E.cell Ex.jmpStudy.S.prior Ex.brkPrior := .func _ (by decide +kernel) (by decide +kernel) (.inl (by decide +kernel))
  have hU : ∀ i : Fin 3, Ex.brkTimes i.succ = Ex.brkTimes i.castSucc + 1 := by decide +kernel
  have hτ : StrictMono Ex.brkTimes := Fin.strictMono_iff_lt_succ.2 fun i => by rw [hU i]; linarith
  have hr : 1 < (g.rows.filter fun r => decide (InOrder Ex.jmpStudy.tm r)).length := by
    have := (hf g hg).2
    change 1 < (g.rows.filter fun r => decide (InOrder Ex.jmpTM r)).length
    omega
  have hL0 : ∀ i x, 0 ≤ Ex.cpLik i x := fun i x => (Ex.cpLik_pos i x).le
  have hv : ∀ e ∈ entries Ex.jmpStudy.tm, e.1 ∈ changeNames Ex.jmpStudy.tm → ∀ c ∈ valuesOf Ex.jmpFwd.ts e.2, ∃ i : Fin 3, c = Ex.brkTimes i.castSucc := by
    intro e he hc
    have : e = ("s", .array [0, 1]) ∨ e = ("t1", .array [0, 1]) ∨ e = ("t2", .array [1, 2]) := by simpa [Ex.jmpStudy, Ex.jmpTM, mkStatic, entries, entriesAll] using he
    rcases this with rfl | rfl | rfl
    · exact absurd hc (by decide)
    · decide +kernel
    · exact absurd hc (by decide)
  obtain ⟨-, e2⟩ := C126_partial Ex.jmpFwd 1 Ex.jmpStudy C g ps Ex.jmp_built (by decide) Ex.jmp_model hE Ex.brkPrior hpm (.inr ⟨_, rfl⟩) Ex.brkTimes hτ rfl Ex.cpLik rfl hL0
    (.inr (.inl rfl)) hg hp1 hp2 hv hr h1 hpos
  obtain ⟨D, dur, pr, d1, d2, d3, d4, d5, d6⟩ := C126_duration_partial Ex.jmpFwd 1 Ex.jmpStudy C g ps Ex.jmp_built (by decide) Ex.jmp_model hE Ex.brkPrior hpm (.inr ⟨_, rfl⟩) Ex.brkTimes hτ rfl Ex.cpLik rfl hL0
    (.inr (.inl rfl)) hg hp1 hp2 hv hr h1 hpos "t1" "t2" (by decide) (by decide) (by decide)
  obtain ⟨D1, D', A, a1, a2, a3⟩ := C126_query_partial Ex.jmpFwd 1 Ex.jmpStudy C g ps Ex.jmp_built (by decide) Ex.jmp_model hE Ex.brkPrior hpm (.inr ⟨_, rfl⟩) Ex.brkTimes hτ rfl Ex.cpLik rfl hL0
    (.inr (.inl rfl)) hg hp1 hp2 hv hr h1 hpos "s" (.array [0, 1]) 0 rfl (by decide +kernel)
  rw [d1] at a1
  cases a1
  refine ⟨g, ps, C, D, hg, hp1, (hf g hg).1, (hf g hg).2, h1, d1, ?_, ⟨D', A, a2, a3⟩, dur, pr, d6 (by decide), d4⟩
  have hc : Ex.jmpFwd.E.cell ^ (changeNames Ex.jmpStudy.tm).length = 2 := by decide +kernel
  rw [e2, hc]
  rfl

/-- Concrete case: a random walk with uncertain standard deviation, combined with a change-point at any time step (full fit, default prior, grid cells of volume 2): six combinations, all in order. -/
example : ∃ g ps C, createHyperGrid Ex.jmpWalkTM Ex.brkFull.ts = .ok g ∧ g.priors = some ps ∧ g.rows.length = 6 ∧ cpFit Ex.brkFull 1 Ex.jmpWalk = .ok (some C) ∧
    ∃ P : Fin 4 → Idx Ex.gs2 → ℚ, C.R.S.posts = List.ofFn (fun i => .val (P i)) ∧ ∀ i, ∑ x, P i x = 1 ∧ ∀ x,
      |P i x - overInOrder Ex.jmpWalkTM g.rows ps (fun r => rowEvidence Ex.brkFull.E Ex.cpUniform Ex.jmpWalkTM Ex.brkTimes Ex.cpLik r * rowPosterior Ex.brkFull.E Ex.cpUniform Ex.jmpWalkTM Ex.brkTimes Ex.cpLik r i x) /
        overInOrder Ex.jmpWalkTM g.rows ps (rowEvidence Ex.brkFull.E Ex.cpUniform Ex.jmpWalkTM Ex.brkTimes Ex.cpLik)| ≤ (Fintype.card (Idx Ex.gs2) : ℚ) * (1 / 1000) := by
  obtain ⟨C, h1, h2⟩ := Ex.CpOk_iff.1 (show Ex.CpOk (cpFit Ex.brkFull 1 Ex.jmpWalk) (fun C => decide (C.R.S.logEv.exp ≠ 0)) = true by decide +kernel)
  have hf : ∀ g, createHyperGrid Ex.jmpWalkTM Ex.brkFull.ts = .ok g → g.rows.length = 6 ∧ (g.rows.filter fun r => decide (InOrder Ex.jmpWalkTM r)).length = 6 := by
    intro g hg
    cases hg
    decide +kernel
  have hps : ∀ g, createHyperGrid Ex.jmpWalkTM Ex.brkFull.ts = .ok g → ∃ ps, g.priors = some ps ∧ ∀ p ∈ ps, 0 ≤ p := by
    intro g hg
    cases hg
    exact ⟨List.replicate 6 (1 / 6), by decide +kernel, by decide +kernel⟩
  obtain ⟨g, hg⟩ : ∃ g, createHyperGrid Ex.jmpWalkTM Ex.brkFull.ts = .ok g := ⟨_, rfl⟩
  have hpos : C.R.S.logEv ≠ LogV.ninf := fun h0 => (of_decide_eq_true h2) (by rw [h0]; rfl)
  obtain ⟨ps, hp1, hp2⟩ := hps g hg
  have hU : ∀ i : Fin 3, Ex.brkTimes i.succ = Ex.brkTimes i.castSucc + 1 := by decide +kernel
  have hr : 1 < (g.rows.filter fun r => decide (InOrder Ex.jmpWalk.tm r)).length := by
    have := (hf g hg).2
    change 1 < (g.rows.filter fun r => decide (InOrder Ex.jmpWalkTM r)).length
    omega
  obtain ⟨P, q1, -, q3⟩ := C126_average_partial Ex.brkFull 1 Ex.jmpWalk C g ps Ex.jmpWalk_built (by decide) Ex.jmpWalk_model (Ex.regular2 (by norm_num)) Ex.cpUniform .flat rfl Ex.brkTimes hU rfl Ex.cpLik rfl
    (fun i x => (Ex.cpLik_pos i x).le) rfl rfl (show (0 : ℚ) < 1 / 1000 by norm_num) hg hp1 hp2 (by
      intro e he hc
      have : e = ("s", .array [0, 1]) ∨ e = ("t", .all) := by simpa [Ex.jmpWalk, Ex.jmpWalkTM, Ex.cpAll, entries, entriesAll] using he
      rcases this with rfl | rfl
      · exact absurd hc (by decide)
      · exact all_candidates Ex.brkTimes) hr h1 hpos
  exact ⟨g, ps, C, hg, hp1, (hf g hg).1, h1, P, q1, q3⟩

/-- Concrete case: in the combination `s = 1, t1 = 0, t2 = 2` the parameters are drawn afresh at time 0, and only then. -/
example : (∀ x x' y, kernel Ex.jmpFwd.E Ex.brkPrior (modelAt Ex.jmpTM [1, 0, 2]) 0 x y = kernel Ex.jmpFwd.E Ex.brkPrior (modelAt Ex.jmpTM [1, 0, 2]) 0 x' y) ∧
    ∀ π', kernel Ex.jmpFwd.E Ex.brkPrior (modelAt Ex.jmpTM [1, 0, 2]) 2 = kernel Ex.jmpFwd.E π' (modelAt Ex.jmpTM [1, 0, 2]) 2 :=
  have hE : Regular Ex.jmpFwd.E := Ex.regular2 (by norm_num)
  ⟨(C126_meaning hE.gauss Ex.jmp_model (by decide) [1, 0, 2] rfl Ex.brkPrior (by decide +kernel) 0).1 (by decide +kernel),
    (C126_meaning hE.gauss Ex.jmp_model (by decide) [1, 0, 2] rfl Ex.brkPrior (by decide +kernel) 2).2 (by decide +kernel)⟩

/-- a random walk with unknown standard deviation and a change-point -/
noncomputable def _root_.Ex.realJump : HState ℝ Ex.gs3 where
  tm := .combined [.leaf (.grw "x") ["s"] [.array [1, 2]] (some (.item .none)), .leaf .changePoint ["t"] [.array [0, 1]] (some (.item .none))]
  S := FitState.init .none
  evs := []
  hpd := none

/-- The hypotheses of `C126_calibrated_partial` are met: white noise whose standard deviation follows a random walk and jumps once. -/
example : ∃ (Ω : Type) (_ : MeasurableSpace Ω) (P : Measure Ω) (J : Ω → Fin Ex.realBreakGrid.rows.length) (X : Ω → Fin 3 → ℝ), IsProbabilityMeasure P ∧
    Calibrated P J X fun ω => changeProbIn (g := Ex.realBreakGrid)
      (cpFit ⟨Ex.realEnv, fun _ (i : Fin 3) => (i.val : ℝ) + 1, List.ofFn fun i x => normalDensity 0 ((x 0 : Fin 3).val + 1) (X ω i), List.ofFn ![0, 1, 2], false, false, 1 / 10 ^ 300⟩ 1 Ex.realJump) := by
  have := Ex.realEnv_regular.nonempty
  obtain ⟨g, hgdef⟩ : ∃ g : HyperGrid ℝ, g = Ex.realBreakGrid := ⟨_, rfl⟩
  have hg : createHyperGrid Ex.realJump.tm (List.ofFn ![0, 1, 2]) = .ok g := by rw [hgdef]; exact Ex.realBreak_grid _
  have hrows : g.rows.length = 4 := by rw [hgdef]; rfl
  have hb : Built Ex.realJump.tm := by
    refine .combined (ms := [.leaf (.grw "x") ["s"] [.array [1, 2]] (some (.item .none)), .leaf .changePoint ["t"] [.array [0, 1]] (some (.item .none))]) ?_ rfl
    intro a ha
    simp only [List.mem_cons, List.not_mem_nil, or_false] at ha
    rcases ha with rfl | rfl
    · exact .grw (name := "s") (value := .list [1, 2]) (target := some "x") (prior := .item .none) rfl trivial rfl
    · exact .changePoint (name := "t") (value := .list [0, 1]) (prior := .item .none) trivial rfl
  have hsp : " " ∉ (entries Ex.realJump.tm).map (·.1) := by simp [Ex.realJump, entries, entriesAll, mkStatic]
  have hax : Ex.realEnv.axis "x" = .ok 0 := by simp [Env.axis, Ex.realEnv, List.finRange_succ]
  have htm : JumpModel Ex.realEnv Ex.realJump.tm := ⟨⟨⟨0, hax⟩, rfl, rfl⟩, ⟨rfl, rfl⟩, trivial⟩
  have hnd : ((entries Ex.realJump.tm).map (·.1)).Nodup := by simp [Ex.realJump, entries, entriesAll, mkStatic]
  have hlen := rows_length (Built.matched hb).proper hg
  have hord : ∀ r ∈ g.rows, InOrder Ex.realJump.tm r := by
    intro r hr
    rw [hgdef] at hr
    have : r = [1, 0] ∨ r = [1, 1] ∨ r = [2, 0] ∨ r = [2, 1] := by simpa [Ex.realBreakGrid] using hr
    rcases this with rfl | rfl | rfl | rfl <;> simp [InOrder, pointsOf, Ex.realJump, entries, entriesAll, mkStatic, pointNames, pointNamesAll]
  have hfil : (g.rows.filter fun r => decide (InOrder Ex.realJump.tm r)) = g.rows := List.filter_eq_self.2 fun r hr => by simpa using hord r hr
  have hd : ∀ x : Idx Ex.gs3, IsDensity (normalDensity 0 ((x 0 : Fin 3).val + 1)) := fun x => normal_isDensity (by positivity) _
  have hlaw : ∀ x : Idx Ex.gs3, IsProbabilityMeasure (volume.withDensity fun y => ENNReal.ofReal (normalDensity 0 ((x 0 : Fin 3).val + 1) y)) := fun x => ⟨by
    rw [withDensity_apply _ MeasurableSet.univ, Measure.restrict_univ, ← ofReal_integral_eq_lintegral_ofReal (hd x).integrable (.of_forall (hd x).nonneg), (hd x).total, ENNReal.ofReal_one]⟩
  have hone : ∑ _ : Idx Ex.gs3, 1 / (Fintype.card (Idx Ex.gs3) : ℝ) = 1 := by
    rw [Finset.sum_const, Finset.card_univ, nsmul_eq_mul, mul_one_div_cancel (Nat.cast_ne_zero.2 Fintype.card_ne_zero)]
  have hρ : ∑ j, orderedPrior Ex.realJump.tm g [1 / 4, 1 / 4, 1 / 4, 1 / 4] j = 1 := orderedPrior_one hord (by
    rw [hgdef]
    change ∑ i : Fin 4, ([1 / 4, 1 / 4, 1 / 4, 1 / 4] : List ℝ).getD i 0 * ([1, 1] : List ℝ).prod = 1
    rw [Fin.sum_univ_four]
    simp
    norm_num)
  have hU := Ex.unit_steps
  have hτ : StrictMono (![0, 1, 2] : Fin 3 → ℝ) := Fin.strictMono_iff_lt_succ.2 fun i => by rw [hU i]; linarith
  have hst : ∀ j : Fin g.rows.length, Stoch (kernel Ex.realEnv (fun _ => 1 / (Fintype.card (Idx Ex.gs3) : ℝ)) (modelAt Ex.realJump.tm g.rows[j])) := fun j =>
    ⟨kernel_nonneg Ex.realEnv_regular.gauss _ (.inr fun _ => by positivity), kernel_sum Ex.realEnv_regular.gauss _ (modelAt_jump htm hnd (hlen _ (List.getElem_mem _))).2.1 (.inr hone)⟩
  have hv : ∀ e ∈ entries Ex.realJump.tm, e.1 ∈ changeNames Ex.realJump.tm → ∀ c ∈ valuesOf (List.ofFn ![0, 1, 2]) e.2, ∃ i : Fin 2, c = (![0, 1, 2] : Fin 3 → ℝ) i.castSucc := by
    intro e he hc
    have : e = ("s", .array [1, 2]) ∨ e = ("t", .array [0, 1]) := by simpa [Ex.realJump, entries, entriesAll] using he
    rcases this with rfl | rfl
    · simp [Ex.realJump, changeNames, changeNamesAll] at hc
    · intro c hc
      have : c = 0 ∨ c = 1 := by simpa [valuesOf] using hc
      rcases this with rfl | rfl
      · exact ⟨0, rfl⟩
      · exact ⟨1, rfl⟩
  obtain ⟨Ω, hΩ, P, J, Z, X, hP, hD⟩ := exists_hyperDraws (n := 2) (Y := ℝ) (orderedPrior Ex.realJump.tm g [1 / 4, 1 / 4, 1 / 4, 1 / 4]) (orderedPrior_nonneg (by simp) (by rw [hgdef]; simp [Ex.realBreakGrid])) hρ
    (fun _ => 1 / (Fintype.card (Idx Ex.gs3) : ℝ))
    (fun j i => kernel Ex.realEnv (fun _ => 1 / (Fintype.card (Idx Ex.gs3) : ℝ)) (modelAt Ex.realJump.tm g.rows[j]) (![0, 1, 2] i.castSucc)) (fun x => volume.withDensity fun y => ENNReal.ofReal (normalDensity 0 ((x 0 : Fin 3).val + 1) y))
    (fun _ => by positivity) (fun j i => (hst j).nonneg _) fun j => by
      have := evidence_ones (fun _ => 1 / (Fintype.card (Idx Ex.gs3) : ℝ)) (fun i : Fin 2 => kernel Ex.realEnv (fun _ => 1 / (Fintype.card (Idx Ex.gs3) : ℝ)) (modelAt Ex.realJump.tm g.rows[j]) ((![0, 1, 2] : Fin 3 → ℝ) i.castSucc)) fun i => (hst j).sum _
      simp only [evidence, pathWeight, Finset.prod_const_one, mul_one] at this
      rw [this, hone]
  have hok : ∃ C, cpFit (⟨Ex.realEnv, fun _ (i : Fin 3) => (i.val : ℝ) + 1, List.ofFn fun i x => normalDensity 0 ((x 0 : Fin 3).val + 1) ((0 : Fin 3 → ℝ) i), List.ofFn ![0, 1, 2], false, false, 1 / 10 ^ 300⟩ : FitIn ℝ Ex.gs3) 1 Ex.realJump = .ok (some C) := by
    refine cpFit_ok _ 1 Ex.realJump g [1 / 4, 1 / 4, 1 / 4, 1 / 4] hb hsp rfl hg (by rw [hgdef]; rfl) (by rw [hfil]; omega) (by decide) (by decide) (by decide) (by decide) ?_ fun r hr _ => ?_
    · rw [List.map_congr_left (g := fun _ => true) fun r hr => by simpa using hord r hr, hgdef]
      simp [select, Ex.realBreakGrid]
      norm_num
    · obtain ⟨A, hA, -⟩ := single_jumps ⟨Ex.realEnv, fun _ (i : Fin 3) => (i.val : ℝ) + 1, List.ofFn fun i x => normalDensity 0 ((x 0 : Fin 3).val + 1) ((0 : Fin 3 → ℝ) i), List.ofFn ![0, 1, 2], false, false, 1 / 10 ^ 300⟩
        Ex.realJump.tm Ex.realJump.S Ex.realEnv_regular htm hnd _ .flat (.inl rfl) ![0, 1, 2] hτ rfl _ rfl (fun i x => (hd x).nonneg _) (.inr (.inr ⟨rfl, hU⟩)) (hlen r hr) (hord r hr) (rows_changes (Built.matched hb).proper hg hv r hr)
      exact ⟨A, hA⟩
  obtain ⟨C, hC⟩ := hok
  have := (C126_calibrated_partial Ex.realEnv (fun _ (i : Fin 3) => (i.val : ℝ) + 1) 1 Ex.realJump g [1 / 4, 1 / 4, 1 / 4, 1 / 4] hb hsp htm Ex.realEnv_regular (fun _ => 1 / (Fintype.card (Idx Ex.gs3) : ℝ)) .flat (.inl rfl) ![0, 1, 2] hτ hg (by rw [hgdef]; rfl) (by simp) hv
    (by rw [hfil]; omega) volume (fun x y => normalDensity 0 ((x 0 : Fin 3).val + 1) y) (fun x => (normal_continuous _ _).measurable) (fun x => (hd x).nonneg) (fun x => (hd x).integrable) false false (1 / 10 ^ 300)
    (.inr (.inr ⟨rfl, hU⟩)) ⟨0, C, hC⟩ P J Z X hD).1
  subst hgdef
  exact ⟨Ω, hΩ, P, J, X, hP, this⟩

end Props
