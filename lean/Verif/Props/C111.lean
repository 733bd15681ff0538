import Verif.Spec.Pieces
import Verif.Props.C02
import Verif.Props.C08
import Verif.Props.C38
import Verif.Props.C70
import Verif.Lemmas.Static

/-! # C111: the posterior distribution of change-points -/

set_option linter.unusedSectionVars false

namespace Props
open BL Spec

variable {K : Type} [Field K] [LinearOrder K] [IsStrictOrderedRing K] {d : ℕ} {gs : Fin d → ℕ}

section pieces

/-- number of change-points below the next time stamp -/
theorem pieceOf_next {r : List K} (hr : r.Nodup) {a b : K} (hab : a < b) (h : ∀ c ∈ r, a < c → b ≤ c) :
    pieceOf r b = if a ∈ r then pieceOf r a + 1 else pieceOf r a := by
  unfold pieceOf
  induction r with
  | nil => simp
  | cons c r ih =>
      rw [List.nodup_cons] at hr
      have ih := ih hr.2 fun c hc => h c (by simp [hc])
      have hc := h c (by simp)
      rcases lt_trichotomy c a with h1 | h1 | h1
      · have hne : a ≠ c := h1.ne'
        simp only [List.filter_cons, h1, h1.trans hab, decide_true, ↓reduceIte, List.length_cons, ih, List.mem_cons, hne, false_or]
        split <;> omega
      · subst h1
        simp only [List.filter_cons, hab, lt_irrefl, decide_true, decide_false, ↓reduceIte, List.length_cons, ih, List.mem_cons, true_or, if_neg hr.1]
        simp
      · have hne : a ≠ c := h1.ne
        simp only [List.filter_cons, h1.not_gt, (hc h1).not_gt, decide_false, List.mem_cons, hne, false_or]
        simpa using ih

theorem pieceOf_mono (r : List K) {a b : K} (h : a ≤ b) : pieceOf r a ≤ pieceOf r b := by
  unfold pieceOf
  apply List.Sublist.length_le
  apply List.monotone_filter_right
  intro c hc
  simp only [decide_eq_true_eq] at hc ⊢
  exact hc.trans_le h

theorem pieceOf_all {r : List K} {t : K} (h : ∀ c ∈ r, c < t) : pieceOf r t = r.length := by
  unfold pieceOf
  rw [List.filter_eq_self.2 fun c hc => by simpa using h c hc]

theorem pieceOf_none {r : List K} {t : K} (h : ∀ c ∈ r, t ≤ c) : pieceOf r t = 0 := by
  unfold pieceOf
  rw [List.filter_eq_nil_iff.2 fun c hc => by simpa using h c hc, List.length_nil]

/-- sum over parameter sequences = product over pieces, starting with arbitrary weights `f` -/
theorem evidence_pieces (π : Idx gs → K) {r : List K} (hr : r.Nodup) : ∀ {n : ℕ} (f : Idx gs → K) (τ : Fin (n + 1) → K), StrictMono τ →
    (∀ c ∈ r, c < τ 0 ∨ ∃ i : Fin n, c = τ i.castSucc) → ∀ (L : Fin (n + 1) → Idx gs → K),
    evidence f (fun i : Fin n => if τ i.castSucc ∈ r then fresh π else stay) L =
      (∑ x, f x * ∏ i, if pieceOf r (τ i) = pieceOf r (τ 0) then L i x else 1) *
        ∏ s ∈ Finset.Ioc (pieceOf r (τ 0)) r.length, ∑ x, π x * ∏ i, if pieceOf r (τ i) = s then L i x else 1
  | 0, f, τ, _, h, L => by
      have h0 : pieceOf r (τ 0) = r.length := pieceOf_all fun c hc => by
        rcases h c hc with h | ⟨i, -⟩
        · exact h
        · exact i.elim0
      rw [evidence_zero, h0]
      simp [h0]
  | n + 1, f, τ, hτ, h, L => by
      have h01 : τ 0 < τ 1 := hτ (by simp)
      have hnext : ∀ c ∈ r, τ 0 < c → τ 1 ≤ c := by
        intro c hc hlt
        rcases h c hc with h | ⟨i, rfl⟩
        · exact absurd h hlt.not_gt
        · rw [hτ.lt_iff_lt] at hlt
          rw [hτ.le_iff_le]
          exact Fin.one_le_of_ne_zero hlt.ne'
      have hp1 := pieceOf_next hr h01 hnext
      have hτ' : StrictMono fun i : Fin (n + 1) => τ i.succ := fun i j hij => hτ (by simpa using hij)
      have h' : ∀ c ∈ r, c < τ (Fin.succ 0) ∨ ∃ i : Fin n, c = τ i.castSucc.succ := by
        intro c hc
        rcases h c hc with h | ⟨i, rfl⟩
        · exact .inl (h.trans h01)
        · induction i using Fin.cases with
          | zero => exact .inl h01
          | succ i => exact .inr ⟨i, by rw [Fin.succ_castSucc]⟩
      have ih := fun f => evidence_pieces π hr f (fun i => τ i.succ) hτ' h' fun i => L i.succ
      have hT : (fun i : Fin n => if τ (Fin.castSucc i.succ) ∈ r then fresh π else stay) =
          fun i : Fin n => if τ i.castSucc.succ ∈ r then fresh (gs := gs) π else stay := by
        funext i; rw [Fin.succ_castSucc]
      rw [evidence_succ]
      change evidence (advance (if τ 0 ∈ r then fresh π else stay) (L 0) f) (fun i : Fin n => if τ (Fin.castSucc i.succ) ∈ r then fresh π else stay) _ = _
      rw [hT]
      have hs0 : τ (Fin.succ (0 : Fin (n + 1))) = τ 1 := rfl
      by_cases hc : τ 0 ∈ r
      · rw [if_pos hc] at hp1 ⊢
        have hadv : advance (fresh π) (L 0) f = fun y => (∑ x, f x * L 0 x) * π y := by
          funext y
          unfold advance fresh
          rw [Finset.sum_mul]
        rw [hadv, evidence_smul, ih π]
        simp only [hs0, hp1]
        have hlen : pieceOf r (τ 0) + 1 ≤ r.length := by rw [← hp1]; exact List.length_filter_le _ _
        rw [← Finset.insert_Ioc_add_one_left_eq_Ioc (by omega : pieceOf r (τ 0) < r.length), Finset.prod_insert (by simp)]
        have hge : ∀ i : Fin (n + 1), pieceOf r (τ 0) + 1 ≤ pieceOf r (τ i.succ) := by
          intro i
          rw [← hp1]
          exact pieceOf_mono r (hτ.monotone (by rw [Fin.le_def]; simp))
        have e0 : ∀ x, (∏ i : Fin (n + 2), if pieceOf r (τ i) = pieceOf r (τ 0) then L i x else 1) = L 0 x := by
          intro x
          rw [Fin.prod_univ_succ, if_pos rfl, Finset.prod_eq_one, mul_one]
          intro i _
          rw [if_neg (by have := hge i; omega)]
        have e1 : ∀ s x, pieceOf r (τ 0) < s → (∏ i : Fin (n + 2), if pieceOf r (τ i) = s then L i x else 1) =
            ∏ i : Fin (n + 1), if pieceOf r (τ i.succ) = s then L i.succ x else 1 := by
          intro s x hs
          rw [Fin.prod_univ_succ, if_neg (by omega), one_mul]
        simp only [e0]
        congr 1
        congr 1
        · exact Finset.sum_congr rfl fun x _ => by rw [e1 _ x (by omega)]
        · refine Finset.prod_congr rfl fun s hs => Finset.sum_congr rfl fun x _ => ?_
          rw [e1 _ x (by have := (Finset.mem_Ioc.1 hs).1; omega)]
      · rw [if_neg hc] at hp1 ⊢
        have hadv : advance stay (L 0) f = fun y => f y * L 0 y := advance_stay' (L 0) f
        rw [hadv, ih]
        simp only [hs0, hp1]
        congr 1
        · refine Finset.sum_congr rfl fun x _ => ?_
          rw [Fin.prod_univ_succ (n := n + 1), if_pos rfl]
          ring
        · refine Finset.prod_congr rfl fun s hs => Finset.sum_congr rfl fun x _ => ?_
          rw [Fin.prod_univ_succ (n := n + 1), if_neg (by have := (Finset.mem_Ioc.1 hs).1; omega), one_mul]

/-- the same with the prior `π` as starting point -/
theorem evidence_changes (π : Idx gs → K) {r : List K} (hr : r.Nodup) {n : ℕ} (τ : Fin (n + 1) → K) (hτ : StrictMono τ)
    (h : ∀ c ∈ r, ∃ i : Fin n, c = τ i.castSucc) (L : Fin (n + 1) → Idx gs → K) :
    evidence π (fun i : Fin n => if τ i.castSucc ∈ r then fresh π else stay) L = changeEvidence π r τ L := by
  rw [evidence_pieces π hr π τ hτ (fun c hc => .inr (h c hc)), pieceOf_none (r := r) (t := τ 0)]
  · unfold changeEvidence
    simp only [Finset.prod_filter]
    rw [show Finset.range (r.length + 1) = insert 0 (Finset.Ioc 0 r.length) by ext; simp, Finset.prod_insert (by simp)]
  · intro c hc
    obtain ⟨i, rfl⟩ := h c hc
    exact hτ.monotone (Fin.zero_le _)

end pieces

section steps
variable {E : Env K gs} {π : Idx gs → K}

mutual
/-- times at which a model resets the parameters -/
def changeTimes : TM K → List K
  | .leaf .changePoint _ vs _ => [val0 vs]
  | .leaf _ _ _ _ => []
  | .combined ms => changeTimesAll ms
  | .serial _ vs _ _ _ => vals vs
/-- all sub-models -/
def changeTimesAll : List (TM K) → List K
  | [] => []
  | m :: ms => changeTimes m ++ changeTimesAll ms
end

theorem comp_stay_left (A : Idx gs → Idx gs → K) : comp stay A = A := by
  funext x z
  unfold comp stay
  rw [Finset.sum_eq_single x]
  · simp
  · intro y _ hy; simp [hy.symm]
  · simp

theorem comp_fresh_stay : comp (fresh π) stay = fresh π := by
  funext x z
  unfold comp stay fresh
  rw [Finset.sum_eq_single z]
  · simp
  · intro y _ hy; simp [hy]
  · simp

theorem comp_fresh_fresh (h1 : ∑ x, π x = 1) : comp (fresh π) (fresh π) = fresh π := by
  funext x z
  unfold comp fresh
  rw [← Finset.sum_mul, h1, one_mul]

theorem comp_steps (h1 : ∑ x, π x = 1) (P Q : Prop) [Decidable P] [Decidable Q] :
    comp (if P then fresh π else stay) (if Q then fresh π else stay) = if P ∨ Q then fresh π else stay := by
  by_cases hP : P <;> by_cases hQ : Q <;> simp only [hP, hQ, ↓reduceIte, or_self, or_false, or_true, false_or, true_or, comp_stay_left, comp_fresh_stay,
    comp_fresh_fresh h1]

theorem isChange_all (vs : List K) (t : K) : ∀ n, vs.length = n → (IsChange vs (List.replicate n true) t ↔ t ∈ vs) := by
  rintro n rfl
  unfold IsChange
  induction vs with
  | nil => simp
  | cons v vs ih => simp [List.replicate_succ, ih]

theorem kernelNth_static (t : K) : ∀ (ms : List (TM K)) (i : ℕ), i < ms.length → (∀ m ∈ ms, ∃ pr, m = .leaf .static [] [] pr) →
    kernelNth E π ms i t = stay
  | [], i, h, _ => by simp at h
  | m :: ms, 0, _, h => by
      obtain ⟨pr, rfl⟩ := h m (by simp)
      simp [kernelNth, kernel]
  | m :: ms, i + 1, hi, h => by
      rw [kernelNth]
      exact kernelNth_static t ms i (by simpa using hi) fun m hm => h m (by simp [hm])

theorem massOutNth_static (R t s : K) : ∀ (ms : List (TM K)) (i : ℕ), (∀ m ∈ ms, ∃ pr, m = .leaf .static [] [] pr) → massOutNth E R ms i t s = s
  | [], i, _ => by simp [massOutNth]
  | m :: ms, 0, h => by
      obtain ⟨pr, rfl⟩ := h m (by simp)
      simp [massOutNth, massOut]
  | m :: ms, i + 1, h => by
      rw [massOutNth]
      exact massOutNth_static R t s ms i fun m hm => h m (by simp [hm])

mutual
theorem kernel_step (h1 : ∑ x, π x = 1) (t : K) : ∀ tm : TM K, StepModel tm →
    kernel E π tm t = if t ∈ changeTimes tm then fresh π else stay
  | .leaf k names vs pr, h => by
      cases k <;> simp [StepModel] at h <;> simp [kernel, changeTimes]
  | .combined ms, h => by
      rw [kernel, changeTimes]
      exact kernelAll_step h1 t ms h
  | .serial names vs pr mask ms, h => by
      rw [StepModel] at h
      obtain ⟨a, b, c, e⟩ := h
      rw [kernel, changeTimes, b, kernelNth_static t ms _ _ e, comp_stay_left]
      · simp only [isChange_all (vals vs) t names.length (by rw [vals_length, a])]
      · have : breaksUpTo (vals vs) t ≤ (vals vs).length := List.length_filter_le _ _
        rw [vals_length] at this
        omega
theorem kernelAll_step (h1 : ∑ x, π x = 1) (t : K) : ∀ ms : List (TM K), StepModelAll ms →
    kernelAll E π ms t = if t ∈ changeTimesAll ms then fresh π else stay
  | [], _ => by simp [kernelAll, changeTimesAll]
  | m :: ms, h => by
      rw [kernelAll, changeTimesAll, kernel_step h1 t m h.1, kernelAll_step h1 t ms h.2, comp_steps h1]
      simp only [List.mem_append]
end

mutual
theorem massOut_step (R t : K) : ∀ (tm : TM K) (s : K), StepModel tm →
    massOut E R tm t s = if t ∈ changeTimes tm then R * E.cell else s
  | .leaf k names vs pr, s, h => by
      cases k <;> simp [StepModel] at h <;> simp [massOut, changeTimes, Env.cell]
  | .combined ms, s, h => by
      rw [massOut, changeTimes]
      exact massOutAll_step R t ms s h
  | .serial names vs pr mask ms, s, h => by
      rw [StepModel] at h
      obtain ⟨a, b, c, e⟩ := h
      rw [massOut, changeTimes, b, massOutNth_static R t s ms _ e]
      simp only [isChange_all (vals vs) t names.length (by rw [vals_length, a]), Env.cell]
theorem massOutAll_step (R t : K) : ∀ (ms : List (TM K)) (s : K), StepModelAll ms →
    massOutAll E R ms t s = if t ∈ changeTimesAll ms then R * E.cell else s
  | [], s, _ => by simp [massOutAll, changeTimesAll]
  | m :: ms, s, h => by
      rw [massOutAll, changeTimesAll, massOut_step R t m s h.1, massOutAll_step R t ms _ h.2]
      by_cases h1 : t ∈ changeTimes m <;> by_cases h2 : t ∈ changeTimesAll ms <;> simp [h1, h2]
end

theorem withValues_static (g : String → HVal K → HVal K) : ∀ ms : List (TM K), (∀ m ∈ ms, ∃ pr, m = .leaf .static [] [] pr) → withValuesAll g ms = ms
  | [], _ => rfl
  | m :: ms, h => by
      obtain ⟨pr, rfl⟩ := h m (by simp)
      rw [withValuesAll, withValues_static g ms fun m hm => h m (by simp [hm])]
      rfl

mutual
theorem step_withValues (g : String → HVal K → HVal K) : ∀ tm : TM K, StepModel tm → StepModel (withValues g tm)
  | .leaf k names vs pr, h => by
      cases k <;> simp [StepModel] at h <;> simp [StepModel, withValues, h]
  | .combined ms, h => stepAll_withValues g ms h
  | .serial names vs pr mask ms, h => by
      rw [StepModel] at h
      obtain ⟨a, b, c, e⟩ := h
      rw [withValues, StepModel, withValues_static g ms e]
      exact ⟨by simp [a], b, c, e⟩
theorem stepAll_withValues (g : String → HVal K → HVal K) : ∀ ms : List (TM K), StepModelAll ms → StepModelAll (withValuesAll g ms)
  | [], _ => trivial
  | m :: ms, h => ⟨step_withValues g m h.1, stepAll_withValues g ms h.2⟩
end

theorem vals_append : ∀ a b : List (HVal K), vals (a ++ b) = vals a ++ vals b
  | [], b => rfl
  | v :: a, b => by cases v <;> simp [vals, vals_append a b]

theorem vals_scalar (row : List K) : vals (row.map HVal.scalar) = row := by
  induction row with
  | nil => rfl
  | cons v row ih => simp [vals, ih]

theorem entries_static : ∀ ms : List (TM K), (∀ m ∈ ms, ∃ pr, m = .leaf .static [] [] pr) → entriesAll ms = [] ∧ pointNamesAll ms = []
  | [], _ => ⟨rfl, rfl⟩
  | m :: ms, h => by
      obtain ⟨pr, rfl⟩ := h m (by simp)
      obtain ⟨h1, h2⟩ := entries_static ms fun m hm => h m (by simp [hm])
      rw [entriesAll, pointNamesAll, h1, h2]
      exact ⟨rfl, rfl⟩

mutual
theorem changeTimes_entries : ∀ tm : TM K, StepModel tm → changeTimes tm = vals ((entries tm).map (·.2))
  | .leaf k names vs pr, h => by
      cases k with
      | changePoint =>
          obtain ⟨n, rfl⟩ := List.length_eq_one_iff.1 h.1
          obtain ⟨v, rfl⟩ := List.length_eq_one_iff.1 h.2
          cases v <;> simp [changeTimes, entries, vals, val0]
      | static =>
          have : names = [] := h
          simp [changeTimes, entries, this, vals]
      | _ => exact absurd h (by simp [StepModel])
  | .combined ms, h => by
      rw [changeTimes, entries]
      exact changeTimesAll_entries ms h
  | .serial names vs pr mask ms, h => by
      rw [StepModel] at h
      obtain ⟨a, b, c, e⟩ := h
      rw [changeTimes, entries, (entries_static ms e).1, List.nil_append, List.map_snd_zip (by omega)]
theorem changeTimesAll_entries : ∀ ms : List (TM K), StepModelAll ms → changeTimesAll ms = vals ((entriesAll ms).map (·.2))
  | [], _ => rfl
  | m :: ms, h => by
      rw [changeTimesAll, entriesAll, List.map_append, vals_append, changeTimes_entries m h.1, changeTimesAll_entries ms h.2]
end

mutual
theorem pointNames_step : ∀ tm : TM K, StepModel tm → pointNames tm = (entries tm).map (·.1)
  | .leaf k names vs pr, h => by
      cases k with
      | changePoint =>
          obtain ⟨n, rfl⟩ := List.length_eq_one_iff.1 h.1
          obtain ⟨v, rfl⟩ := List.length_eq_one_iff.1 h.2
          simp [pointNames, entries]
      | static =>
          have : names = [] := h
          simp [pointNames, entries, this]
      | _ => exact absurd h (by simp [StepModel])
  | .combined ms, h => by
      rw [pointNames, entries]
      exact pointNamesAll_step ms h
  | .serial names vs pr mask ms, h => by
      rw [StepModel] at h
      obtain ⟨a, b, c, e⟩ := h
      rw [pointNames, entries, (entries_static ms e).1, (entries_static ms e).2, List.nil_append, List.nil_append, List.map_fst_zip (by omega)]
theorem pointNamesAll_step : ∀ ms : List (TM K), StepModelAll ms → pointNamesAll ms = (entriesAll ms).map (·.1)
  | [], _ => rfl
  | m :: ms, h => by
      rw [pointNamesAll, entriesAll, List.map_append, pointNames_step m h.1, pointNamesAll_step ms h.2]
end

theorem linear_static (E : Env K gs) : ∀ ms : List (TM K), (∀ m ∈ ms, ∃ pr, m = .leaf .static [] [] pr) → LinearAll E ms ∧ SpreadingAll E ms
  | [], _ => ⟨trivial, trivial⟩
  | m :: ms, h => by
      obtain ⟨pr, rfl⟩ := h m (by simp)
      obtain ⟨h1, h2⟩ := linear_static E ms fun m hm => h m (by simp [hm])
      exact ⟨⟨trivial, h1⟩, trivial, h2⟩

mutual
theorem linear_step (E : Env K gs) : ∀ tm : TM K, StepModel tm → (∀ e ∈ entries tm, ∃ c, e.2 = .scalar c) → Linear E tm ∧ Spreading E tm
  | .leaf k names vs pr, h, he => by
      cases k with
      | changePoint =>
          obtain ⟨n, rfl⟩ := List.length_eq_one_iff.1 h.1
          obtain ⟨v, rfl⟩ := List.length_eq_one_iff.1 h.2
          obtain ⟨c, hc⟩ := he (n, v) (by simp [entries])
          simp only at hc
          subst hc
          exact ⟨⟨c, rfl⟩, c, rfl⟩
      | static => exact ⟨trivial, trivial⟩
      | _ => exact absurd h (by simp [StepModel])
  | .combined ms, h, he => linearAll_step E ms h he
  | .serial names vs pr mask ms, h, he => by
      rw [StepModel] at h
      obtain ⟨a, b, c, e⟩ := h
      rw [entries, (entries_static ms e).1, List.nil_append] at he
      have hs : ∀ v ∈ vs, ∃ c, v = .scalar c := by
        intro v hv
        rw [← List.map_snd_zip (l₁ := names) (l₂ := vs) (by omega)] at hv
        obtain ⟨q, hq, rfl⟩ := List.mem_map.1 hv
        exact he q hq
      exact ⟨⟨hs, by omega, (linear_static E ms e).1⟩, hs, by omega, (linear_static E ms e).2⟩
theorem linearAll_step (E : Env K gs) : ∀ ms : List (TM K), StepModelAll ms → (∀ e ∈ entriesAll ms, ∃ c, e.2 = .scalar c) →
    LinearAll E ms ∧ SpreadingAll E ms
  | [], _, _ => ⟨trivial, trivial⟩
  | m :: ms, h, he => by
      rw [entriesAll] at he
      obtain ⟨a, b⟩ := linear_step E m h.1 fun e h => he e (List.mem_append_left _ h)
      obtain ⟨c, d⟩ := linearAll_step E ms h.2 fun e h => he e (List.mem_append_right _ h)
      exact ⟨⟨a, c⟩, b, d⟩
end

/-- the hyper-parameters of the model of one row -/
theorem entries_modelAt {tm : TM K} (hnd : ((entries tm).map (·.1)).Nodup) {row : List K} (hl : row.length = (entries tm).length) :
    entries (modelAt tm row) = ((entries tm).map (·.1)).zip (row.map HVal.scalar) := by
  unfold modelAt
  rw [entries_withValues]
  have key : ∀ (es : List (String × HVal K)) (xs : List (HVal K)), (es.map (·.1)).Nodup → xs.length = es.length →
      (es.map fun e => (e.1, assigned (es.map (·.1)) xs e.1 e.2)) = (es.map (·.1)).zip xs := by
    intro es
    induction es with
    | nil => intro xs _ _; rfl
    | cons e es ih =>
        intro xs hnd hl
        cases xs with
        | nil => simp at hl
        | cons x xs =>
            rw [List.map_cons, List.nodup_cons] at hnd
            rw [List.map_cons, List.map_cons, List.zip_cons_cons]
            congr 1
            · rw [← assigned_cons _ _ _ _ _ _ hnd.1]
              simp only [↓reduceIte]
              unfold assigned
              have : ((es.map (·.1)).zip xs).find? (fun p => p.1 = e.1) = none := by
                rw [List.find?_eq_none]
                intro p hp
                simp only [decide_eq_true_eq]
                intro h
                exact hnd.1 (h ▸ (List.of_mem_zip hp).1)
              rw [this]
            · rw [← ih xs hnd.2 (by simpa using hl)]
              apply List.map_congr_left
              intro a ha
              rw [← assigned_cons _ _ _ _ _ _ hnd.1, if_neg]
              rintro h
              exact hnd.1 (h ▸ List.mem_map_of_mem ha)
  exact key _ _ hnd (by simp [hl])

/-- in a model with steps only, the combination is in order iff its values increase -/
theorem inOrder_step {tm : TM K} (h : StepModel tm) {row : List K} (hl : row.length = (entries tm).length) :
    InOrder tm row ↔ row.Pairwise (· < ·) := by
  unfold InOrder pointsOf
  rw [pointNames_step tm h, List.filter_eq_self.2, List.map_snd_zip]
  · simp [hl]
  · intro p hp
    simpa using (List.of_mem_zip hp).1

theorem modelAt_step {tm : TM K} (h : StepModel tm) (hnd : ((entries tm).map (·.1)).Nodup) {row : List K} (hl : row.length = (entries tm).length) :
    StepModel (modelAt tm row) ∧ changeTimes (modelAt tm row) = row ∧ Linear E (modelAt tm row) ∧ Spreading E (modelAt tm row) := by
  have h1 := step_withValues (assigned ((entries tm).map (·.1)) (row.map .scalar)) tm h
  have he := entries_modelAt hnd hl
  refine ⟨h1, ?_, linear_step E _ h1 ?_⟩
  · refine (changeTimes_entries _ h1).trans ?_
    change vals ((entries (modelAt tm row)).map (·.2)) = row
    rw [he, List.map_snd_zip (by simp [hl]), vals_scalar]
  · intro e hm
    have hm : e ∈ entries (modelAt tm row) := hm
    rw [he] at hm
    obtain ⟨c, -, hc⟩ := List.mem_map.1 (List.of_mem_zip (show (e.1, e.2) ∈ _ from hm)).2
    exact ⟨c, hc.symm⟩

/-- one factor per change-point -/
theorem mass_steps {r : List K} (hr : r.Nodup) {n : ℕ} (τ : Fin (n + 1) → K) (hτ : StrictMono τ)
    (h : ∀ c ∈ r, ∃ i : Fin n, c = τ i.castSucc) (c : K) : (∏ i : Fin n, if τ i.castSucc ∈ r then c else 1) = c ^ r.length := by
  rw [← Finset.prod_filter, Finset.prod_const]
  congr 1
  rw [← List.toFinset_card_of_nodup hr]
  apply Finset.card_bij fun i _ => τ i.castSucc
  · intro i hi
    simpa using hi
  · intro i _ j _ hij
    exact Fin.castSucc_injective _ (hτ.injective hij)
  · intro x hx
    obtain ⟨i, rfl⟩ := h x (by simpa using hx)
    exact ⟨i, by simpa using hx, rfl⟩

end steps

section study

/-- Settings in which the full fit reports the evidence of its forward pass (C08): forward-only or evidence-only fits; likelihoods and prior positive everywhere; or no prior and
time stamps one unit apart. -/
def ModeOK (I : FitIn K gs) (S : FitState K gs) {n : ℕ} (τ : Fin (n + 1) → K) (L : Fin (n + 1) → Idx gs → K) : Prop :=
  I.forwardOnly = true ∨ I.evidenceOnly = true ∨ (ProperExt I.E.ext ∧ FullPrior S.prior ∧ ∀ i x, 0 < L i x) ∨
    (S.prior = .none ∧ ∀ i : Fin n, τ i.succ = τ i.castSucc + 1)

/-- evidence of one combination -/
theorem single_changes (I : FitIn K gs) (tm : TM K) (S A : FitState K gs) (hE : Regular I.E) (htm : StepModel tm) (hnd : ((entries tm).map (·.1)).Nodup)
    (π : Idx gs → K) (hp : PriorMass I.E.cell S.prior π) (hprior : S.prior = .none ∨ ∃ v, S.prior = .func v) {n : ℕ} (τ : Fin (n + 1) → K)
    (hτ : StrictMono τ) (hts : I.ts = List.ofFn τ) (L : Fin (n + 1) → Idx gs → K) (hls : I.liks = List.ofFn L) (hL0 : ∀ i x, 0 ≤ L i x)
    (hmode : ModeOK I S τ L) {row : List K} (hl : row.length = (entries tm).length) (hr : row.Nodup) (hv : ∀ c ∈ row, ∃ i : Fin n, c = τ i.castSucc)
    (h : singleFit I tm S row = .ok A) : A.logEv.exp = changeEvidence π row τ L * I.E.cell ^ row.length := by
  obtain ⟨s1, s2, s3, s4⟩ := modelAt_step (E := I.E) htm hnd hl
  unfold singleFit at h
  rw [hls, hts] at h
  haveI := hE.nonempty
  have h1 : ∑ x, π x = 1 := (resetOK_prior hp hprior (E := I.E)).sum_one
  have hval : evidence π (fun i : Fin n => kernel I.E π (modelAt tm row) (τ i.castSucc)) L * ∏ i : Fin n, massOut I.E 1 (modelAt tm row) (τ i.castSucc) 1 =
      changeEvidence π row τ L * I.E.cell ^ row.length := by
    rw [← evidence_changes π hr τ hτ hv L, ← mass_steps hr τ hτ hv I.E.cell]
    congr 1
    · congr 1
      funext i
      rw [kernel_step h1 _ _ s1, s2]
    · refine Finset.prod_congr rfl fun i _ => ?_
      rw [massOut_step _ _ _ _ s1, s2, one_mul]
  obtain ⟨S2, f2, e2⟩ := C02_exact_factor I.E I.grid _ hE s3 S π hp hprior L hL0 τ true false (Or.inr rfl)
  rw [← hval]
  by_cases hm : I.evidenceOnly = true ∨ I.forwardOnly = true
  · obtain ⟨S', f', e'⟩ := C02_exact_factor I.E I.grid _ hE s3 S π hp hprior L hL0 τ I.forwardOnly I.evidenceOnly hm
    rw [f'] at h
    cases h
    exact e'
  · have hfo : I.forwardOnly = false := by simpa using fun h => hm (.inr h)
    have heo : I.evidenceOnly = false := by simpa using fun h => hm (.inl h)
    rw [← e2]
    rcases hmode with hm | hm | ⟨m1, m2, m3⟩ | ⟨m1, m2⟩
    · rw [hm] at hfo; simp at hfo
    · rw [hm] at heo; simp at heo
    · obtain ⟨ev, hev⟩ := C70_modes I.E I.grid (modelAt tm row) S hE.nonempty hE.lattice_pos m1 s4 m2 (List.ofFn L) (List.ofFn τ) (by simp)
        (by intro l hl x; obtain ⟨i, rfl⟩ := (List.mem_ofFn' _ _).1 hl; exact m3 i x)
      obtain ⟨Sa, fa, ea⟩ := hev I.forwardOnly I.evidenceOnly
      obtain ⟨Sb, fb, eb⟩ := hev true false
      rw [fa] at h
      rw [fb] at f2
      cases h; cases f2
      rw [ea, eb]
    · obtain ⟨Sa, Sb, Sc, fa, fb, -, e, -⟩ := C08_partial I.E I.grid (modelAt tm row) hE s3 S π hp (.inr m1) L hL0 τ m2
      rw [hfo, heo, fa] at h
      rw [fb] at f2
      cases h; cases f2
      rw [e]

theorem zip_values {α β γ : Type} (F : K → K → γ) (g : α → K) (g' : β → K) (m : K → K) : ∀ (As : List α) (R : List β) (S : List K), As.map g = R.map g' →
    (As.zip (S.map m)).map (fun q => F (g q.1) q.2) = (R.zip S).map fun q => F (g' q.1) (m q.2)
  | [], [], _, _ => rfl
  | [], _ :: _, _, h => by simp at h
  | _ :: _, [], _, h => by simp at h
  | _ :: _, _ :: _, [], _ => rfl
  | a :: As, b :: R, s :: S, h => by
      simp only [List.map_cons, List.cons.injEq] at h
      simp only [List.map_cons, List.zip_cons_cons, h.1, zip_values F g g' m As R S h.2]

theorem scatter_filter {α : Type} (f : α → Bool) (h : α × K → K) : ∀ (l : List α) (r : List K), r.length = l.length →
    scatter (l.map f) (((l.zip r).filter fun q => f q.1).map h) = (l.zip r).map fun q => if f q.1 then h q else 0
  | [], _, _ => rfl
  | a :: l, [], e => by simp at e
  | a :: l, b :: r, e => by
      have ih := scatter_filter f h l r (by simpa using e)
      cases hf : f a <;> simp [hf, scatter, ih]

theorem rows_candidates {tm : TM K} {ts : List K} {g : HyperGrid K} (hp : Proper tm) (hg : createHyperGrid tm ts = .ok g) {P : K → Prop}
    (h : ∀ e ∈ entries tm, ∀ c ∈ valuesOf ts e.2, P c) : ∀ r ∈ g.rows, ∀ c ∈ r, P c := by
  intro r hr c hc
  obtain ⟨-, -, -, e4⟩ := createHyperGrid_eq hp hg
  rw [e4] at hr
  split at hr
  · simp at hr
  · rw [cart_mem] at hr
    obtain ⟨k, hk, rfl⟩ := List.getElem_of_mem hc
    have hk' : k < (axes tm ts).length := hr.length_eq ▸ hk
    have := (List.forall₂_iff_get.1 hr).2 k hk hk'
    simp only [axes, List.get_eq_getElem, List.getElem_map] at this
    exact h _ (List.getElem_mem _) _ this

/-- `'all'` stands for time stamps other than the last -/
theorem all_candidates {n : ℕ} (τ : Fin (n + 1) → K) : ∀ c ∈ valuesOf (List.ofFn τ) .all, ∃ i : Fin n, c = τ i.castSucc := by
  intro c hc
  rw [valuesOf, List.dropLast_eq_take, List.length_ofFn] at hc
  obtain ⟨k, hk, rfl⟩ := List.getElem_of_mem hc
  have hk' : k < n := by simpa using hk
  exact ⟨⟨k, hk'⟩, by rw [List.getElem_take, List.getElem_ofFn]; rfl⟩

/-- a study that has been fitted has different names -/
theorem cpFit_nodup {I : FitIn K gs} {nJobs : ℕ} {H : HState K gs} {C : CState K gs} {g : HyperGrid K} (hpr : Proper H.tm) (hg : createHyperGrid H.tm I.ts = .ok g)
    (h : cpFit I nJobs H = .ok (some C)) : ((entries H.tm).map (·.1)).Nodup := by
  rw [← entries_names H.tm hpr]
  unfold cpFit at h
  split at h
  · cases h
  simp only at h
  split at h
  · cases h
  split at h
  · cases h
  rw [hg] at h
  simp only [bind, Except.bind] at h
  split at h
  · cases h
  exact (Props.duplicates_eq_nil _).1 (List.length_eq_zero_iff.1 (by omega))

/-- **C111 (what is proved).** Consider a change-point study whose transition model consists of change-points and nothing else that changes the parameters
(`StepModel`): a ChangePoint, several ChangePoints combined, Static models in series separated by change-points.  Let the time stamps increase, let every candidate value of every change-point be a time
stamp other than the last (`'all'` stands for all of them, `all_candidates`), let more than one combination of candidate values increase, let the prior of the
parameters be the default or a function with probabilities `π`, and let the evidence reported be non-zero.  Then the distribution stored by `fit` gives every combination the posterior
probability of Bayes' theorem: prior probability times the probability of the data (`changeEvidence`, a product over the pieces between the change-points) divided by the sum of these
products; combinations that do not increase get zero.  This holds for all grids, whatever the volume of a grid cell, although the evidence reported contains the factor `cell ^ (number of change-points)` (see C02):
the factor is the same for all combinations.  Not covered: priors given as array (shared between the fits, C32) or as random variables, candidate values that are no time stamps (`C111_refuted`), full fits in settings
excluded by `ModeOK` (C08). -/
theorem C111_partial (I : FitIn K gs) (nJobs : ℕ) (H : HState K gs) (C : CState K gs) (g : HyperGrid K) (ps : List K) (hb : Built H.tm)
    (hsp : " " ∉ (entries H.tm).map (·.1)) (htm : StepModel H.tm) (hE : Regular I.E)
    (π : Idx gs → K) (hp : PriorMass I.E.cell H.S.prior π) (hprior : H.S.prior = .none ∨ ∃ v, H.S.prior = .func v)
    {n : ℕ} (τ : Fin (n + 1) → K) (hτ : StrictMono τ) (hts : I.ts = List.ofFn τ)
    (L : Fin (n + 1) → Idx gs → K) (hls : I.liks = List.ofFn L) (hL0 : ∀ i x, 0 ≤ L i x) (hmode : ModeOK I H.S τ L)
    (hg : createHyperGrid H.tm I.ts = .ok g) (hps : g.priors = some ps) (hnn : ∀ p ∈ ps, 0 ≤ p)
    (hv : ∀ e ∈ entries H.tm, ∀ c ∈ valuesOf I.ts e.2, ∃ i : Fin n, c = τ i.castSucc)
    (hr : 1 < (g.rows.filter fun r => decide (r.Pairwise (· < ·))).length)
    (h : cpFit I nJobs H = .ok (some C)) (hpos : C.R.S.logEv ≠ LogV.ninf) :
    (∃ D, C.R.hpd = some D ∧ D.length = g.rows.length ∧ D.map (· * g.hgc.prod) = (g.rows.zip ps).map fun q =>
      if q.1.Pairwise (· < ·) then q.2 * changeEvidence π q.1 τ L / overOrdered g.rows ps (changeEvidence π · τ L) else 0) ∧
    C.R.S.logEv.exp = I.E.cell ^ (pointNames H.tm).length * (ps.sum * g.hgc.prod) * overOrdered g.rows ps (changeEvidence π · τ L) /
      (((g.rows.zip ps).filter fun q => decide (q.1.Pairwise (· < ·))).map (·.2)).sum := by
  have hmm := Built.matched hb
  have hpr := hmm.proper
  have hnd := cpFit_nodup hpr hg h
  have hlen := rows_length hpr hg
  have hv := rows_candidates hpr hg hv
  have hord : ∀ r ∈ g.rows, decide (InOrder H.tm r) = decide (r.Pairwise (· < ·)) := fun r hr => by
    simp only [inOrder_step htm (hlen r hr)]
  have hfil : g.rows.filter (fun r => decide (InOrder H.tm r)) = g.rows.filter fun r => decide (r.Pairwise (· < ·)) := List.filter_congr hord
  have hmap : g.rows.map (fun r => decide (InOrder H.tm r)) = g.rows.map fun r => decide (r.Pairwise (· < ·)) := List.map_congr_left hord
  have hn : H.S.prior.isArray = false := by rcases hprior with h | ⟨v, h⟩ <;> rw [h] <;> rfl
  obtain ⟨As, qs, hpd, c1, c2, c3, c4, c5, c6, c7, c8, c9, c10, c11, c12, c13, -⟩ := cpFit_spec I nJobs H C g ps hb hsp hn hg hps (by rw [hfil]; exact hr) h
  rw [hfil] at c8
  rw [hmap] at c4 c5 c12
  set f : List K → Bool := fun r => decide (r.Pairwise (· < ·)) with hf
  set ev : List K → K := fun r => changeEvidence π r τ L with hev
  set sel := (g.rows.zip ps).filter fun q => f q.1 with hsel
  have hsz : sel = (g.rows.filter f).zip (select (g.rows.map f) ps) := select_zip f g.rows ps c6
  have hsl := select_length f g.rows ps c6
  have hcell : 0 < I.E.cell := Finset.prod_pos fun a _ => hE.lattice_pos a
  -- evidences of the combinations
  have hAs : As.map (fun A => A.logEv.exp) = (g.rows.filter f).map fun r => ev r * I.E.cell ^ (pointNames H.tm).length := by
    have : ∀ r ∈ g.rows.filter f, ∀ A, singleFit I H.tm H.S r = .ok A → A.logEv.exp = ev r * I.E.cell ^ (pointNames H.tm).length := by
      intro r hr A hA
      obtain ⟨hr1, hr2⟩ := List.mem_filter.1 hr
      have hlt : r.Pairwise (· < ·) := by simpa [hf] using hr2
      rw [pointNames_step _ htm, List.length_map, ← hlen r hr1]
      exact single_changes I H.tm H.S A hE htm hnd π hp hprior τ hτ hts L hls hL0 hmode (hlen r hr1) (hlt.imp fun h => h.ne) (hv r hr1) hA
    revert this
    generalize g.rows.filter f = R at c8
    clear * - c8
    induction c8 with
    | nil => intro _; rfl
    | cons h1 _ ih =>
        intro hall
        rw [List.map_cons, List.map_cons, hall _ (by simp) _ h1, ih fun r hr => hall r (by simp [hr])]
  set c := ps.sum / (select (g.rows.map f) ps).sum with hc
  set κ := I.E.cell ^ (pointNames H.tm).length with hκ
  have hss : (sel.map (·.2)) = select (g.rows.map f) ps := by rw [hsz, List.map_snd_zip (by rw [hsl])]
  have hT : C.R.S.logEv.exp = κ * (c * g.hgc.prod) * overOrdered g.rows ps ev := by
    rw [c13, hyperEvidence_eq, joint_eq, c4]
    rw [zip_values (fun a b => a * b * g.hgc.prod) (fun A : FitState K gs => A.logEv.exp) (fun r => ev r * κ) (· * c) As (g.rows.filter f) _ hAs, ← hsz]
    unfold overOrdered
    rw [← List.sum_map_mul_left]
    congr 1
    refine List.map_congr_left fun q _ => ?_
    ring
  have hT0 : C.R.S.logEv.exp ≠ 0 := fun h0 => hpos (LogV.ext_exp h0)
  refine ⟨?_, ?_⟩
  · have hev0 : ∀ A ∈ As, 0 ≤ A.logEv.exp := by
      intro A hA
      obtain ⟨row, -, hs⟩ := Singles.mem c8 hA
      exact fit_ev_nonneg hcell.le hs
    have hsn : ∀ p ∈ select (g.rows.map f) ps, 0 ≤ p := by
      intro p hp
      rw [← hss] at hp
      obtain ⟨q, hq, rfl⟩ := List.mem_map.1 hp
      exact hnn _ (List.of_mem_zip (List.mem_filter.1 hq).1).2
    have hqn : ∀ p ∈ qs, 0 ≤ p := by
      intro p hp
      rw [c4] at hp
      obtain ⟨q, hq, rfl⟩ := List.mem_map.1 hp
      exact mul_nonneg (hsn q hq) (div_nonneg (List.sum_nonneg hnn) (List.sum_nonneg hsn))
    obtain ⟨D, d1, d2, d3, d4⟩ := dist_spec c9 hev0 hqn (hgc_nonneg hpr hg) (T := C.R.S.logEv.exp) (by rw [c13, hyperEvidence_eq]) hT0
    refine ⟨scatter (g.rows.map f) D, by rw [c12, c11, d1]; rfl, by rw [scatter_length, List.length_map], ?_⟩
    rw [scatter_map, d3, c4, zip_values (fun a b => a * (b * g.hgc.prod) / C.R.S.logEv.exp) (fun A : FitState K gs => A.logEv.exp) (fun r => ev r * κ) (· * c)
      As (g.rows.filter f) _ hAs, ← hsz]
    rw [hsel, scatter_filter f _ g.rows ps c6]
    refine List.map_congr_left fun q _ => ?_
    simp only [hf, decide_eq_true_eq]
    split
    · rw [hT]
      rw [hT] at hT0
      have hX := left_ne_zero_of_mul hT0
      rw [show ev q.1 * κ * (q.2 * c * g.hgc.prod) = (κ * (c * g.hgc.prod)) * (q.2 * ev q.1) by ring, mul_div_mul_left _ _ hX]
    · rfl
  · rw [hT, hss, hc]
    ring

end study

end Props

namespace Ex
open BL Spec

/-- a change-point at any time step -/
def cpAll (n : String) : TM ℚ := .leaf .changePoint [n] [.all] (some (.item .none))
/-- two change-points at any time step -/
def cpTwo : HState ℚ gs2 := ⟨.combined [cpAll "a", cpAll "b"], S0 .none, [], none⟩
/-- one change-point with given candidates -/
def cpOne (l : List ℚ) : HState ℚ gs2 := ⟨cpOf "a" l, S0 .none, [], none⟩
/-- likelihoods of the data -/
def cpLik : Fin 4 → Idx gs2 → ℚ := ![v2 1 3, v2 2 1, v2 1 1, v2 1 3]
/-- irregular time stamps -/
def cpTimes : Fin 4 → ℚ := ![1, 2, 4, 5]
/-- four data points, grid cells of volume 2, full fit -/
def cpFull (lat : ℚ) : FitIn ℚ gs2 := ⟨env gs2 lat, grid gs2, List.ofFn cpLik, List.ofFn cpTimes, false, false, 1 / 1000⟩
/-- uniform probabilities -/
def cpUniform : Idx gs2 → ℚ := fun _ => 1 / (Fintype.card (Idx gs2) : ℚ)

end Ex

namespace Props
open BL Spec

theorem Ex.cpTimes_mono : StrictMono Ex.cpTimes := by
  rw [Fin.strictMono_iff_lt_succ]
  decide +kernel

theorem Ex.cpLik_pos : ∀ i x, 0 < Ex.cpLik i x := by decide +kernel

/-- Concrete case: four data points at the times 1, 2, 4, 5, cell volume 2, two change-points with the value `'all'`.  The study returns, and its distribution of the nine combinations is the exact one. -/
example : ∃ g ps C, createHyperGrid Ex.cpTwo.tm (Ex.cpFull 2).ts = .ok g ∧ g.priors = some ps ∧
    (g.rows.filter fun r => decide (r.Pairwise (· < ·))) = [[1, 2], [1, 4], [2, 4]] ∧ cpFit (Ex.cpFull 2) 1 Ex.cpTwo = .ok (some C) ∧
    ∃ D, C.R.hpd = some D ∧ D.map (· * g.hgc.prod) = (g.rows.zip ps).map fun q =>
      if q.1.Pairwise (· < ·) then q.2 * changeEvidence Ex.cpUniform q.1 Ex.cpTimes Ex.cpLik / overOrdered g.rows ps (changeEvidence Ex.cpUniform · Ex.cpTimes Ex.cpLik) else 0 := by
  obtain ⟨C, h1, h2⟩ := Ex.CpOk_iff.1 (show Ex.CpOk (cpFit (Ex.cpFull 2) 1 Ex.cpTwo) (fun C => decide (C.R.S.logEv.exp ≠ 0)) = true by decide +kernel)
  have hf : ∀ g, createHyperGrid Ex.cpTwo.tm (Ex.cpFull 2).ts = .ok g → (g.rows.filter fun r => decide (r.Pairwise (· < ·))) = [[1, 2], [1, 4], [2, 4]] := by
    intro g hg
    cases hg
    decide +kernel
  have hps : ∀ g, createHyperGrid Ex.cpTwo.tm (Ex.cpFull 2).ts = .ok g → g.priors = some (List.replicate 9 (1 / 9)) := by
    intro g hg
    cases hg
    decide +kernel
  obtain ⟨g, hg⟩ : ∃ g, createHyperGrid Ex.cpTwo.tm (Ex.cpFull 2).ts = .ok g := ⟨_, rfl⟩
  refine ⟨g, _, C, hg, hps g hg, hf g hg, h1, ?_⟩
  have hb : Built Ex.cpTwo.tm := by
    refine Built.combined (ms := [Ex.cpAll "a", Ex.cpAll "b"]) ?_ rfl
    intro a ha
    simp only [List.mem_cons, List.not_mem_nil, or_false] at ha
    rcases ha with rfl | rfl
    · exact Built.changePoint (name := "a") (value := .val .all) (prior := .item .none) trivial rfl
    · exact Built.changePoint (name := "b") (value := .val .all) (prior := .item .none) trivial rfl
  obtain ⟨⟨D, d1, -, d3⟩, -⟩ := C111_partial (Ex.cpFull 2) 1 Ex.cpTwo C g _ hb (by decide) ⟨⟨rfl, rfl⟩, ⟨rfl, rfl⟩, trivial⟩ (Ex.regular2 (by norm_num))
    Ex.cpUniform .flat (.inl rfl) Ex.cpTimes Ex.cpTimes_mono rfl Ex.cpLik rfl (fun i x => (Ex.cpLik_pos i x).le)
    (.inr (.inr (.inl ⟨ext_proper, trivial, Ex.cpLik_pos⟩))) hg (hps g hg) (by intro p hp; rw [List.eq_of_mem_replicate hp]; norm_num)
    (by
      intro e he
      have : e = ("a", .all) ∨ e = ("b", .all) := by simpa [Ex.cpTwo, Ex.cpAll, entries, entriesAll] using he
      rcases this with rfl | rfl <;> exact all_candidates Ex.cpTimes)
    (by rw [hf g hg]; decide) h1 (fun h0 => (of_decide_eq_true h2) (by rw [h0]; rfl))
  exact ⟨D, d1, d3⟩

/-- **C111 refuted** for candidate values that are no time stamps: a change-point with the candidates 1 and 3, data at the times 1, 2, 4, 5, unit cell volume.  The candidate 3 separates the data at 2 and 4, but the fit
treats it as "no change", and the distribution stored is not the posterior distribution. -/
theorem C111_refuted : ∃ g ps C D, createHyperGrid (Ex.cpOne [1, 3]).tm (Ex.cpFull 1).ts = .ok g ∧ g.priors = some ps ∧ g.rows = [[1], [3]] ∧ StepModel (Ex.cpOne [1, 3]).tm ∧
    cpFit (Ex.cpFull 1) 1 (Ex.cpOne [1, 3]) = .ok (some C) ∧ C.R.hpd = some D ∧
    D.map (· * g.hgc.prod) ≠ (g.rows.zip ps).map fun q =>
      if q.1.Pairwise (· < ·) then q.2 * changeEvidence Ex.cpUniform q.1 Ex.cpTimes Ex.cpLik / overOrdered g.rows ps (changeEvidence Ex.cpUniform · Ex.cpTimes Ex.cpLik) else 0 := by
  obtain ⟨C, h1, h2⟩ := Ex.CpOk_iff.1 (show Ex.CpOk (cpFit (Ex.cpFull 1) 1 (Ex.cpOne [1, 3])) (fun C => decide (C.R.hpd = some [5 / 21, 11 / 42])) = true by decide +kernel)
  refine ⟨_, [1 / 4, 1 / 4], C, _, rfl, by decide +kernel, by decide +kernel, ⟨rfl, rfl⟩, h1, of_decide_eq_true h2, ?_⟩
  decide +kernel

/-- **C111 refuted** for the last time stamp as candidate value if the cell volume is not one: the combination `[5]` (no change within the data) lacks the factor 2 which the combination `[1]` has. -/
theorem C111_last_refuted : ∃ g ps C D, createHyperGrid (Ex.cpOne [1, 5]).tm (Ex.cpFull 2).ts = .ok g ∧ g.priors = some ps ∧ g.rows = [[1], [5]] ∧ StepModel (Ex.cpOne [1, 5]).tm ∧
    cpFit (Ex.cpFull 2) 1 (Ex.cpOne [1, 5]) = .ok (some C) ∧ C.R.hpd = some D ∧
    D.map (· * g.hgc.prod) ≠ (g.rows.zip ps).map fun q =>
      if q.1.Pairwise (· < ·) then q.2 * changeEvidence Ex.cpUniform q.1 Ex.cpTimes Ex.cpLik / overOrdered g.rows ps (changeEvidence Ex.cpUniform · Ex.cpTimes Ex.cpLik) else 0 := by
  obtain ⟨C, h1, h2⟩ := Ex.CpOk_iff.1 (show Ex.CpOk (cpFit (Ex.cpFull 2) 1 (Ex.cpOne [1, 5])) (fun C => decide (C.R.hpd = some [5 / 31, 11 / 124])) = true by decide +kernel)
  refine ⟨_, [1 / 8, 1 / 8], C, _, rfl, by decide +kernel, by decide +kernel, ⟨rfl, rfl⟩, h1, of_decide_eq_true h2, ?_⟩
  decide +kernel

/-- a serial model of Static models separated by change-points -/
example : ∃ m : TM ℚ, mkSerial [mkStatic, mkChangePoint "a" (.val .all) (.item .none), mkStatic, mkChangePoint "b" (.val .all) (.item .none), mkStatic] = .ok m ∧ StepModel m :=
  ⟨_, rfl, rfl, rfl, rfl, by simp [SerialArg.model?]⟩

end Props
