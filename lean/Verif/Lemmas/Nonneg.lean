import Verif.Model.Fit
import Mathlib.Algebra.Order.BigOperators.Ring.Finset
import Mathlib.Algebra.BigOperators.Field
import Mathlib.Tactic.Linarith

/-! # Non-negativity and normalisation for ALL transition models -/

set_option linter.unusedSectionVars false

namespace BL

variable {K : Type} [Field K] [LinearOrder K] [IsStrictOrderedRing K] {d : ℕ} {gs : Fin d → ℕ}

/-- all (finite) entries are non-negative -/
def NN (p : Arr K gs) : Prop := ∀ q, p = some q → ∀ x, 0 ≤ q x

/-- the given prior values are non-negative -/
def PriorNN : PriorSpec K gs → Prop
  | .array a => NN a
  | .func v => ∀ x, 0 ≤ v x
  | .funcConst c => 0 ≤ c
  | .rvs _ _ v => ∀ x, 0 ≤ v x
  | _ => True

/-- The external functions keep non-negative arrays non-negative. -/
structure ExtNN (X : Ext K gs) : Prop where
  gauss : ∀ s k, 0 ≤ X.gaussW s k
  stable : ∀ c a k, 0 ≤ X.stableKer c a k
  biv : ∀ a b c k l, 0 ≤ X.bivKer a b c k l
  shift : ∀ a s p, (∀ x, 0 ≤ p x) → ∀ x, 0 ≤ X.shift a s p x

theorem NN.none : NN (none : Arr K gs) := fun q h => by simp at h

theorem NN.some {q : Idx gs → K} (h : ∀ x, 0 ≤ q x) : NN (some q) := by
  intro q' h'; cases h'; exact h

theorem normalize_NN {v : Idx gs → K} (h : ∀ x, 0 ≤ v x) : NN (normalize v) := by
  unfold normalize
  split
  · exact NN.none
  · exact NN.some fun x => div_nonneg (h x) (Finset.sum_nonneg fun y _ => h y)

theorem bind_NN {p : Arr K gs} {f : (Idx gs → K) → Arr K gs} (hp : NN p) (hf : ∀ q, (∀ x, 0 ≤ q x) → NN (f q)) :
    NN (p.bind f) := by
  cases p with
  | none => exact NN.none
  | some q => exact hf q (hp q rfl)

theorem map_NN {p : Arr K gs} {f : (Idx gs → K) → (Idx gs → K)} (hp : NN p)
    (hf : ∀ q, (∀ x, 0 ≤ q x) → ∀ x, 0 ≤ f q x) : NN (p.map f) := by
  cases p with
  | none => exact NN.none
  | some q => exact NN.some (hf q (hp q rfl))

theorem floorAt_NN {l : K} {q : Idx gs → K} (h : ∀ x, 0 ≤ q x) (x : Idx gs) : 0 ≤ floorAt l q x := by
  unfold floorAt
  split
  · rename_i h'; exact (h x).trans h'.le
  · exact h x

theorem resetArr_NN {E : Env K gs} (h : PriorNN E.prior) : NN E.resetArr := by
  unfold Env.resetArr
  cases hp : E.prior with
  | none => exact normalize_NN fun _ => zero_le_one
  | badArray => exact normalize_NN fun _ => zero_le_one
  | rvs n ok v => exact normalize_NN fun _ => zero_le_one
  | func v => rw [hp] at h; exact normalize_NN h
  | funcConst c =>
      simp only
      split
      · exact NN.none
      · exact NN.some fun _ => zero_le_one
  | array a => rw [hp] at h; exact bind_NN h fun q hq => normalize_NN hq

theorem resetCell_NN {E : Env K gs} (hl : ∀ a, 0 ≤ E.lattice a) (h : PriorNN E.prior) : NN E.resetCell :=
  map_NN (resetArr_NN h) fun q hq x => mul_nonneg (hq x) (Finset.prod_nonneg fun a _ => hl a)

theorem amax_ge {q : Idx gs → K} {m : K} (h : amax q = some m) (x : Idx gs) : q x ≤ m := by
  have : (Finset.univ.image q).max = (m : WithBot K) := h
  exact Finset.le_max_of_eq (Finset.mem_image_of_mem q (Finset.mem_univ x)) this

theorem detShift_NN {E : Env K gs} (hX : ExtNN E.ext) {a : Fin d} {s : K} {p q : Arr K gs} (hp : NN p)
    (h : detShift E a s p = .ok q) : NN q := by
  unfold detShift at h
  split at h
  · simp at h
  · cases h
    exact bind_NN hp fun r hr => normalize_NN (hX.shift _ _ _ hr)

theorem leafFwd_NN {E : Env K gs} (hX : ExtNN E.ext) (hl : ∀ a, 0 ≤ E.lattice a) (hpr : PriorNN E.prior)
    {toff : K} {k : Leaf K} {vals : List (HVal K)} {p q : Arr K gs} {t : K} (hp : NN p)
    (h : leafFwd E toff k vals p t = .ok q) : NN q := by
  cases k with
  | static => cases h; exact hp
  | grw target =>
      simp only [leafFwd, grwFwd, bind, Except.bind] at h
      split at h
      · simp at h
      · split at h
        · simp at h
        · split at h
          · split at h
            · simp at h
            · cases h; exact hp
          · split at h
            · cases h
              exact map_NN hp fun q hq x => Finset.sum_nonneg fun k _ => mul_nonneg (hX.gauss _ _) (hq _)
            · cases h; exact hp
  | alphaStable target =>
      simp only [leafFwd, alphaFwd, bind, Except.bind] at h
      split at h
      · simp at h
      · split at h
        · simp at h
        · split at h
          · simp at h
          · split at h
            · split at h
              · simp at h
              · cases h
                refine bind_NN hp fun q hq => normalize_NN fun x => Finset.sum_nonneg fun y _ => mul_nonneg (hq _) ?_
                show 0 ≤ ite _ _ _
                split
                · exact hX.stable _ _ _
                · exact le_refl _
            · split at h <;> simp at h
  | changePoint =>
      simp only [leafFwd, bind, Except.bind] at h
      split at h
      · simp at h
      · split at h
        · cases h; exact resetCell_NN hl hpr
        · cases h; exact hp
  | independent => cases h; exact resetArr_NN hpr
  | regimeSwitch =>
      simp only [leafFwd, regimeFwd, bind, Except.bind] at h
      split at h
      · simp at h
      · cases h
        exact bind_NN hp fun q hq => normalize_NN (floorAt_NN hq)
  | notEqual =>
      simp only [leafFwd, notEqualFwd, bind, Except.bind] at h
      split at h
      · simp at h
      · cases p with
        | none => cases h; exact NN.none
        | some r =>
            simp only at h
            split at h
            · simp at h
            · rename_i m hm
              cases h
              exact bind_NN (normalize_NN fun x => sub_nonneg.2 (amax_ge hm x)) fun q hq => normalize_NN (floorAt_NN hq)
  | deterministic f target =>
      simp only [leafFwd, bind, Except.bind] at h
      split at h
      · simp at h
      · split at h
        · simp at h
        · exact detShift_NN hX hp h
  | bivariate =>
      simp only [leafFwd, bivFwd, bind, Except.bind] at h
      split at h
      · simp at h
      · split at h
        · simp at h
        · split at h
          · simp at h
          · split at h
            · split at h
              · simp at h
              · split at h
                · simp at h
                · cases h
                  exact bind_NN hp fun q hq => normalize_NN fun x => Finset.sum_nonneg fun y _ => mul_nonneg (hq _) (hX.biv _ _ _ _ _)
            · simp at h
  | breakPoint => simp [leafFwd] at h

theorem leafBwd_NN {E : Env K gs} (hX : ExtNN E.ext) (hl : ∀ a, 0 ≤ E.lattice a) (hpr : PriorNN E.prior)
    {toff : K} {k : Leaf K} {vals : List (HVal K)} {p q : Arr K gs} {t : K} (hp : NN p)
    (h : leafBwd E toff k vals p t = .ok q) : NN q := by
  cases k with
  | deterministic f target =>
      simp only [leafBwd, bind, Except.bind] at h
      split at h
      · simp at h
      · split at h
        · simp at h
        · exact detShift_NN hX hp h
  | static => exact leafFwd_NN hX hl hpr hp (by simpa only [leafBwd] using h)
  | grw target => exact leafFwd_NN hX hl hpr hp (by simpa only [leafBwd] using h)
  | alphaStable target => exact leafFwd_NN hX hl hpr hp (by simpa only [leafBwd] using h)
  | changePoint => exact leafFwd_NN hX hl hpr hp (by simpa only [leafBwd] using h)
  | independent => exact leafFwd_NN hX hl hpr hp (by simpa only [leafBwd] using h)
  | regimeSwitch => exact leafFwd_NN hX hl hpr hp (by simpa only [leafBwd] using h)
  | notEqual => exact leafFwd_NN hX hl hpr hp (by simpa only [leafBwd] using h)
  | bivariate => exact leafFwd_NN hX hl hpr hp (by simpa only [leafBwd] using h)
  | breakPoint => exact leafFwd_NN hX hl hpr hp (by simpa only [leafBwd] using h)

theorem cpCheck_NN {E : Env K gs} (hl : ∀ a, 0 ≤ E.lattice a) (hpr : PriorNN E.prior) {vs : List K} {mask : List Bool}
    {p : Arr K gs} (hp : NN p) (t : K) : NN (cpCheck E vs mask p t) := by
  unfold cpCheck
  split
  · exact resetCell_NN hl hpr
  · exact hp

mutual
theorem fwd_NN {E : Env K gs} (hX : ExtNN E.ext) (hl : ∀ a, 0 ≤ E.lattice a) (hpr : PriorNN E.prior) :
    ∀ (tm : TM K) (toff : K) (p q : Arr K gs) (t : K), NN p → tm.fwd E toff p t = .ok q → NN q
  | .leaf k _ vals _, toff, p, q, t, hp, h => by rw [TM.fwd] at h; exact leafFwd_NN hX hl hpr hp h
  | .combined ms, toff, p, q, t, hp, h => by rw [TM.fwd] at h; exact fwdAll_NN hX hl hpr ms toff p q t hp h
  | .serial _ vals _ mask ms, toff, p, q, t, hp, h => by
      simp only [TM.fwd, bind, Except.bind] at h
      split at h
      · simp at h
      · split at h
        · simp at h
        · rename_i h'
          cases h
          exact cpCheck_NN hl hpr (fwdNth_NN hX hl hpr ms _ _ _ _ t hp h') t
theorem fwdAll_NN {E : Env K gs} (hX : ExtNN E.ext) (hl : ∀ a, 0 ≤ E.lattice a) (hpr : PriorNN E.prior) :
    ∀ (ms : List (TM K)) (toff : K) (p q : Arr K gs) (t : K), NN p → TM.fwdAll E toff ms p t = .ok q → NN q
  | [], toff, p, q, t, hp, h => by rw [TM.fwdAll] at h; cases h; exact hp
  | m :: ms, toff, p, q, t, hp, h => by
      simp only [TM.fwdAll, bind, Except.bind] at h
      split at h
      · simp at h
      · rename_i h'
        exact fwdAll_NN hX hl hpr ms toff _ q t (fwd_NN hX hl hpr m toff p _ t hp h') h
theorem fwdNth_NN {E : Env K gs} (hX : ExtNN E.ext) (hl : ∀ a, 0 ≤ E.lattice a) (hpr : PriorNN E.prior) :
    ∀ (ms : List (TM K)) (toff : K) (i : ℕ) (p q : Arr K gs) (t : K), NN p → TM.fwdNth E toff ms i p t = .ok q → NN q
  | [], toff, i, p, q, t, hp, h => by simp [TM.fwdNth] at h
  | m :: ms, toff, 0, p, q, t, hp, h => by rw [TM.fwdNth] at h; exact fwd_NN hX hl hpr m toff p q t hp h
  | m :: ms, toff, i + 1, p, q, t, hp, h => by rw [TM.fwdNth] at h; exact fwdNth_NN hX hl hpr ms toff i p q t hp h
end

mutual
theorem bwd_NN {E : Env K gs} (hX : ExtNN E.ext) (hl : ∀ a, 0 ≤ E.lattice a) (hpr : PriorNN E.prior) :
    ∀ (tm : TM K) (toff : K) (p q : Arr K gs) (t : K), NN p → tm.bwd E toff p t = .ok q → NN q
  | .leaf k _ vals _, toff, p, q, t, hp, h => by rw [TM.bwd] at h; exact leafBwd_NN hX hl hpr hp h
  | .combined ms, toff, p, q, t, hp, h => by rw [TM.bwd] at h; exact bwdAll_NN hX hl hpr ms toff p q t hp h
  | .serial _ vals _ mask ms, toff, p, q, t, hp, h => by
      simp only [TM.bwd, bind, Except.bind] at h
      split at h
      · simp at h
      · split at h
        · simp at h
        · rename_i h'
          cases h
          exact cpCheck_NN hl hpr (bwdNth_NN hX hl hpr ms _ _ _ _ t hp h') _
theorem bwdAll_NN {E : Env K gs} (hX : ExtNN E.ext) (hl : ∀ a, 0 ≤ E.lattice a) (hpr : PriorNN E.prior) :
    ∀ (ms : List (TM K)) (toff : K) (p q : Arr K gs) (t : K), NN p → TM.bwdAll E toff ms p t = .ok q → NN q
  | [], toff, p, q, t, hp, h => by rw [TM.bwdAll] at h; cases h; exact hp
  | m :: ms, toff, p, q, t, hp, h => by
      simp only [TM.bwdAll, bind, Except.bind] at h
      split at h
      · simp at h
      · rename_i h'
        exact bwdAll_NN hX hl hpr ms toff _ q t (bwd_NN hX hl hpr m toff p _ t hp h') h
theorem bwdNth_NN {E : Env K gs} (hX : ExtNN E.ext) (hl : ∀ a, 0 ≤ E.lattice a) (hpr : PriorNN E.prior) :
    ∀ (ms : List (TM K)) (toff : K) (i : ℕ) (p q : Arr K gs) (t : K), NN p → TM.bwdNth E toff ms i p t = .ok q → NN q
  | [], toff, i, p, q, t, hp, h => by simp [TM.bwdNth] at h
  | m :: ms, toff, 0, p, q, t, hp, h => by rw [TM.bwdNth] at h; exact bwd_NN hX hl hpr m toff p q t hp h
  | m :: ms, toff, i + 1, p, q, t, hp, h => by rw [TM.bwdNth] at h; exact bwdNth_NN hX hl hpr ms toff i p q t hp h
end

theorem computePrior_NN {E : Env K gs} (hl : ∀ a, 0 ≤ E.lattice a) (hpr : PriorNN E.prior) {a : Arr K gs} {pr : PriorSpec K gs}
    (h : computePrior E = .ok (a, pr)) : NN a ∧ PriorNN pr := by
  have hc : 0 ≤ E.cell := Finset.prod_nonneg fun a _ => hl a
  have hd : ∀ v : Idx gs → K, (∀ x, 0 ≤ v x) → NN ((normalize v).bind (divScalar · E.cell)) := fun v hv =>
    bind_NN (normalize_NN hv) fun q hq => by
      unfold divScalar
      split
      · exact NN.none
      · exact NN.some fun x => div_nonneg (hq x) hc
  unfold computePrior at h
  cases hp : E.prior with
  | none => rw [hp] at h; cases h; exact ⟨hd _ fun _ => zero_le_one, trivial⟩
  | badArray => rw [hp] at h; cases h
  | array b =>
      rw [hp] at h hpr
      cases b with
      | none => cases h; exact ⟨NN.none, NN.none⟩
      | some v =>
          have hv := hpr v rfl
          simp only at h
          split at h
          · cases h; exact ⟨hd _ hv, hd _ hv⟩
          · cases h; exact ⟨NN.some hv, NN.some hv⟩
  | func v =>
      rw [hp] at h hpr
      simp only at h
      split at h
      · cases h; exact ⟨hd _ hpr, hpr⟩
      · cases h; exact ⟨NN.some hpr, hpr⟩
  | funcConst c =>
      rw [hp] at h hpr
      simp only at h
      split at h
      · cases h; exact ⟨hd _ fun _ => hpr, hpr⟩
      · cases h; exact ⟨NN.some fun _ => hpr, hpr⟩
  | rvs n ok v =>
      rw [hp] at h hpr
      simp only at h
      split at h
      · cases h
      · split at h
        · cases h; exact ⟨NN.some hpr, hpr⟩
        · cases h

/-- invariants of the forward loop -/
theorem fwdPass_inv {E : Env K gs} {tm : TM K} (hX : ExtNN E.ext) (hl : ∀ a, 0 ≤ E.lattice a) :
    ∀ (Ls : List (Idx gs → K)) (ts : List K) (al : Bool) (pr : PriorSpec K gs) (a : Arr K gs) (r : FwdOut K gs),
    (∀ L ∈ Ls, ∀ x, 0 ≤ L x) → PriorNN pr → NN a → fwdPass E tm al pr a Ls ts = .ok r →
    (∀ s ∈ r.steps, (∀ x, 0 ≤ s.alpha x) ∧ ∑ x, s.alpha x = 1 ∧ (∀ x, 0 ≤ s.lik x) ∧ 0 < s.norm) ∧ PriorNN r.prior
  | [], ts, al, pr, a, r, hL, hpr, ha, h => by
      rw [fwdPass] at h; cases h; exact ⟨by simp, hpr⟩
  | L :: Ls, ts, al, pr, none, r, hL, hpr, ha, h => by
      rw [fwdPass] at h; cases h; exact ⟨by simp, hpr⟩
  | L :: Ls, ts, al, pr, some a, r, hL, hpr, ha, h => by
      have ha0 : ∀ x, 0 ≤ a x * L x := fun x => mul_nonneg (ha a rfl x) (hL L (by simp) x)
      rw [fwdPass] at h
      simp only at h
      split at h
      · rename_i hn
        have hα : ∀ x, 0 ≤ a x * L x / ∑ x, a x * L x := fun x => div_nonneg (ha0 x) hn.le
        have hpr' : PriorNN (if al = true then PriorSpec.array (some fun x => a x * L x / ∑ x, a x * L x) else pr) := by
          split
          · exact NN.some hα
          · exact hpr
        cases ts with
        | nil => simp at h
        | cons t ts =>
            simp only [bind, Except.bind] at h
            split at h
            · simp at h
            · rename_i nx hnx
              split at h
              · simp at h
              · rename_i r1 hr1
                cases h
                have hnn := fwd_NN (E := { E with prior := (if al = true then PriorSpec.array (some fun x => a x * L x / ∑ x, a x * L x) else pr) }) hX hl hpr' tm 0 _ nx t (NN.some hα) hnx
                obtain ⟨h1, h2⟩ := fwdPass_inv hX hl Ls ts _ _ nx r1 (fun L' h' => hL L' (by simp [h'])) hpr' hnn hr1
                refine ⟨?_, h2⟩
                intro s hs
                rcases List.mem_cons.1 hs with rfl | hs
                · exact ⟨hα, by rw [← Finset.sum_div]; exact div_self hn.ne', hL L (by simp), hn⟩
                · exact h1 s hs
      · cases h
        refine ⟨by simp, ?_⟩
        simp only
        split
        · exact NN.some ha0
        · exact hpr

/-- invariants of the forward loop that need no assumption -/
theorem fwdPass_sum {E : Env K gs} {tm : TM K} :
    ∀ (Ls : List (Idx gs → K)) (ts : List K) (al : Bool) (pr : PriorSpec K gs) (a : Arr K gs) (r : FwdOut K gs),
    fwdPass E tm al pr a Ls ts = .ok r →
    (∀ s ∈ r.steps, ∑ x, s.alpha x = 1) ∧ (r.stopped = false → r.steps.length = Ls.length)
  | [], ts, al, pr, a, r, h => by
      rw [fwdPass] at h; cases h; exact ⟨by simp, by simp⟩
  | L :: Ls, ts, al, pr, none, r, h => by
      rw [fwdPass] at h; cases h; exact ⟨by simp, by simp⟩
  | L :: Ls, ts, al, pr, some a, r, h => by
      rw [fwdPass] at h
      simp only at h
      split at h
      · rename_i hn
        cases ts with
        | nil => simp at h
        | cons t ts =>
            simp only [bind, Except.bind] at h
            split at h
            · simp at h
            · rename_i nx hnx
              split at h
              · simp at h
              · rename_i r1 hr1
                cases h
                obtain ⟨h1, h2⟩ := fwdPass_sum Ls ts _ _ nx r1 hr1
                refine ⟨?_, fun hs => by simp [h2 hs]⟩
                intro s hs
                rcases List.mem_cons.1 hs with rfl | hs
                · rw [← Finset.sum_div]; exact div_self hn.ne'
                · exact h1 s hs
      · cases h
        exact ⟨by simp, by simp⟩

theorem bwdPass_sum {E : Env K gs} {tm : TM K} : ∀ (st : List (Step K gs)) (o : BwdOut K gs),
    bwdPass E tm st = .ok o → o.stopped = false →
    (∀ c ∈ o.posts, ∃ p, c = .val p ∧ ∑ x, p x = 1) ∧ o.posts.length = st.length
  | [], o, h, _ => by rw [bwdPass] at h; cases h; simp
  | s :: rest, o, h, hs => by
      simp only [bwdPass, bind, Except.bind] at h
      split at h
      · simp at h
      · rename_i o' ho'
        split at h
        · rename_i hst
          cases h; simp [hst] at hs
        · rename_i hst
          split at h
          · cases h; simp at hs
          · rename_i b hb
            split at h
            · rename_i hn
              split at h
              · simp at h
              · cases h
                obtain ⟨h1, h2⟩ := bwdPass_sum rest o' ho' (by simpa using hst)
                refine ⟨?_, by simp [h2]⟩
                intro c hc
                rcases List.mem_cons.1 hc with rfl | hc
                · exact ⟨_, rfl, by rw [← Finset.sum_div]; exact div_self hn.ne'⟩
                · exact h1 c hc
            · cases h; simp at hs

theorem bwdPass_NN {E : Env K gs} {tm : TM K} (hX : ExtNN E.ext) (hl : ∀ a, 0 ≤ E.lattice a) (hpr : PriorNN E.prior) :
    ∀ (st : List (Step K gs)) (o : BwdOut K gs), (∀ s ∈ st, (∀ x, 0 ≤ s.alpha x) ∧ (∀ x, 0 ≤ s.lik x)) →
    bwdPass E tm st = .ok o →
    (∀ c ∈ o.posts, ∀ p, c = .val p → ∀ x, 0 ≤ p x) ∧ NN o.beta
  | [], o, _, h => by rw [bwdPass] at h; cases h; exact ⟨by simp, normalize_NN fun _ => zero_le_one⟩
  | s :: rest, o, hst, h => by
      simp only [bwdPass, bind, Except.bind] at h
      split at h
      · simp at h
      · rename_i o' ho'
        obtain ⟨h1, h2⟩ := bwdPass_NN hX hl hpr rest o' (fun s' h' => hst s' (by simp [h'])) ho'
        have hs := hst s (by simp)
        split at h
        · cases h
          refine ⟨?_, h2⟩
          intro c hc
          rcases List.mem_cons.1 hc with rfl | hc
          · intro p hp; cases hp; exact hs.1
          · exact h1 c hc
        · split at h
          · cases h
            refine ⟨?_, h2⟩
            intro c hc
            rcases List.mem_cons.1 hc with rfl | hc
            · intro p hp; cases hp
            · exact h1 c hc
          · rename_i b hb
            have hbn := h2 b hb
            have hq : ∀ x, 0 ≤ s.alpha x * b x := fun x => mul_nonneg (hs.1 x) (hbn x)
            split at h
            · rename_i hn
              split at h
              · simp at h
              · rename_i nb hnb
                cases h
                refine ⟨?_, ?_⟩
                · intro c hc
                  rcases List.mem_cons.1 hc with rfl | hc
                  · intro p hp; cases hp; exact fun x => div_nonneg (hq x) hn.le
                  · exact h1 c hc
                · exact bind_NN (bwd_NN hX hl hpr tm 0 _ nb s.t (NN.some fun x => mul_nonneg (hbn x) (hs.2 x)) hnb)
                    fun q hq => normalize_NN hq
            · cases h
              refine ⟨?_, h2⟩
              intro c hc
              rcases List.mem_cons.1 hc with rfl | hc
              · intro p hp; cases hp; exact hq
              · exact h1 c hc

theorem mean_bounds {grid : (a : Fin d) → Fin (gs a) → K} {a : Fin d} {p : Idx gs → K} {lo hi : K}
    (hg : ∀ i, lo ≤ grid a i ∧ grid a i ≤ hi) (h0 : ∀ x, 0 ≤ p x) (h1 : ∑ x, p x = 1) :
    lo ≤ mean grid a p ∧ mean grid a p ≤ hi := by
  unfold mean
  constructor
  · calc lo = ∑ x, p x * lo := by rw [← Finset.sum_mul, h1, one_mul]
      _ ≤ _ := Finset.sum_le_sum fun x _ => mul_le_mul_of_nonneg_left (hg _).1 (h0 x)
  · calc _ ≤ ∑ x, p x * hi := Finset.sum_le_sum fun x _ => mul_le_mul_of_nonneg_left (hg _).2 (h0 x)
      _ = hi := by rw [← Finset.sum_mul, h1, one_mul]

end BL
