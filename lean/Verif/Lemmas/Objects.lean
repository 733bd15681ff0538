import Verif.Model.Objects
import Verif.Lemmas.Prior
import Verif.Spec.Objects

/-! # Transition-model objects: what a computation reads and writes -/

set_option linter.unusedSectionVars false

namespace BL
variable {K D : Type} [Field K] [LinearOrder K] [IsStrictOrderedRing K] {d : ℕ} {gs : Fin d → ℕ}

/-! ## The algorithm of `fit` with two related states -/

section
variable {σ τ : Type} {R : σ → τ → Prop}

/-- same result and related states -/
def StRel {α : Type} (R : σ → τ → Prop) (a : σ × Except PyErr α) (b : τ × Except PyErr α) : Prop := a.2 = b.2 ∧ R a.1 b.1

theorem fwdPassS_rel {ra : K → Bool} {f : σ → PriorSpec K gs → Arr K gs → K → σ × Except PyErr (Arr K gs)} {g : τ → PriorSpec K gs → Arr K gs → K → τ × Except PyErr (Arr K gs)}
    (hfg : ∀ s s' pr p t, R s s' → StRel R (f s pr p t) (g s' pr p t)) :
    ∀ (Ls : List (Idx gs → K)) (ts : List K) (s : σ) (s' : τ) (al : Bool) (pr : PriorSpec K gs) (a : Arr K gs), R s s' →
      StRel R (fwdPassS ra f s al pr a Ls ts) (fwdPassS ra g s' al pr a Ls ts) := by
  intro Ls
  induction Ls with
  | nil => intro ts s s' al pr a h; cases a <;> exact ⟨rfl, h⟩
  | cons L Ls ih =>
    intro ts s s' al pr a h
    cases a with
    | none => exact ⟨rfl, h⟩
    | some a =>
      simp only [fwdPassS]
      split
      · cases ts with
        | nil => exact ⟨rfl, h⟩
        | cons t ts =>
          simp only
          generalize (if al = true then PriorSpec.array (some fun x => a x * L x / ∑ x, a x * L x) else pr) = pr'
          obtain ⟨h1, h2⟩ := hfg s s' pr' (some fun x => a x * L x / ∑ x, a x * L x) t h
          revert h1 h2
          generalize f s pr' (some fun x => a x * L x / ∑ x, a x * L x) t = u
          generalize g s' pr' (some fun x => a x * L x / ∑ x, a x * L x) t = v
          obtain ⟨u1, u2⟩ := u
          obtain ⟨v1, v2⟩ := v
          rintro h1 h2
          simp only at h1 h2
          subst h1
          cases u2 with
          | error e => exact ⟨rfl, h2⟩
          | ok nx =>
            simp only
            obtain ⟨h3, h4⟩ := ih ts u1 v1 (al && ra t) pr' nx h2
            revert h3 h4
            generalize fwdPassS ra f u1 (al && ra t) pr' nx Ls ts = u
            generalize fwdPassS ra g v1 (al && ra t) pr' nx Ls ts = v
            obtain ⟨u1, u2⟩ := u
            obtain ⟨v1, v2⟩ := v
            rintro h3 h4
            simp only at h3 h4
            subst h3
            cases u2 <;> exact ⟨rfl, h4⟩
      · exact ⟨rfl, h⟩

theorem bwdPassS_rel {E : Env K gs} {f : σ → Arr K gs → K → σ × Except PyErr (Arr K gs)} {g : τ → Arr K gs → K → τ × Except PyErr (Arr K gs)}
    (hfg : ∀ s s' p t, R s s' → StRel R (f s p t) (g s' p t)) :
    ∀ (ss : List (Step K gs)) (s : σ) (s' : τ), R s s' → StRel R (bwdPassS E f s ss) (bwdPassS E g s' ss) := by
  intro ss
  induction ss with
  | nil => intro s s' h; exact ⟨rfl, h⟩
  | cons st ss ih =>
    intro s s' h
    simp only [bwdPassS]
    obtain ⟨h1, h2⟩ := ih s s' h
    revert h1 h2
    generalize bwdPassS E f s ss = u
    generalize bwdPassS E g s' ss = v
    obtain ⟨u1, u2⟩ := u
    obtain ⟨v1, v2⟩ := v
    rintro h1 h2
    simp only at h1 h2
    subst h1
    cases u2 with
    | error e => exact ⟨rfl, h2⟩
    | ok o =>
      simp only
      split
      · exact ⟨rfl, h2⟩
      · cases o.beta with
        | none => exact ⟨rfl, h2⟩
        | some b =>
          simp only
          split
          · obtain ⟨h3, h4⟩ := hfg u1 v1 (some fun x => b x * st.lik x) st.t h2
            revert h3 h4
            generalize f u1 (some fun x => b x * st.lik x) st.t = u
            generalize g v1 (some fun x => b x * st.lik x) st.t = v
            obtain ⟨u1, u2⟩ := u
            obtain ⟨v1, v2⟩ := v
            rintro h3 h4
            simp only at h3 h4
            subst h3
            cases u2 <;> exact ⟨rfl, h4⟩
          · exact ⟨rfl, h2⟩

theorem fitS_rel {E : Env K gs} {grid : (a : Fin d) → Fin (gs a) → K} {ra : K → Bool}
    {f fb : σ → PriorSpec K gs → Arr K gs → K → σ × Except PyErr (Arr K gs)} {g gb : τ → PriorSpec K gs → Arr K gs → K → τ × Except PyErr (Arr K gs)}
    (hf : ∀ s s' pr p t, R s s' → StRel R (f s pr p t) (g s' pr p t)) (hb : ∀ s s' pr p t, R s s' → StRel R (fb s pr p t) (gb s' pr p t))
    (liks : List (Idx gs → K)) (ts : List K) (fo eo : Bool) (S : FitState K gs) (s : σ) (s' : τ) (h : R s s') :
    StRel R (fitS E grid ra f fb liks ts fo eo S s) (fitS E grid ra g gb liks ts fo eo S s') := by
  simp only [fitS]
  split
  · exact ⟨rfl, h⟩
  · rename_i a0 pr0 _
    obtain ⟨h1, h2⟩ := fwdPassS_rel (ra := ra) hf liks ts s s' pr0.isArray pr0 a0 h
    revert h1 h2
    generalize fwdPassS ra f s pr0.isArray pr0 a0 liks ts = u
    generalize fwdPassS ra g s' pr0.isArray pr0 a0 liks ts = v
    obtain ⟨u1, u2⟩ := u
    obtain ⟨v1, v2⟩ := v
    rintro h1 h2
    simp only at h1 h2
    subst h1
    cases u2 with
    | error e => exact ⟨rfl, h2⟩
    | ok o =>
      simp only
      split
      · exact ⟨rfl, h2⟩
      · split
        · exact ⟨rfl, h2⟩
        · split
          · exact ⟨rfl, h2⟩
          · obtain ⟨h3, h4⟩ := bwdPassS_rel (E := E) (f := fun s => fb s o.prior) (g := fun s => gb s o.prior) (fun s s' p t h => hb s s' o.prior p t h) o.steps u1 v1 h2
            revert h3 h4
            generalize bwdPassS E (fun s => fb s o.prior) u1 o.steps = u
            generalize bwdPassS E (fun s => gb s o.prior) v1 o.steps = v
            obtain ⟨u1, u2⟩ := u
            obtain ⟨v1, v2⟩ := v
            rintro h3 h4
            simp only at h3 h4
            subst h3
            cases u2 with
            | error e => exact ⟨rfl, h4⟩
            | ok b => simp only; split <;> exact ⟨rfl, h4⟩

/-! without state: the algorithm of Model/Fit.lean -/

/-- the compute functions of a transition model that is a value -/
def pureF (E : Env K gs) (m : TM K) : Unit → PriorSpec K gs → Arr K gs → K → Unit × Except PyErr (Arr K gs) := fun _ pr p t => ((), TM.fwd { E with prior := pr } 0 m p t)
/-- the compute functions of a transition model that is a value -/
def pureB (E : Env K gs) (m : TM K) : Unit → PriorSpec K gs → Arr K gs → K → Unit × Except PyErr (Arr K gs) := fun _ pr p t => ((), TM.bwd { E with prior := pr } 0 m p t)

theorem fwdPassS_pure (E : Env K gs) (m : TM K) : ∀ (Ls : List (Idx gs → K)) (ts : List K) (al : Bool) (pr : PriorSpec K gs) (a : Arr K gs),
    (fwdPassS m.returnsArg (pureF E m) () al pr a Ls ts).2 = fwdPass E m al pr a Ls ts := by
  intro Ls
  induction Ls with
  | nil => intro ts al pr a; cases a <;> rfl
  | cons L Ls ih =>
    intro ts al pr a
    cases a with
    | none => rfl
    | some a =>
      simp only [fwdPassS, fwdPass]
      split
      · cases ts with
        | nil => rfl
        | cons t ts =>
          simp only [pureF, bind, Except.bind]
          cases TM.fwd { E with prior := if al = true then PriorSpec.array (some fun x => a x * L x / ∑ x, a x * L x) else pr } 0 m
            (some fun x => a x * L x / ∑ x, a x * L x) t with
          | error e => rfl
          | ok nx =>
            simp only
            rw [← ih ts]
            generalize fwdPassS m.returnsArg (pureF E m) () (al && m.returnsArg t) _ nx Ls ts = u
            obtain ⟨u1, u2⟩ := u
            cases u2 <;> rfl
      · rfl

theorem bwdPassS_pure (E : Env K gs) (m : TM K) (pr : PriorSpec K gs) : ∀ ss : List (Step K gs),
    (bwdPassS E (fun s => pureB E m s pr) () ss).2 = bwdPass { E with prior := pr } m ss := by
  intro ss
  induction ss with
  | nil => rfl
  | cons st ss ih =>
    simp only [bwdPassS, bwdPass]
    rw [← ih]
    generalize bwdPassS E (fun s => pureB E m s pr) () ss = u
    obtain ⟨u1, u2⟩ := u
    cases u2 with
    | error e => rfl
    | ok o =>
      simp only [bind, Except.bind]
      split
      · rfl
      · cases o.beta with
        | none => rfl
        | some b =>
          simp only
          split
          · simp only [pureB]
            cases TM.bwd { E with prior := pr } 0 m (some fun x => b x * st.lik x) st.t <;> rfl
          · rfl

theorem fitS_pure (E : Env K gs) (grid : (a : Fin d) → Fin (gs a) → K) (m : TM K) (liks : List (Idx gs → K)) (ts : List K) (fo eo : Bool) (S : FitState K gs) :
    (fitS E grid m.returnsArg (pureF E m) (pureB E m) liks ts fo eo S ()).2 = fit E grid m liks ts fo eo S := by
  simp only [fitS, fit]
  cases computePrior { E with prior := S.prior } with
  | error e => rfl
  | ok ap =>
    obtain ⟨a0, pr0⟩ := ap
    simp only [bind, Except.bind]
    rw [← fwdPassS_pure]
    generalize fwdPassS m.returnsArg (pureF E m) () pr0.isArray pr0 a0 liks ts = u
    obtain ⟨u1, u2⟩ := u
    cases u2 with
    | error e => rfl
    | ok f =>
      simp only
      split
      · rfl
      · split
        · rfl
        · split
          · rfl
          · rw [← bwdPassS_pure]
            generalize bwdPassS E (fun s => pureB E m s f.prior) () f.steps = u
            obtain ⟨u1, u2⟩ := u
            cases u2 with
            | error e => rfl
            | ok b => simp only; split <;> rfl

/-! invariants of the state, and the attribute `prior` -/

theorem fwdPassS_inv {ra : K → Bool} {f : σ → PriorSpec K gs → Arr K gs → K → σ × Except PyErr (Arr K gs)} {I : σ → Prop} (hf : ∀ s pr p t, I s → I (f s pr p t).1) :
    ∀ (Ls : List (Idx gs → K)) (ts : List K) (s : σ) (al : Bool) (pr : PriorSpec K gs) (a : Arr K gs), I s → I (fwdPassS ra f s al pr a Ls ts).1 := by
  intro Ls ts s al pr a h
  exact (fwdPassS_rel (R := fun s s' => I s ∧ s = s') (f := f) (g := f) (ra := ra) (fun s s' pr p t hs => ⟨by rw [hs.2], hf _ _ _ _ hs.1, by rw [hs.2]⟩) Ls ts s s al pr a ⟨h, rfl⟩).2.1

theorem fitS_inv {E : Env K gs} {grid : (a : Fin d) → Fin (gs a) → K} {ra : K → Bool} {f fb : σ → PriorSpec K gs → Arr K gs → K → σ × Except PyErr (Arr K gs)} {I : σ → Prop}
    (hf : ∀ s pr p t, I s → I (f s pr p t).1) (hb : ∀ s pr p t, I s → I (fb s pr p t).1) (liks : List (Idx gs → K)) (ts : List K) (fo eo : Bool) (S : FitState K gs) (s : σ) (h : I s) :
    I (fitS E grid ra f fb liks ts fo eo S s).1 :=
  (fitS_rel (R := fun s s' => I s ∧ s = s') (f := f) (g := f) (fb := fb) (gb := fb) (ra := ra) (fun s s' pr p t hs => ⟨by rw [hs.2], hf _ _ _ _ hs.1, by rw [hs.2]⟩)
    (fun s s' pr p t hs => ⟨by rw [hs.2], hb _ _ _ _ hs.1, by rw [hs.2]⟩) liks ts fo eo S s s ⟨h, rfl⟩).2.1

theorem fwdPassS_prior {ra : K → Bool} {f : σ → PriorSpec K gs → Arr K gs → K → σ × Except PyErr (Arr K gs)} :
    ∀ (Ls : List (Idx gs → K)) (ts : List K) (s : σ) (pr : PriorSpec K gs) (a : Arr K gs) (o : FwdOut K gs), (fwdPassS ra f s false pr a Ls ts).2 = .ok o → o.prior = pr := by
  intro Ls
  induction Ls with
  | nil =>
    intro ts s pr a o h
    cases a <;> (simp only [fwdPassS, Except.ok.injEq] at h; subst h; rfl)
  | cons L Ls ih =>
    intro ts s pr a o h
    cases a with
    | none => simp only [fwdPassS, Except.ok.injEq] at h; subst h; rfl
    | some a =>
      simp only [fwdPassS] at h
      split at h
      · cases ts with
        | nil => cases h
        | cons t ts =>
          simp only [Bool.false_eq_true, if_false] at h
          revert h
          generalize f s pr (some fun x => a x * L x / ∑ x, a x * L x) t = u
          obtain ⟨u1, u2⟩ := u
          cases u2 with
          | error e => intro h; cases h
          | ok nx =>
            simp only [Bool.false_and]
            have := ih ts u1 pr nx
            revert this
            generalize fwdPassS ra f u1 false pr nx Ls ts = v
            obtain ⟨v1, v2⟩ := v
            cases v2 with
            | error e => intro _ h; cases h
            | ok r =>
              intro hr h
              simp only [Except.ok.injEq] at h
              subst h
              exact hr r rfl
      · simp only [Bool.false_eq_true, if_false, Except.ok.injEq] at h
        subst h; rfl

theorem fitS_prior {E : Env K gs} {grid : (a : Fin d) → Fin (gs a) → K} {ra : K → Bool} {f fb : σ → PriorSpec K gs → Arr K gs → K → σ × Except PyErr (Arr K gs)}
    {liks : List (Idx gs → K)} {ts : List K} {fo eo : Bool} {S R : FitState K gs} {s : σ} (hn : S.prior.isArray = false)
    (h : (fitS E grid ra f fb liks ts fo eo S s).2 = .ok R) : R.prior = S.prior := by
  simp only [fitS] at h
  split at h
  · cases h
  · rename_i a0 pr0 hc
    have hp := computePrior_notArray hn hc
    rw [hp, hn] at h
    have := fwdPassS_prior (ra := ra) (f := f) liks ts s S.prior a0
    revert this h
    generalize fwdPassS ra f s false S.prior a0 liks ts = u
    obtain ⟨u1, u2⟩ := u
    cases u2 with
    | error e => intro h; cases h
    | ok o =>
      simp only
      intro h hpr
      have hpr := hpr o rfl
      split at h
      · simp only [Except.ok.injEq] at h; subst h; exact hpr
      · split at h
        · simp only [Except.ok.injEq] at h; subst h; exact hpr
        · split at h
          · simp only [Except.ok.injEq] at h; subst h; exact hpr
          · revert h
            generalize bwdPassS E (fun s => fb s o.prior) u1 o.steps = v
            obtain ⟨v1, v2⟩ := v
            cases v2 with
            | error e => intro h; cases h
            | ok b =>
              simp only
              split <;> (intro h; simp only [Except.ok.injEq] at h; subst h; exact hpr)
end

/-! ## What a computation writes -/

section
open Spec
variable {tab : ℕ → LeafObj K} {ext : Ext K gs} {view view' : ℕ → View K gs} {back : Bool}

theorem kernelH_frame {h : THeap K d} {new : Except PyErr (Kernel K d)} {r : ℕ} {vals : List (HVal K)} {p : Arr K gs} {x : ℕ} (hx : x ≠ r) :
    (kernelH h new r vals p).1 x = h x := by
  unfold kernelH
  cases (h r).cache with
  | none =>
    simp only
    cases new with
    | error e => rfl
    | ok k => exact Function.update_of_ne hx _ _
  | some c =>
    obtain ⟨v, k⟩ := c
    simp only
    split
    · rfl
    · cases new with
      | error e => rfl
      | ok k => exact Function.update_of_ne hx _ _

theorem leafH_frame {h : THeap K d} {r : ℕ} {p : Arr K gs} {t : K} {x : ℕ} (hx : x ≠ r) : (leafH tab ext view back h r p t).1 x = h x := by
  unfold leafH
  split
  · rfl
  · split
    · exact kernelH_frame hx
    · split
      · rfl
      · split
        · split <;> rfl
        · rfl

theorem pass_frame {h : THeap K d} {r m : ℕ} {toff : K} {x : ℕ} (hx : x ≠ m) : h.pass r m toff x = h x := Function.update_of_ne hx _ _

mutual
/-- a computation changes only the attributes of the objects of the model -/
theorem stepH_frame {x : ℕ} : ∀ (m : OTM K) (h : THeap K d) (p : Arr K gs) (t : K), x ∉ objects m → (m.stepH tab ext view back h p t).1 x = h x
  | .leaf r, h, p, t, hx => by
      simp only [OTM.stepH]
      exact leafH_frame (fun he => hx (by simp [objects, OTM.ref, he]))
  | .combined r ms, h, p, t, hx => by
      simp only [OTM.stepH]
      exact stepAllH_frame ms h r p t (fun he => hx (by simp [objects, parts, he]))
  | .serial r _ vals _ mask ms, h, p, t, hx => by
      simp only [OTM.stepH]
      cases scalars vals with
      | error e => rfl
      | ok vs =>
        simp only
        have := stepNthH_frame (x := x) ms h r (breakOffset vs (modelIndex vs (if back then t - 1 else t))) (modelIndex vs (if back then t - 1 else t)) p t
          (fun he => hx (by simp [objects, parts, he]))
        revert this
        generalize OTM.stepNthH tab ext view back h r (breakOffset vs (modelIndex vs (if back then t - 1 else t))) ms (modelIndex vs (if back then t - 1 else t)) p t = u
        obtain ⟨u1, u2⟩ := u
        cases u2 <;> exact id
theorem stepAllH_frame {x : ℕ} : ∀ (ms : List (OTM K)) (h : THeap K d) (r : ℕ) (p : Arr K gs) (t : K), x ∉ partsL ms → (OTM.stepAllH tab ext view back h r ms p t).1 x = h x
  | [], h, r, p, t, hx => rfl
  | m :: ms, h, r, p, t, hx => by
      simp only [partsL, List.mem_cons, List.mem_append, not_or] at hx
      obtain ⟨h1, h2, h3⟩ := hx
      simp only [OTM.stepAllH]
      have := stepH_frame m (h.pass r m.ref (h r).toff) p t (x := x) (by simp [objects, h1, h2])
      rw [pass_frame h1] at this
      revert this
      generalize OTM.stepH tab ext view back (h.pass r m.ref (h r).toff) m p t = u
      obtain ⟨u1, u2⟩ := u
      cases u2 with
      | error e => exact id
      | ok q => intro hu; simp only at hu ⊢; rw [stepAllH_frame ms u1 r q t h3, hu]
theorem stepNthH_frame {x : ℕ} : ∀ (ms : List (OTM K)) (h : THeap K d) (r : ℕ) (toff : K) (i : ℕ) (p : Arr K gs) (t : K), x ∉ partsL ms →
    (OTM.stepNthH tab ext view back h r toff ms i p t).1 x = h x
  | [], h, r, toff, i, p, t, hx => rfl
  | m :: ms, h, r, toff, 0, p, t, hx => by
      simp only [partsL, List.mem_cons, List.mem_append, not_or] at hx
      obtain ⟨h1, h2, h3⟩ := hx
      simp only [OTM.stepNthH]
      rw [stepH_frame m _ p t (by simp [objects, h1, h2]), pass_frame h1]
  | m :: ms, h, r, toff, i + 1, p, t, hx => by
      simp only [partsL, List.mem_cons, List.mem_append, not_or] at hx
      simp only [OTM.stepNthH]
      exact stepNthH_frame ms h r toff i p t hx.2.2
end

/-! ## What a computation reads -/

/-- `r` is a random walk with a kernel -/
theorem kernelKind_hasKernel {r : ℕ} {m : KernelModel} (h : kernelKind (tab r).kind = some m) : HasKernel tab r := by
  unfold HasKernel
  revert h
  cases (tab r).kind <;> simp [kernelKind]

/-- Two heaps agree for study `i`: on the attributes `study` (none or `i`), `latticeConstant`, `tOffset` of the objects in `B`, and on the kernels of the objects in `A`. -/
structure AgreeH (i : ℕ) (A B : ℕ → Prop) (h h' : THeap K d) : Prop where
  study : ∀ x, B x → (h x).study = (h' x).study
  own : ∀ x, B x → (h x).study = none ∨ (h x).study = some i
  lattice : ∀ x, B x → (h x).lattice = (h' x).lattice
  toff : ∀ x, B x → (h x).toff = (h' x).toff
  cache : ∀ x, A x → (h x).cache = (h' x).cache

theorem AgreeH.mono {i : ℕ} {A A' B B' : ℕ → Prop} {h h' : THeap K d} (hh : AgreeH i A B h h') (hA : ∀ x, A' x → A x) (hB : ∀ x, B' x → B x) : AgreeH i A' B' h h' :=
  ⟨fun x hx => hh.study x (hB x hx), fun x hx => hh.own x (hB x hx), fun x hx => hh.lattice x (hB x hx), fun x hx => hh.toff x (hB x hx), fun x hx => hh.cache x (hA x hx)⟩

theorem AgreeH.env {i : ℕ} {A B : ℕ → Prop} {h h' : THeap K d} (hh : AgreeH i A B h h') (hv : view i = view' i) {r : ℕ} (hr : B r) : h.env ext view r = h'.env ext view' r := by
  unfold THeap.env
  rw [← hh.study r hr, ← hh.lattice r hr]
  rcases hh.own r hr with hs | hs
  · rw [hs]
  · rw [hs]; cases (h r).lattice <;> simp [hv]

theorem AgreeH.hasOM {i : ℕ} {A B : ℕ → Prop} {h h' : THeap K d} (hh : AgreeH i A B h h') (hv : view i = view' i) {r : ℕ} (hr : B r) : h.hasOM view r = h'.hasOM view' r := by
  unfold THeap.hasOM
  rw [← hh.study r hr]
  rcases hh.own r hr with hs | hs
  · rw [hs]
  · rw [hs]; simp only; rw [hv]

theorem AgreeH.reset {i : ℕ} {A B : ℕ → Prop} {h h' : THeap K d} (hh : AgreeH i A B h h') (hv : view i = view' i) {r : ℕ} (hr : B r) : h.reset ext view r = h'.reset ext view' r := by
  unfold THeap.reset
  rw [← hh.study r hr]
  rcases hh.own r hr with hs | hs
  · rw [hs]
  · rw [hs]; simp only; rw [hv]

theorem AgreeH.setCache {i : ℕ} {A B : ℕ → Prop} {h h' : THeap K d} (hh : AgreeH i A B h h') (r : ℕ) (c : Option (List (HVal K) × Kernel K d)) :
    AgreeH i A B (Function.update h r { h r with cache := c }) (Function.update h' r { h' r with cache := c }) := by
  have e : ∀ (h : THeap K d) (x : ℕ), (Function.update h r { h r with cache := c } x).study = (h x).study ∧ (Function.update h r { h r with cache := c } x).lattice = (h x).lattice ∧
      (Function.update h r { h r with cache := c } x).toff = (h x).toff ∧ (Function.update h r { h r with cache := c } x).cache = if x = r then c else (h x).cache := by
    intro h x
    rcases eq_or_ne x r with hx | hx
    · rw [hx, Function.update_self]; simp
    · rw [Function.update_of_ne hx]; simp [hx]
  constructor <;> intro x hx
  · rw [(e h x).1, (e h' x).1]; exact hh.study x hx
  · rw [(e h x).1]; exact hh.own x hx
  · rw [(e h x).2.1, (e h' x).2.1]; exact hh.lattice x hx
  · rw [(e h x).2.2.1, (e h' x).2.2.1]; exact hh.toff x hx
  · rw [(e h x).2.2.2, (e h' x).2.2.2, hh.cache x hx]

theorem kernelH_rel {i : ℕ} {A B : ℕ → Prop} {h h' : THeap K d} (hh : AgreeH i A B h h') (new : Except PyErr (Kernel K d)) {r : ℕ} (hr : A r) (vals : List (HVal K)) (p : Arr K gs) :
    StRel (AgreeH i A B) (kernelH h new r vals p) (kernelH h' new r vals p) := by
  unfold kernelH
  rw [← hh.cache r hr]
  cases (h r).cache with
  | none =>
    simp only
    cases new with
    | error e => exact ⟨rfl, hh⟩
    | ok k => exact ⟨rfl, hh.setCache r _⟩
  | some c =>
    obtain ⟨v, k⟩ := c
    simp only
    split
    · exact ⟨rfl, hh⟩
    · cases new with
      | error e => exact ⟨rfl, hh⟩
      | ok k => exact ⟨rfl, hh.setCache r _⟩

theorem leafH_rel {i : ℕ} {A B : ℕ → Prop} {h h' : THeap K d} (hh : AgreeH i A B h h') (hv : view i = view' i) {r : ℕ} (hB : B r) (hA : HasKernel tab r → A r) (p : Arr K gs) (t : K) :
    StRel (AgreeH i A B) (leafH tab ext view back h r p t) (leafH tab ext view' back h' r p t) := by
  unfold leafH
  rw [← hh.env (ext := ext) hv hB, ← hh.toff r hB, ← hh.reset (ext := ext) hv hB, ← hh.hasOM hv hB]
  cases h.env ext view r with
  | error e => exact ⟨rfl, hh⟩
  | ok E =>
    simp only
    cases hk : kernelKind (tab r).kind with
    | some m => exact kernelH_rel hh _ (hA (kernelKind_hasKernel hk)) _ p
    | none =>
      simp only
      split
      · exact ⟨rfl, hh⟩
      · split
        · split <;> exact ⟨rfl, hh⟩
        · exact ⟨rfl, hh⟩

theorem AgreeH.pass {i : ℕ} {A B : ℕ → Prop} {h h' : THeap K d} (hh : AgreeH i A B h h') {r : ℕ} (hr : B r) (m : ℕ) (toff : K) :
    AgreeH i A (fun x => B x ∨ x = m) (h.pass r m toff) (h'.pass r m toff) := by
  have e : ∀ (h : THeap K d) (x : ℕ), (h.pass r m toff x).study = (if x = m then (h r).study else (h x).study) ∧ (h.pass r m toff x).lattice = (if x = m then (h r).lattice else (h x).lattice) ∧
      (h.pass r m toff x).toff = (if x = m then toff else (h x).toff) ∧ (h.pass r m toff x).cache = (h x).cache := by
    intro h x
    unfold THeap.pass
    rcases eq_or_ne x m with hx | hx
    · rw [hx, Function.update_self]; simp
    · rw [Function.update_of_ne hx]; simp [hx]
  constructor <;> intro x hx
  · rw [(e h x).1, (e h' x).1]; split
    · exact hh.study r hr
    · rename_i hm; exact hh.study x (hx.resolve_right hm)
  · rw [(e h x).1]; split
    · exact hh.own r hr
    · rename_i hm; exact hh.own x (hx.resolve_right hm)
  · rw [(e h x).2.1, (e h' x).2.1]; split
    · exact hh.lattice r hr
    · rename_i hm; exact hh.lattice x (hx.resolve_right hm)
  · rw [(e h x).2.2.1, (e h' x).2.2.1]; split
    · rfl
    · rename_i hm; exact hh.toff x (hx.resolve_right hm)
  · rw [(e h x).2.2.2, (e h' x).2.2.2]; exact hh.cache x hx

mutual
/-- the result depends only on the attributes of the model itself and on the kernels of its parts, and agreement is kept -/
theorem stepH_rel {i : ℕ} {A : ℕ → Prop} (hv : view i = view' i) : ∀ (m : OTM K) (B : ℕ → Prop) (h h' : THeap K d) (p : Arr K gs) (t : K), AgreeH i A B h h' → B m.ref →
    (∀ x ∈ objects m, HasKernel tab x → A x) → StRel (AgreeH i A B) (m.stepH tab ext view back h p t) (m.stepH tab ext view' back h' p t)
  | .leaf r, B, h, h', p, t, hh, hB, hA => by
      simp only [OTM.stepH]
      exact leafH_rel hh hv hB (hA r (by simp [objects, OTM.ref])) p t
  | .combined r ms, B, h, h', p, t, hh, hB, hA => by
      simp only [OTM.stepH]
      exact stepAllH_rel hv ms B h h' r p t hh hB (fun x hx => hA x (by simp [objects, parts, hx]))
  | .serial r _ vals _ mask ms, B, h, h', p, t, hh, hB, hA => by
      simp only [OTM.stepH]
      cases scalars vals with
      | error e => exact ⟨rfl, hh⟩
      | ok vs =>
        simp only
        obtain ⟨h1, h2⟩ := stepNthH_rel (A := A) hv ms B h h' r (breakOffset vs (modelIndex vs (if back then t - 1 else t)))
          (modelIndex vs (if back then t - 1 else t)) p t hh hB (fun x hx => hA x (by simp [objects, parts, hx]))
        revert h1 h2
        generalize OTM.stepNthH tab ext view back h r (breakOffset vs (modelIndex vs (if back then t - 1 else t))) ms (modelIndex vs (if back then t - 1 else t)) p t = u
        generalize OTM.stepNthH tab ext view' back h' r (breakOffset vs (modelIndex vs (if back then t - 1 else t))) ms (modelIndex vs (if back then t - 1 else t)) p t = v
        obtain ⟨u1, u2⟩ := u
        obtain ⟨v1, v2⟩ := v
        rintro h1 h2
        simp only at h1 h2
        subst h1
        cases u2 with
        | error e => exact ⟨rfl, h2⟩
        | ok q => refine ⟨?_, h2⟩; simp only; rw [h2.reset (ext := ext) (r := r) hv hB]
theorem stepAllH_rel {i : ℕ} {A : ℕ → Prop} (hv : view i = view' i) : ∀ (ms : List (OTM K)) (B : ℕ → Prop) (h h' : THeap K d) (r : ℕ) (p : Arr K gs) (t : K), AgreeH i A B h h' → B r →
    (∀ x ∈ partsL ms, HasKernel tab x → A x) → StRel (AgreeH i A B) (OTM.stepAllH tab ext view back h r ms p t) (OTM.stepAllH tab ext view' back h' r ms p t)
  | [], B, h, h', r, p, t, hh, hB, hA => ⟨rfl, hh⟩
  | m :: ms, B, h, h', r, p, t, hh, hB, hA => by
      simp only [OTM.stepAllH]
      rw [← hh.toff r hB]
      obtain ⟨h1, h2⟩ := stepH_rel (A := A) hv m _ _ _ p t (hh.pass hB m.ref (h r).toff) (Or.inr rfl)
        (fun x hx => hA x (by simp only [objects, List.mem_cons] at hx; simp only [partsL, List.mem_cons, List.mem_append]; tauto))
      revert h1 h2
      generalize OTM.stepH tab ext view back (h.pass r m.ref (h r).toff) m p t = u
      generalize OTM.stepH tab ext view' back (h'.pass r m.ref (h r).toff) m p t = v
      obtain ⟨u1, u2⟩ := u
      obtain ⟨v1, v2⟩ := v
      rintro h1 h2
      simp only at h1 h2
      subst h1
      have h2 : AgreeH i A B u1 v1 := h2.mono (fun _ h => h) (fun _ h => Or.inl h)
      cases u2 with
      | error e => exact ⟨rfl, h2⟩
      | ok q =>
        exact stepAllH_rel hv ms B u1 v1 r q t h2 hB (fun x hx => hA x (by simp [partsL, hx]))
theorem stepNthH_rel {i : ℕ} {A : ℕ → Prop} (hv : view i = view' i) : ∀ (ms : List (OTM K)) (B : ℕ → Prop) (h h' : THeap K d) (r : ℕ) (toff : K) (j : ℕ) (p : Arr K gs) (t : K), AgreeH i A B h h' →
    B r → (∀ x ∈ partsL ms, HasKernel tab x → A x) → StRel (AgreeH i A B) (OTM.stepNthH tab ext view back h r toff ms j p t) (OTM.stepNthH tab ext view' back h' r toff ms j p t)
  | [], B, h, h', r, toff, j, p, t, hh, hB, hA => ⟨rfl, hh⟩
  | m :: ms, B, h, h', r, toff, 0, p, t, hh, hB, hA => by
      simp only [OTM.stepNthH]
      obtain ⟨h1, h2⟩ := stepH_rel (A := A) hv m _ _ _ p t (hh.pass hB m.ref toff) (Or.inr rfl)
        (fun x hx => hA x (by simp only [objects, List.mem_cons] at hx; simp only [partsL, List.mem_cons, List.mem_append]; tauto))
      exact ⟨h1, h2.mono (fun _ h => h) (fun _ h => Or.inl h)⟩
  | m :: ms, B, h, h', r, toff, j + 1, p, t, hh, hB, hA => by
      simp only [OTM.stepNthH]
      exact stepNthH_rel hv ms B h h' r toff j p t hh hB (fun x hx => hA x (by simp [partsL, hx]))
end

/-! ## Comparison with models that are values -/

/-- `study`, `latticeConstant`, `tOffset` -/
def TAttr.main (a : TAttr K d) : Option ℕ × Option (Fin d → K) × K := (a.study, a.lattice, a.toff)

theorem setCache_main (h : THeap K d) (r : ℕ) (c : Option (List (HVal K) × Kernel K d)) (x : ℕ) : (Function.update h r { h r with cache := c } x).main = (h x).main := by
  rcases eq_or_ne x r with hx | hx
  · rw [hx, Function.update_self]; rfl
  · rw [Function.update_of_ne hx]

theorem kernelH_main {h : THeap K d} {new : Except PyErr (Kernel K d)} {r : ℕ} {vals : List (HVal K)} {p : Arr K gs} {x : ℕ} :
    ((kernelH h new r vals p).1 x).main = (h x).main := by
  unfold kernelH
  cases (h r).cache with
  | none =>
    simp only
    cases new with
    | error e => rfl
    | ok k => exact setCache_main ..
  | some c =>
    obtain ⟨v, k⟩ := c
    simp only
    split
    · rfl
    · cases new with
      | error e => rfl
      | ok k => exact setCache_main ..

theorem leafH_main {h : THeap K d} {r : ℕ} {p : Arr K gs} {t : K} {x : ℕ} : ((leafH tab ext view back h r p t).1 x).main = (h x).main := by
  unfold leafH
  split
  · rfl
  · split
    · exact kernelH_main
    · split
      · rfl
      · split
        · split <;> rfl
        · rfl

mutual
/-- a computation changes the attributes `study`, `latticeConstant`, `tOffset` of the parts of the model only -/
theorem stepH_main {x : ℕ} : ∀ (m : OTM K) (h : THeap K d) (p : Arr K gs) (t : K), x ∉ parts m → ((m.stepH tab ext view back h p t).1 x).main = (h x).main
  | .leaf r, h, p, t, hx => by simp only [OTM.stepH]; exact leafH_main
  | .combined r ms, h, p, t, hx => by
      simp only [OTM.stepH]
      exact stepAllH_main ms h r p t (fun he => hx (by simp [parts, he]))
  | .serial r _ vals _ mask ms, h, p, t, hx => by
      simp only [OTM.stepH]
      cases scalars vals with
      | error e => rfl
      | ok vs =>
        simp only
        have := stepNthH_main (x := x) ms h r (breakOffset vs (modelIndex vs (if back then t - 1 else t))) (modelIndex vs (if back then t - 1 else t)) p t
          (fun he => hx (by simp [parts, he]))
        revert this
        generalize OTM.stepNthH tab ext view back h r (breakOffset vs (modelIndex vs (if back then t - 1 else t))) ms (modelIndex vs (if back then t - 1 else t)) p t = u
        obtain ⟨u1, u2⟩ := u
        cases u2 <;> exact id
theorem stepAllH_main {x : ℕ} : ∀ (ms : List (OTM K)) (h : THeap K d) (r : ℕ) (p : Arr K gs) (t : K), x ∉ partsL ms → ((OTM.stepAllH tab ext view back h r ms p t).1 x).main = (h x).main
  | [], h, r, p, t, hx => rfl
  | m :: ms, h, r, p, t, hx => by
      simp only [partsL, List.mem_cons, List.mem_append, not_or] at hx
      obtain ⟨h1, h2, h3⟩ := hx
      simp only [OTM.stepAllH]
      have := stepH_main m (h.pass r m.ref (h r).toff) p t (x := x) h2
      rw [pass_frame h1] at this
      revert this
      generalize OTM.stepH tab ext view back (h.pass r m.ref (h r).toff) m p t = u
      obtain ⟨u1, u2⟩ := u
      cases u2 with
      | error e => exact id
      | ok q => intro hu; simp only at hu ⊢; rw [stepAllH_main ms u1 r q t h3, hu]
theorem stepNthH_main {x : ℕ} : ∀ (ms : List (OTM K)) (h : THeap K d) (r : ℕ) (toff : K) (i : ℕ) (p : Arr K gs) (t : K), x ∉ partsL ms →
    ((OTM.stepNthH tab ext view back h r toff ms i p t).1 x).main = (h x).main
  | [], h, r, toff, i, p, t, hx => rfl
  | m :: ms, h, r, toff, 0, p, t, hx => by
      simp only [partsL, List.mem_cons, List.mem_append, not_or] at hx
      obtain ⟨h1, h2, h3⟩ := hx
      simp only [OTM.stepNthH]
      rw [stepH_main m _ p t h2, pass_frame h1]
  | m :: ms, h, r, toff, i + 1, p, t, hx => by
      simp only [partsL, List.mem_cons, List.mem_append, not_or] at hx
      simp only [OTM.stepNthH]
      exact stepNthH_main ms h r toff i p t hx.2.2
end

/-- the kernels kept by the objects in `A` belong to their values and to the grid of `E` -/
def FreshH (tab : ℕ → LeafObj K) (E : Env K gs) (A : ℕ → Prop) (h : THeap K d) : Prop :=
  ∀ x, A x → ∀ km, kernelKind (tab x).kind = some km → ∀ k, (h x).cache = some ((tab x).values, k) → makeKernel E km (tab x).values = .ok k

/-- the kernels kept by the objects in `A` -/
theorem FreshH.of_cache {E : Env K gs} {A : ℕ → Prop} {h h' : THeap K d} (hf : FreshH tab E A h) (he : ∀ x, A x → (h' x).cache = (h x).cache) : FreshH tab E A h' :=
  fun x hx km hkm k hk => hf x hx km hkm k (by rw [← he x hx]; exact hk)

theorem pass_cache (h : THeap K d) (r m : ℕ) (toff : K) (x : ℕ) : (h.pass r m toff x).cache = (h x).cache := by
  unfold THeap.pass
  rcases eq_or_ne x m with hx | hx
  · rw [hx, Function.update_self]
  · rw [Function.update_of_ne hx]

theorem kernelH_pure {E : Env K gs} {A : ℕ → Prop} {h : THeap K d} (hf : FreshH tab E A h) {r : ℕ} (hr : A r) {m : KernelModel} (hk : kernelKind (tab r).kind = some m) (p : Arr K gs) :
    (kernelH h (makeKernel E m (tab r).values) r (tab r).values p).2 = (makeKernel E m (tab r).values).map (fun k => applyKernel k p) ∧ FreshH tab E A (kernelH h (makeKernel E m (tab r).values) r (tab r).values p).1 := by
  have put : ∀ k, makeKernel E m (tab r).values = .ok k → FreshH tab E A (Function.update h r { h r with cache := some ((tab r).values, k) }) := by
    intro k hkk x hx km hkm k' hc
    rcases eq_or_ne x r with rfl | hxr
    · rw [Function.update_self] at hc
      simp only [Option.some.injEq, Prod.mk.injEq, true_and] at hc
      subst hc
      rw [hk] at hkm
      cases hkm
      exact hkk
    · rw [Function.update_of_ne hxr] at hc
      exact hf x hx km hkm k' hc
  unfold kernelH
  cases hc : (h r).cache with
  | none =>
    simp only
    cases hm : makeKernel E m (tab r).values with
    | error e => exact ⟨rfl, hf⟩
    | ok k => exact ⟨rfl, put k hm⟩
  | some c =>
    obtain ⟨v, k⟩ := c
    simp only
    split
    · rename_i hv
      subst hv
      rw [hf r hr m hk k hc]
      exact ⟨rfl, hf⟩
    · cases hm : makeKernel E m (tab r).values with
      | error e => exact ⟨rfl, hf⟩
      | ok k => exact ⟨rfl, put k hm⟩

theorem kernelKind_leaf {E : Env K gs} {toff : K} {k : Leaf K} {km : KernelModel} (h : kernelKind k = some km) (vals : List (HVal K)) (p : Arr K gs) (t : K) :
    leafFwd E toff k vals p t = (makeKernel E km vals).map (fun k => applyKernel k p) ∧ leafBwd E toff k vals p t = (makeKernel E km vals).map (fun k => applyKernel k p) := by
  have key : leafFwd E toff k vals p t = (makeKernel E km vals).map (fun k => applyKernel k p) ∧ leafBwd E toff k vals p t = leafFwd E toff k vals p t := by
    cases k <;> simp only [kernelKind, Option.some.injEq, reduceCtorEq] at h <;> subst h
    · refine ⟨?_, rfl⟩
      rename_i target
      simp only [leafFwd, alphaFwd, makeKernel, bind, Except.bind]
      cases scalarAt vals 0 with
      | error e => rfl
      | ok c =>
        cases scalarAt vals 1 with
        | error e => rfl
        | ok al =>
          cases E.axis target with
          | error e => rfl
          | ok a =>
            simp only
            split
            · split <;> rfl
            · split <;> rfl
    · refine ⟨?_, rfl⟩
      simp only [leafFwd, bivFwd, makeKernel, bind, Except.bind]
      cases numberAt vals 0 with
      | error e => rfl
      | ok c =>
        cases numberAt vals 1 with
        | error e => rfl
        | ok al =>
          cases numberAt vals 2 with
          | error e => rfl
          | ok a =>
            simp only
            split
            · split
              · rfl
              · split <;> rfl
            · rfl
  exact ⟨key.1, key.2.trans key.1⟩

/-- the computation of a model that is a value, in the direction `back` -/
def pureStep (E : Env K gs) (back : Bool) (toff : K) (m : TM K) (p : Arr K gs) (t : K) : Except PyErr (Arr K gs) := if back then m.bwd E toff p t else m.fwd E toff p t

theorem leafH_pure {E : Env K gs} {i : ℕ} (hv : view i = ⟨true, E.names, E.lattice, E.prior⟩) {A : ℕ → Prop} {h : THeap K d} (hf : FreshH tab E A h) {r : ℕ} (hA : HasKernel tab r → A r) {toff : K}
    (hm : (h r).main = (some i, some E.lattice, toff)) (p : Arr K gs) (t : K) :
    (leafH tab E.ext view back h r p t).2 = pureStep E back toff ((OTM.leaf r).value tab) p t ∧ FreshH tab E A (leafH tab E.ext view back h r p t).1 := by
  obtain ⟨h1, h2, h3⟩ : (h r).study = some i ∧ (h r).lattice = some E.lattice ∧ (h r).toff = toff := by
    simp only [TAttr.main, Prod.mk.injEq] at hm; exact hm
  have henv : h.env E.ext view r = .ok E := by unfold THeap.env; rw [h1, h2]; simp only; rw [hv]
  have hreset : h.reset E.ext view r = .ok E.resetCell := by unfold THeap.reset; rw [h1]; simp only; rw [hv]; rfl
  have hom : h.hasOM view r = true := by unfold THeap.hasOM; rw [h1]; simp only; rw [hv]
  unfold leafH
  rw [henv, hreset, h3, hom]
  simp only [Bool.not_true, Bool.and_false, Bool.false_eq_true, if_false]
  simp only [pureStep, OTM.value, TM.fwd, TM.bwd]
  cases hk : kernelKind (tab r).kind with
  | some m =>
    simp only
    obtain ⟨k1, k2⟩ := kernelH_pure hf (hA (kernelKind_hasKernel hk)) hk p
    refine ⟨?_, k2⟩
    rw [k1]
    split
    · exact (kernelKind_leaf hk _ p t).2.symm
    · exact (kernelKind_leaf hk _ p t).1.symm
  | none =>
    simp only
    split
    · rename_i hcp
      rw [hcp]
      cases back with
      | false =>
        simp only [Bool.false_eq_true, if_false, leafFwd, bind, Except.bind]
        cases cpHit (tab r).values t with
        | error e => exact ⟨rfl, hf⟩
        | ok b => cases b <;> exact ⟨rfl, hf⟩
      | true =>
        simp only [if_true, leafBwd, leafFwd, bind, Except.bind]
        cases cpHit (tab r).values (t - 1) with
        | error e => exact ⟨rfl, hf⟩
        | ok b => cases b <;> exact ⟨rfl, hf⟩
    · exact ⟨rfl, hf⟩

theorem pass_main (h : THeap K d) (r m : ℕ) (toff : K) : (h.pass r m toff m).main = ((h r).study, (h r).lattice, toff) := by
  unfold THeap.pass; rw [Function.update_self]; rfl

mutual
/-- an object whose attributes `study`, `latticeConstant`, `tOffset` are right computes the same as the model as a value, whatever the attributes of its parts are -/
theorem stepH_pure {E : Env K gs} {i : ℕ} (hv : view i = ⟨true, E.names, E.lattice, E.prior⟩) {A : ℕ → Prop} : ∀ (m : OTM K) (h : THeap K d) (toff : K) (p : Arr K gs) (t : K), Acyclic m →
    (∀ x ∈ objects m, HasKernel tab x → A x) → FreshH tab E A h → (h m.ref).main = (some i, some E.lattice, toff) →
    (m.stepH tab E.ext view back h p t).2 = pureStep E back toff (m.value tab) p t ∧ FreshH tab E A (m.stepH tab E.ext view back h p t).1
  | .leaf r, h, toff, p, t, _, hA, hf, hm => by
      simp only [OTM.stepH]
      exact leafH_pure hv hf (hA r (by simp [objects, OTM.ref])) hm p t
  | .combined r ms, h, toff, p, t, hp, hA, hf, hm => by
      simp only [Acyclic] at hp
      obtain ⟨h1, h2⟩ := stepAllH_pure hv ms h r toff p t hp.1 hp.2 (fun x hx => hA x (by simp [objects, parts, hx])) hf hm
      simp only [OTM.stepH]
      refine ⟨?_, h2⟩
      rw [h1]
      simp only [pureStep, OTM.value, TM.fwd, TM.bwd]
  | .serial r _ vals _ mask ms, h, toff, p, t, hp, hA, hf, hm => by
      simp only [Acyclic] at hp
      have hA' : ∀ x ∈ partsL ms, HasKernel tab x → A x := fun x hx => hA x (by simp [objects, parts, hx])
      have hm' : (h r).main = (some i, some E.lattice, toff) := hm
      simp only [OTM.stepH, pureStep, OTM.value, TM.fwd, TM.bwd, bind, Except.bind]
      cases scalars vals with
      | error e => exact ⟨by cases back <;> rfl, hf⟩
      | ok vs =>
        simp only
        obtain ⟨h1, h2⟩ := stepNthH_pure hv ms h r toff (breakOffset vs (modelIndex vs (if back then t - 1 else t))) (modelIndex vs (if back then t - 1 else t)) p t hp.1 hp.2 hA' hf hm'
        have h3 := stepNthH_main (tab := tab) (ext := E.ext) (view := view) (back := back) (x := r) ms h r (breakOffset vs (modelIndex vs (if back then t - 1 else t)))
          (modelIndex vs (if back then t - 1 else t)) p t hp.1
        rw [hm'] at h3
        revert h1 h2 h3
        generalize OTM.stepNthH tab E.ext view back h r (breakOffset vs (modelIndex vs (if back then t - 1 else t))) ms (modelIndex vs (if back then t - 1 else t)) p t = u
        obtain ⟨u1, u2⟩ := u
        intro h1 h2 h3
        simp only at h1 h2 h3
        have hreset : u1.reset E.ext view r = .ok E.resetCell := by
          have : (u1 r).study = some i := by simp only [TAttr.main, Prod.mk.injEq] at h3; exact h3.1
          unfold THeap.reset; rw [this]; simp only; rw [hv]; rfl
        cases back with
        | false =>
          simp only [Bool.false_eq_true, if_false] at h1 ⊢
          rw [← h1]
          cases u2 with
          | error e => exact ⟨rfl, h2⟩
          | ok q => refine ⟨?_, h2⟩; simp only [cpCheck, hreset]; split <;> rfl
        | true =>
          simp only [if_true] at h1 ⊢
          rw [← h1]
          cases u2 with
          | error e => exact ⟨rfl, h2⟩
          | ok q => refine ⟨?_, h2⟩; simp only [cpCheck, hreset]; split <;> rfl
theorem stepAllH_pure {E : Env K gs} {i : ℕ} (hv : view i = ⟨true, E.names, E.lattice, E.prior⟩) {A : ℕ → Prop} : ∀ (ms : List (OTM K)) (h : THeap K d) (r : ℕ) (toff : K) (p : Arr K gs) (t : K),
    r ∉ partsL ms → AcyclicL ms → (∀ x ∈ partsL ms, HasKernel tab x → A x) → FreshH tab E A h → (h r).main = (some i, some E.lattice, toff) →
    (OTM.stepAllH tab E.ext view back h r ms p t).2 = (if back then TM.bwdAll E toff (OTM.values tab ms) p t else TM.fwdAll E toff (OTM.values tab ms) p t) ∧
    FreshH tab E A (OTM.stepAllH tab E.ext view back h r ms p t).1
  | [], h, r, toff, p, t, _, _, _, hf, _ => by
      simp only [OTM.stepAllH, OTM.values, TM.bwdAll, TM.fwdAll, ite_self]
      exact ⟨trivial, hf⟩
  | m :: ms, h, r, toff, p, t, hr, hp, hA, hf, hm => by
      simp only [partsL, List.mem_cons, List.mem_append, not_or] at hr
      obtain ⟨r1, r2, r3⟩ := hr
      simp only [AcyclicL] at hp
      obtain ⟨h1, h2, h3⟩ : (h r).study = some i ∧ (h r).lattice = some E.lattice ∧ (h r).toff = toff := by
        simp only [TAttr.main, Prod.mk.injEq] at hm; exact hm
      have hpm : ((h.pass r m.ref (h r).toff) m.ref).main = (some i, some E.lattice, toff) := by rw [pass_main, h1, h2, h3]
      obtain ⟨k1, k2⟩ := stepH_pure hv m (h.pass r m.ref (h r).toff) toff p t hp.1
        (fun x hx => hA x (by simp only [objects, List.mem_cons] at hx; simp only [partsL, List.mem_cons, List.mem_append]; tauto)) (hf.of_cache fun x _ => pass_cache ..) hpm
      have k3 := stepH_main (tab := tab) (ext := E.ext) (view := view) (back := back) (x := r) m (h.pass r m.ref (h r).toff) p t r2
      rw [pass_frame r1, hm] at k3
      simp only [OTM.stepAllH]
      revert k1 k2 k3
      generalize OTM.stepH tab E.ext view back (h.pass r m.ref (h r).toff) m p t = u
      obtain ⟨u1, u2⟩ := u
      intro k1 k2 k3
      simp only at k1 k2 k3
      cases u2 with
      | error e =>
        refine ⟨?_, k2⟩
        simp only [OTM.values, TM.bwdAll, TM.fwdAll, bind, Except.bind]
        cases back <;> simp only [pureStep, Bool.false_eq_true, if_false, if_true] at k1 ⊢ <;> rw [← k1]
      | ok q =>
        obtain ⟨j1, j2⟩ := stepAllH_pure hv ms u1 r toff q t r3 hp.2 (fun x hx => hA x (by simp [partsL, hx])) k2 k3
        refine ⟨?_, j2⟩
        simp only
        rw [j1]
        simp only [OTM.values, TM.bwdAll, TM.fwdAll, bind, Except.bind]
        cases back <;> simp only [pureStep, Bool.false_eq_true, if_false, if_true] at k1 ⊢ <;> rw [← k1]
theorem stepNthH_pure {E : Env K gs} {i : ℕ} (hv : view i = ⟨true, E.names, E.lattice, E.prior⟩) {A : ℕ → Prop} : ∀ (ms : List (OTM K)) (h : THeap K d) (r : ℕ) (toff off : K) (j : ℕ) (p : Arr K gs) (t : K),
    r ∉ partsL ms → AcyclicL ms → (∀ x ∈ partsL ms, HasKernel tab x → A x) → FreshH tab E A h → (h r).main = (some i, some E.lattice, toff) →
    (OTM.stepNthH tab E.ext view back h r off ms j p t).2 = (if back then TM.bwdNth E off (OTM.values tab ms) j p t else TM.fwdNth E off (OTM.values tab ms) j p t) ∧
    FreshH tab E A (OTM.stepNthH tab E.ext view back h r off ms j p t).1
  | [], h, r, toff, off, j, p, t, _, _, _, hf, _ => by
      simp only [OTM.stepNthH, OTM.values, TM.bwdNth, TM.fwdNth, ite_self]
      exact ⟨trivial, hf⟩
  | m :: ms, h, r, toff, off, 0, p, t, hr, hp, hA, hf, hm => by
      simp only [AcyclicL] at hp
      obtain ⟨h1, h2, h3⟩ : (h r).study = some i ∧ (h r).lattice = some E.lattice ∧ (h r).toff = toff := by
        simp only [TAttr.main, Prod.mk.injEq] at hm; exact hm
      have hpm : ((h.pass r m.ref off) m.ref).main = (some i, some E.lattice, off) := by rw [pass_main, h1, h2]
      obtain ⟨k1, k2⟩ := stepH_pure hv m (h.pass r m.ref off) off p t hp.1
        (fun x hx => hA x (by simp only [objects, List.mem_cons] at hx; simp only [partsL, List.mem_cons, List.mem_append]; tauto)) (hf.of_cache fun x _ => pass_cache ..) hpm
      simp only [OTM.stepNthH, OTM.values, TM.bwdNth, TM.fwdNth]
      exact ⟨k1, k2⟩
  | m :: ms, h, r, toff, off, j + 1, p, t, hr, hp, hA, hf, hm => by
      simp only [partsL, List.mem_cons, List.mem_append, not_or] at hr
      simp only [AcyclicL] at hp
      simp only [OTM.stepNthH, OTM.values, TM.bwdNth, TM.fwdNth]
      exact stepNthH_pure hv ms h r toff off j p t hr.2.2 hp.2 (fun x hx => hA x (by simp [partsL, hx])) hf hm
end
end

end BL
