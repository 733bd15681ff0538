import Verif.Model.Files
import Verif.Lemmas.Sessions

/-! # Copies of parts of a session -/

set_option linter.unusedSectionVars false

namespace BL
open Spec
variable {K D : Type} [Field K] [LinearOrder K] [IsStrictOrderedRing K] {d : ℕ} {gs : Fin d → ℕ} {tab : ℕ → LeafObj K} {ext : Ext K gs}

/-- some of the objects -/
structure Part where
  s : ℕ → Prop
  o : ℕ → Prop
  t : ℕ → Prop

/-- no reference leads out of the part -/
structure ClosedW (A : Part) (w : World K D gs) : Prop where
  om : ∀ i o, A.s i → (w.studies i).om = some o → A.o o
  tm : ∀ i m, A.s i → (w.studies i).tm = some m → ∀ r ∈ objects m, A.t r
  study : ∀ r i, A.t r → (w.heap r).study = some i → A.s i

/-- the call concerns objects of the part only -/
def WOp.Within (A : Part) : WOp K D → Prop
  | .load i _ _ => A.s i
  | .setOM i o => A.s i ∧ A.o o
  | .setTM i m => A.s i ∧ ∀ r ∈ objects m, A.t r
  | .fit i _ _ => A.s i

structure Ren.Inj (φ : Ren) : Prop where
  s : Function.Injective φ.s
  o : Function.Injective φ.o
  t : Function.Injective φ.t

/-- the objects `φ x` of `w'` are copies of the objects `x` in `A` of `w` -/
structure CopyW (φ : Ren) (A : Part) (w w' : World K D gs) : Prop where
  studies : ∀ i, A.s i → w'.studies (φ.s i) = (w.studies i).rename φ
  oms : ∀ o, A.o o → w'.oms (φ.o o) = w.oms o
  heap : ∀ r, A.t r → w'.heap (φ.t r) = (w.heap r).rename φ
  closed : ClosedW A w

/-! ## Renamed models -/

theorem rename_ref (f : ℕ → ℕ) (m : OTM K) : (m.rename f).ref = f m.ref := by cases m <;> simp [OTM.rename, OTM.ref]

mutual
theorem rename_parts (f : ℕ → ℕ) : ∀ m : OTM K, parts (m.rename f) = (parts m).map f
  | .leaf r => by simp [OTM.rename, parts]
  | .combined r ms => by simp only [OTM.rename, parts]; exact renames_parts f ms
  | .serial r n v p mask ms => by simp only [OTM.rename, parts]; exact renames_parts f ms
theorem renames_parts (f : ℕ → ℕ) : ∀ ms : List (OTM K), partsL (OTM.renames f ms) = (partsL ms).map f
  | [] => by simp [OTM.renames, partsL]
  | m :: ms => by simp only [OTM.renames, partsL, List.map_cons, List.map_append, rename_ref]; rw [rename_parts f m, renames_parts f ms]
end

theorem rename_objects (f : ℕ → ℕ) (m : OTM K) : objects (m.rename f) = (objects m).map f := by
  simp [objects, rename_ref, rename_parts]

mutual
theorem rename_value {f : ℕ → ℕ} : ∀ m : OTM K, (∀ r ∈ objects m, tab (f r) = tab r) → (m.rename f).value tab = m.value tab
  | .leaf r, h => by simp only [OTM.rename, OTM.value]; rw [h r (by simp [objects, OTM.ref])]
  | .combined r ms, h => by simp only [OTM.rename, OTM.value]; rw [renames_values ms fun x hx => h x (by simp [objects, parts, hx])]
  | .serial r n v p mask ms, h => by simp only [OTM.rename, OTM.value]; rw [renames_values ms fun x hx => h x (by simp [objects, parts, hx])]
theorem renames_values {f : ℕ → ℕ} : ∀ ms : List (OTM K), (∀ r ∈ partsL ms, tab (f r) = tab r) → OTM.values tab (OTM.renames f ms) = OTM.values tab ms
  | [], h => by simp [OTM.renames]
  | m :: ms, h => by
      simp only [OTM.renames, OTM.values]
      rw [rename_value m fun x hx => h x (by simp only [objects, List.mem_cons] at hx; simp only [partsL, List.mem_cons, List.mem_append]; tauto),
        renames_values ms fun x hx => h x (by simp [partsL, hx])]
end

mutual
theorem rename_id : ∀ m : OTM K, m.rename id = m
  | .leaf r => by simp [OTM.rename]
  | .combined r ms => by simp only [OTM.rename, id]; rw [renames_id ms]
  | .serial r n v p mask ms => by simp only [OTM.rename, id]; rw [renames_id ms]
theorem renames_id : ∀ ms : List (OTM K), OTM.renames id ms = ms
  | [] => by simp [OTM.renames]
  | m :: ms => by simp only [OTM.renames]; rw [rename_id m, renames_id ms]
end

/-! ## Copies of attributes -/

/-- the attributes of the objects `φ x` of `h'` are those of the objects `x` in `A` of `h` -/
structure CopyH (φ : Ren) (A : Part) (h h' : THeap K d) : Prop where
  attr : ∀ r, A.t r → h' (φ.t r) = (h r).rename φ
  study : ∀ r i, A.t r → (h r).study = some i → A.s i

section
variable {view view' : ℕ → View K gs} {back : Bool} {φ : Ren} {A : Part} {h h' : THeap K d}

theorem CopyH.env (hh : CopyH φ A h h') (hv : ∀ i, A.s i → view' (φ.s i) = view i) {r : ℕ} (hr : A.t r) : h'.env ext view' (φ.t r) = h.env ext view r := by
  unfold THeap.env
  rw [hh.attr r hr]
  cases hs : (h r).study with
  | none => simp [TAttr.rename, hs]
  | some i =>
    simp only [TAttr.rename, hs, Option.map_some]
    cases (h r).lattice with
    | none => rfl
    | some l => simp only; rw [hv i (hh.study r i hr hs)]

theorem CopyH.hasOM (hh : CopyH φ A h h') (hv : ∀ i, A.s i → view' (φ.s i) = view i) {r : ℕ} (hr : A.t r) : h'.hasOM view' (φ.t r) = h.hasOM view r := by
  unfold THeap.hasOM
  rw [hh.attr r hr]
  cases hs : (h r).study with
  | none => simp [TAttr.rename, hs]
  | some i =>
    simp only [TAttr.rename, hs, Option.map_some]
    rw [hv i (hh.study r i hr hs)]

theorem CopyH.reset (hh : CopyH φ A h h') (hv : ∀ i, A.s i → view' (φ.s i) = view i) {r : ℕ} (hr : A.t r) : h'.reset ext view' (φ.t r) = h.reset ext view r := by
  unfold THeap.reset
  rw [hh.attr r hr]
  cases hs : (h r).study with
  | none => simp [TAttr.rename, hs]
  | some i =>
    simp only [TAttr.rename, hs, Option.map_some]
    rw [hv i (hh.study r i hr hs)]

theorem CopyH.upd (hφ : φ.Inj) (hh : CopyH φ A h h') (r : ℕ) {a a' : TAttr K d} (ha : a' = a.rename φ) (hs : A.t r → ∀ i, a.study = some i → A.s i) :
    CopyH φ A (Function.update h r a) (Function.update h' (φ.t r) a') := by
  constructor
  · intro x hx
    rcases eq_or_ne x r with rfl | hne
    · rw [Function.update_self, Function.update_self, ha]
    · rw [Function.update_of_ne hne, Function.update_of_ne (hφ.t.ne hne)]; exact hh.attr x hx
  · intro x i hx
    rcases eq_or_ne x r with rfl | hne
    · rw [Function.update_self]; exact hs hx i
    · rw [Function.update_of_ne hne]; exact hh.study x i hx

theorem CopyH.setCache (hφ : φ.Inj) (hh : CopyH φ A h h') {r : ℕ} (hr : A.t r) (c : Option (List (HVal K) × Kernel K d)) :
    CopyH φ A (Function.update h r { h r with cache := c }) (Function.update h' (φ.t r) { h' (φ.t r) with cache := c }) :=
  hh.upd hφ r (by rw [hh.attr r hr]; rfl) fun _ i hi => hh.study r i hr hi

theorem kernelH_copy (hφ : φ.Inj) (hh : CopyH φ A h h') (new : Except PyErr (Kernel K d)) {r : ℕ} (hr : A.t r) (vals : List (HVal K)) (p : Arr K gs) :
    StRel (CopyH φ A) (kernelH h new r vals p) (kernelH h' new (φ.t r) vals p) := by
  unfold kernelH
  have hc : (h' (φ.t r)).cache = (h r).cache := by rw [hh.attr r hr]; rfl
  rw [hc]
  cases (h r).cache with
  | none =>
    simp only
    cases new with
    | error e => exact ⟨rfl, hh⟩
    | ok k => exact ⟨rfl, hh.setCache hφ hr _⟩
  | some c =>
    obtain ⟨v, k⟩ := c
    simp only
    split
    · exact ⟨rfl, hh⟩
    · cases new with
      | error e => exact ⟨rfl, hh⟩
      | ok k => exact ⟨rfl, hh.setCache hφ hr _⟩

theorem leafH_copy (hφ : φ.Inj) (hh : CopyH φ A h h') (hv : ∀ i, A.s i → view' (φ.s i) = view i) {r : ℕ} (hr : A.t r) (ht : tab (φ.t r) = tab r) (p : Arr K gs) (t : K) :
    StRel (CopyH φ A) (leafH tab ext view back h r p t) (leafH tab ext view' back h' (φ.t r) p t) := by
  unfold leafH
  have hoff : (h' (φ.t r)).toff = (h r).toff := by rw [hh.attr r hr]; rfl
  rw [hh.env (ext := ext) hv hr, hoff, hh.reset (ext := ext) hv hr, hh.hasOM hv hr, ht]
  cases h.env ext view r with
  | error e => exact ⟨rfl, hh⟩
  | ok E =>
    simp only
    cases hk : kernelKind (tab r).kind with
    | some m => exact kernelH_copy hφ hh _ hr _ p
    | none =>
      simp only
      split
      · exact ⟨rfl, hh⟩
      · split
        · split <;> exact ⟨rfl, hh⟩
        · exact ⟨rfl, hh⟩

theorem CopyH.pass (hφ : φ.Inj) (hh : CopyH φ A h h') {r m : ℕ} (hr : A.t r) (hm : A.t m) (toff : K) : CopyH φ A (h.pass r m toff) (h'.pass (φ.t r) (φ.t m) toff) :=
  hh.upd hφ m (by rw [hh.attr r hr, hh.attr m hm]; rfl) fun _ i hi => hh.study r i hr hi

mutual
/-- copies of objects compute the same -/
theorem stepH_copy (hφ : φ.Inj) (hv : ∀ i, A.s i → view' (φ.s i) = view i) (ht : ∀ r, A.t r → tab (φ.t r) = tab r) : ∀ (m : OTM K) (h h' : THeap K d) (p : Arr K gs) (t : K), CopyH φ A h h' →
    (∀ x ∈ objects m, A.t x) → StRel (CopyH φ A) (m.stepH tab ext view back h p t) ((m.rename φ.t).stepH tab ext view' back h' p t)
  | .leaf r, h, h', p, t, hh, hA => by
      simp only [OTM.rename, OTM.stepH]
      have hr := hA r (by simp [objects, OTM.ref])
      exact leafH_copy hφ hh hv hr (ht r hr) p t
  | .combined r ms, h, h', p, t, hh, hA => by
      simp only [OTM.rename, OTM.stepH]
      exact stepAllH_copy hφ hv ht ms h h' r p t hh (hA r (by simp [objects, OTM.ref])) (fun x hx => hA x (by simp [objects, parts, hx]))
  | .serial r _ vals _ mask ms, h, h', p, t, hh, hA => by
      simp only [OTM.rename, OTM.stepH]
      cases scalars vals with
      | error e => exact ⟨rfl, hh⟩
      | ok vs =>
        simp only
        have hr := hA r (by simp [objects, OTM.ref])
        obtain ⟨h1, h2⟩ := stepNthH_copy hφ hv ht ms h h' r (breakOffset vs (modelIndex vs (if back then t - 1 else t)))
          (modelIndex vs (if back then t - 1 else t)) p t hh hr (fun x hx => hA x (by simp [objects, parts, hx]))
        revert h1 h2
        generalize OTM.stepNthH tab ext view back h r (breakOffset vs (modelIndex vs (if back then t - 1 else t))) ms (modelIndex vs (if back then t - 1 else t)) p t = u
        generalize OTM.stepNthH tab ext view' back h' (φ.t r) (breakOffset vs (modelIndex vs (if back then t - 1 else t))) (OTM.renames φ.t ms) (modelIndex vs (if back then t - 1 else t)) p t = v
        obtain ⟨u1, u2⟩ := u
        obtain ⟨v1, v2⟩ := v
        rintro h1 h2
        simp only at h1 h2
        subst h1
        cases u2 with
        | error e => exact ⟨rfl, h2⟩
        | ok q => refine ⟨?_, h2⟩; simp only; rw [h2.reset (ext := ext) hv hr]
theorem stepAllH_copy (hφ : φ.Inj) (hv : ∀ i, A.s i → view' (φ.s i) = view i) (ht : ∀ r, A.t r → tab (φ.t r) = tab r) : ∀ (ms : List (OTM K)) (h h' : THeap K d) (r : ℕ) (p : Arr K gs) (t : K),
    CopyH φ A h h' → A.t r → (∀ x ∈ partsL ms, A.t x) → StRel (CopyH φ A) (OTM.stepAllH tab ext view back h r ms p t) (OTM.stepAllH tab ext view' back h' (φ.t r) (OTM.renames φ.t ms) p t)
  | [], h, h', r, p, t, hh, hr, hA => by simp only [OTM.renames, OTM.stepAllH]; exact ⟨rfl, hh⟩
  | m :: ms, h, h', r, p, t, hh, hr, hA => by
      simp only [OTM.renames, OTM.stepAllH]
      have hoff : (h' (φ.t r)).toff = (h r).toff := by rw [hh.attr r hr]; rfl
      rw [hoff, rename_ref]
      have hm : ∀ x ∈ objects m, A.t x := fun x hx => hA x (by simp only [objects, List.mem_cons] at hx; simp only [partsL, List.mem_cons, List.mem_append]; tauto)
      obtain ⟨h1, h2⟩ := stepH_copy hφ hv ht m _ _ p t (hh.pass hφ hr (hm m.ref (by simp [objects])) (h r).toff) hm
      revert h1 h2
      generalize OTM.stepH tab ext view back (h.pass r m.ref (h r).toff) m p t = u
      generalize OTM.stepH tab ext view' back (h'.pass (φ.t r) (φ.t m.ref) (h r).toff) (m.rename φ.t) p t = v
      obtain ⟨u1, u2⟩ := u
      obtain ⟨v1, v2⟩ := v
      rintro h1 h2
      simp only at h1 h2
      subst h1
      cases u2 with
      | error e => exact ⟨rfl, h2⟩
      | ok q => exact stepAllH_copy hφ hv ht ms u1 v1 r q t h2 hr (fun x hx => hA x (by simp [partsL, hx]))
theorem stepNthH_copy (hφ : φ.Inj) (hv : ∀ i, A.s i → view' (φ.s i) = view i) (ht : ∀ r, A.t r → tab (φ.t r) = tab r) : ∀ (ms : List (OTM K)) (h h' : THeap K d) (r : ℕ) (toff : K) (j : ℕ) (p : Arr K gs)
    (t : K), CopyH φ A h h' → A.t r → (∀ x ∈ partsL ms, A.t x) →
    StRel (CopyH φ A) (OTM.stepNthH tab ext view back h r toff ms j p t) (OTM.stepNthH tab ext view' back h' (φ.t r) toff (OTM.renames φ.t ms) j p t)
  | [], h, h', r, toff, j, p, t, hh, hr, hA => by simp only [OTM.renames, OTM.stepNthH]; exact ⟨rfl, hh⟩
  | m :: ms, h, h', r, toff, 0, p, t, hh, hr, hA => by
      simp only [OTM.renames, OTM.stepNthH]
      have hm : ∀ x ∈ objects m, A.t x := fun x hx => hA x (by simp only [objects, List.mem_cons] at hx; simp only [partsL, List.mem_cons, List.mem_append]; tauto)
      rw [rename_ref]
      exact stepH_copy hφ hv ht m _ _ p t (hh.pass hφ hr (hm m.ref (by simp [objects])) toff) hm
  | m :: ms, h, h', r, toff, j + 1, p, t, hh, hr, hA => by
      simp only [OTM.renames, OTM.stepNthH]
      exact stepNthH_copy hφ hv ht ms h h' r toff j p t hh hr (fun x hx => hA x (by simp [partsL, hx]))
end
end

/-! ## Copies in sessions -/

theorem CopyW.toH {φ : Ren} {A : Part} {w w' : World K D gs} (h : CopyW φ A w w') : CopyH φ A w.heap w'.heap := ⟨h.heap, h.closed.study⟩

theorem CopyW.view {φ : Ren} (hφ : φ.Inj) {A : Part} {w w' : World K D gs} (h : CopyW φ A w w') (o : ℕ) (pr : PriorSpec K gs) {i : ℕ} (hi : A.s i) :
    w'.view (φ.o o) pr (φ.s i) = w.view o pr i := by
  simp only [World.view]
  rw [h.studies i hi]
  cases ho : (w.studies i).om with
  | none => simp [StudyObj.rename, ho]
  | some o' =>
    simp only [StudyObj.rename, ho, Option.map_some]
    rw [h.oms o' (h.closed.om i o' hi ho)]
    congr 1
    by_cases he : o' = o
    · rw [he, if_pos rfl, if_pos rfl]
    · rw [if_neg he, if_neg (hφ.o.ne he)]

theorem CopyW.seen {φ : Ren} {A : Part} {w w' : World K D gs} (h : CopyW φ A w w') {i : ℕ} (hi : A.s i) (e : Option PyErr) : w'.seen (φ.s i) e = w.seen i e := by
  simp only [World.seen]
  rw [h.studies i hi]
  cases ho : (w.studies i).om with
  | none => simp [StudyObj.rename, ho]
  | some o => simp only [StudyObj.rename, ho, Option.map_some]; rw [h.oms o (h.closed.om i o hi ho)]

/-- the same call on the copy has the same effect and result -/
theorem CopyW.step {φ : Ren} (hφ : φ.Inj) {A : Part} (ht : ∀ r, A.t r → tab (φ.t r) = tab r) {w w' : World K D gs} (h : CopyW φ A w w') {op : WOp K D} (hop : op.Within A) :
    CopyW φ A (w.step tab ext op).1 (w'.step tab ext (op.rename φ)).1 ∧ (w'.step tab ext (op.rename φ)).2 = (w.step tab ext op).2 := by
  have hst : ∀ (i : ℕ) (S : StudyObj K D gs), A.s i → (∀ o, S.om = some o → A.o o) → (∀ m, S.tm = some m → ∀ r ∈ objects m, A.t r) →
      (∀ j, A.s j → Function.update w'.studies (φ.s i) (S.rename φ) (φ.s j) = (Function.update w.studies i S j).rename φ) ∧
      (∀ j o, A.s j → (Function.update w.studies i S j).om = some o → A.o o) ∧ (∀ j m, A.s j → (Function.update w.studies i S j).tm = some m → ∀ r ∈ objects m, A.t r) := by
    intro i S hi h1 h2
    refine ⟨fun j hj => ?_, fun j o hj => ?_, fun j m hj => ?_⟩ <;> rcases eq_or_ne j i with rfl | hne
    · rw [Function.update_self, Function.update_self]
    · rw [Function.update_of_ne hne, Function.update_of_ne (hφ.s.ne hne)]; exact h.studies j hj
    · rw [Function.update_self]; exact h1 o
    · rw [Function.update_of_ne hne]; exact h.closed.om j o hj
    · rw [Function.update_self]; exact h2 m
    · rw [Function.update_of_ne hne]; exact h.closed.tm j m hj
  cases op with
  | load i data ts =>
    have hi : A.s i := hop
    obtain ⟨h1, h2, h3⟩ := hst i { w.studies i with data := data, ts := ts } hi (fun o => h.closed.om i o hi) (fun m => h.closed.tm i m hi)
    refine ⟨⟨?_, h.oms, h.heap, ⟨h2, h3, h.closed.study⟩⟩, rfl⟩
    simp only [World.step, WOp.rename]
    rw [h.studies i hi]
    exact h1
  | setOM i o =>
    obtain ⟨hi, ho⟩ : A.s i ∧ A.o o := hop
    obtain ⟨h1, h2, h3⟩ := hst i { w.studies i with om := some o, grid := (w.oms o).grid, lattice := (w.oms o).lattice } hi (fun o' he => by cases he; exact ho) (fun m => h.closed.tm i m hi)
    simp only [World.step, WOp.rename]
    rw [h.studies i hi, h.oms o ho]
    have hheap : CopyH φ A (match (w.studies i).tm with
          | some m => Function.update w.heap m.ref { w.heap m.ref with lattice := some (w.oms o).lattice }
          | none => w.heap)
        (match (StudyObj.rename φ (w.studies i)).tm with
          | some m => Function.update w'.heap m.ref { w'.heap m.ref with lattice := some (w.oms o).lattice }
          | none => w'.heap) := by
      cases hm : (w.studies i).tm with
      | none => simp only [StudyObj.rename, hm, Option.map_none]; exact h.toH
      | some m =>
        simp only [StudyObj.rename, hm, Option.map_some, rename_ref]
        have hr := h.closed.tm i m hi hm m.ref (by simp [objects])
        exact h.toH.upd hφ m.ref (by rw [h.heap _ hr]; rfl) fun _ j hj => h.closed.study _ j hr hj
    exact ⟨⟨h1, h.oms, hheap.attr, ⟨h2, h3, hheap.study⟩⟩, trivial⟩
  | setTM i m =>
    obtain ⟨hi, hm⟩ : A.s i ∧ ∀ r ∈ objects m, A.t r := hop
    have hval : (m.rename φ.t).value tab = m.value tab := rename_value m fun r hr => ht r (hm r hr)
    obtain ⟨h1, h2, h3⟩ := hst i { w.studies i with tm := some m } hi (fun o => h.closed.om i o hi) (fun m' he => by cases he; exact hm)
    have hr := hm m.ref (by simp [objects])
    have hheap : CopyH φ A (Function.update w.heap m.ref { w.heap m.ref with study := some i, lattice := some (w.studies i).lattice })
        (Function.update w'.heap (φ.t m.ref) { w'.heap (φ.t m.ref) with study := some (φ.s i), lattice := some (w.studies i).lattice }) :=
      h.toH.upd hφ m.ref (by rw [h.heap _ hr]; rfl) fun _ j hj => by cases hj; exact hi
    simp only [World.step, WOp.rename]
    rw [hval, h.studies i hi, rename_ref]
    split
    · exact ⟨h, rfl⟩
    · exact ⟨⟨h1, h.oms, hheap.attr, ⟨h2, h3, hheap.study⟩⟩, rfl⟩
  | fit i fo eo =>
    have hi : A.s i := hop
    simp only [World.step, WOp.rename, World.fit]
    rw [h.studies i hi]
    cases hom : (w.studies i).om with
    | none => simp only [StudyObj.rename, hom, Option.map_none]; exact ⟨h, trivial⟩
    | some o =>
      cases htm : (w.studies i).tm with
      | none => simp only [StudyObj.rename, hom, htm, Option.map_none, Option.map_some]; exact ⟨h, trivial⟩
      | some m =>
        have ho := h.closed.om i o hi hom
        have hm := h.closed.tm i m hi htm
        have hval : (m.rename φ.t).value tab = m.value tab := rename_value m fun r hr => ht r (hm r hr)
        simp only [StudyObj.rename, hom, htm, Option.map_some]
        rw [h.oms o ho, hval]
        split
        · exact ⟨h, rfl⟩
        · split
          · exact ⟨h, rfl⟩
          · have hv : ∀ pr j, A.s j → w'.view (φ.o o) pr (φ.s j) = w.view o pr j := fun pr j hj => h.view hφ o pr hj
            have hrel := fitS_rel (E := ⟨(w.oms o).names, (w.studies i).lattice, .none, ext⟩) (grid := (w.studies i).grid) (ra := (m.value tab).returnsArg)
              (f := fun h pr => m.stepH tab ext (w.view o pr) false h) (fb := fun h pr => m.stepH tab ext (w.view o pr) true h)
              (g := fun h pr => (m.rename φ.t).stepH tab ext (w'.view (φ.o o) pr) false h) (gb := fun h pr => (m.rename φ.t).stepH tab ext (w'.view (φ.o o) pr) true h)
              (fun s s' pr p t hs => stepH_copy hφ (hv pr) ht m s s' p t hs hm) (fun s s' pr p t hs => stepH_copy hφ (hv pr) ht m s s' p t hs hm)
              ((movingWindow (w.studies i).data (w.oms o).seg).map (w.oms o).pdf) (timestampsOf (w.studies i).ts (w.oms o).seg) fo eo
              ⟨(w.oms o).prior, (w.studies i).posts, (w.studies i).means, (w.studies i).logEv, (w.studies i).locals⟩ w.heap w'.heap h.toH
            revert hrel
            generalize fitS ⟨(w.oms o).names, (w.studies i).lattice, .none, ext⟩ (w.studies i).grid (m.value tab).returnsArg
              (fun h pr => m.stepH tab ext (w.view o pr) false h) (fun h pr => m.stepH tab ext (w.view o pr) true h)
              ((movingWindow (w.studies i).data (w.oms o).seg).map (w.oms o).pdf) (timestampsOf (w.studies i).ts (w.oms o).seg) fo eo
              ⟨(w.oms o).prior, (w.studies i).posts, (w.studies i).means, (w.studies i).logEv, (w.studies i).locals⟩ w.heap = u
            generalize fitS ⟨(w.oms o).names, (w.studies i).lattice, .none, ext⟩ (w.studies i).grid (m.value tab).returnsArg
              (fun h pr => (m.rename φ.t).stepH tab ext (w'.view (φ.o o) pr) false h) (fun h pr => (m.rename φ.t).stepH tab ext (w'.view (φ.o o) pr) true h)
              ((movingWindow (w.studies i).data (w.oms o).seg).map (w.oms o).pdf) (timestampsOf (w.studies i).ts (w.oms o).seg) fo eo
              ⟨(w.oms o).prior, (w.studies i).posts, (w.studies i).means, (w.studies i).logEv, (w.studies i).locals⟩ w'.heap = v
            obtain ⟨u1, u2⟩ := u
            obtain ⟨v1, v2⟩ := v
            rintro ⟨e1, e2⟩
            simp only at e1 e2
            subst e1
            cases u2 with
            | error e => exact ⟨⟨h.studies, h.oms, e2.attr, ⟨h.closed.om, h.closed.tm, e2.study⟩⟩, rfl⟩
            | ok R =>
              obtain ⟨h1, h2, h3⟩ := hst i ⟨(w.studies i).data, (w.studies i).ts, some o, (w.studies i).grid, (w.studies i).lattice, some m, R.posts, R.means, R.logEv, R.locals⟩ hi
                (fun o' he => by cases he; exact ho) (fun m' he => by cases he; exact hm)
              refine ⟨⟨h1, ?_, e2.attr, ⟨h2, h3, e2.study⟩⟩, rfl⟩
              · intro o' ho'
                rcases eq_or_ne o' o with rfl | hne
                · simp only [Function.update_self]
                · simp only [Function.update_of_ne hne, Function.update_of_ne (hφ.o.ne hne)]; exact h.oms o' ho'

/-- a call within a closed part changes nothing else -/
theorem step_frame {A : Part} {w : World K D gs} (h : ClosedW A w) {op : WOp K D} (hop : op.Within A) :
    (∀ i, ¬ A.s i → (w.step tab ext op).1.studies i = w.studies i) ∧ (∀ o, ¬ A.o o → (w.step tab ext op).1.oms o = w.oms o) ∧ (∀ r, ¬ A.t r → (w.step tab ext op).1.heap r = w.heap r) := by
  cases op with
  | load i data ts =>
    have hi : A.s i := hop
    refine ⟨fun j hj => ?_, fun _ _ => rfl, fun _ _ => rfl⟩
    exact Function.update_of_ne (fun e : j = i => hj (e ▸ hi)) _ _
  | setOM i o =>
    obtain ⟨hi, ho⟩ : A.s i ∧ A.o o := hop
    refine ⟨fun j hj => Function.update_of_ne (fun e : j = i => hj (e ▸ hi)) _ _, fun _ _ => rfl, fun r hr => ?_⟩
    simp only [World.step]
    cases hm : (w.studies i).tm with
    | none => rfl
    | some m => exact Function.update_of_ne (fun e : r = m.ref => hr (e ▸ h.tm i m hi hm m.ref (by simp [objects]))) _ _
  | setTM i m =>
    obtain ⟨hi, hm⟩ : A.s i ∧ ∀ r ∈ objects m, A.t r := hop
    simp only [World.step]
    split
    · exact ⟨fun _ _ => rfl, fun _ _ => rfl, fun _ _ => rfl⟩
    · exact ⟨fun j hj => Function.update_of_ne (fun e : j = i => hj (e ▸ hi)) _ _, fun _ _ => rfl, fun r hr => Function.update_of_ne (fun e : r = m.ref => hr (e ▸ hm m.ref (by simp [objects]))) _ _⟩
  | fit i fo eo =>
    have hi : A.s i := hop
    refine ⟨fun j hj => (fit_studies w i fo eo j).2.2.2 fun e => hj (e ▸ hi), fun o ho => fit_oms (Or.inl fun e => ho (h.om i o hi e)), fun r hr => ?_⟩
    exact fit_heap fun m hm hx => hr (h.tm i m hi hm r hx)

/-- other objects -/
def Part.compl (A : Part) : Part := ⟨fun x => ¬ A.s x, fun x => ¬ A.o x, fun x => ¬ A.t x⟩

theorem ClosedW.step {A : Part} {w : World K D gs} (h : ClosedW A w) {op : WOp K D} (hop : op.Within A) : ClosedW A (w.step tab ext op).1 := by
  have hc : CopyW ⟨id, id, id⟩ A w w := by
    refine ⟨fun i _ => ?_, fun o _ => rfl, fun r _ => ?_, h⟩
    · have : ∀ m : OTM K, m.rename id = m := rename_id
      simp only [StudyObj.rename, id, Option.map_id_fun]
      cases hm : w.studies i with
      | mk data ts om grid lattice tm posts means logEv locals => cases tm <;> simp [this]
    · simp [TAttr.rename]
  exact (hc.step (tab := tab) (ext := ext) ⟨fun _ _ h => h, fun _ _ h => h, fun _ _ h => h⟩ (fun _ _ => rfl) hop).1.closed

theorem ClosedW.other {A : Part} {w : World K D gs} (h : ClosedW A w) (hc : ClosedW A.compl w) {op : WOp K D} (hop : op.Within A.compl) : ClosedW A (w.step tab ext op).1 := by
  obtain ⟨h1, h2, h3⟩ := step_frame (tab := tab) (ext := ext) hc hop
  refine ⟨fun i o hi => ?_, fun i m hi => ?_, fun r i hr => ?_⟩
  · rw [h1 i (fun hn => hn hi)]; exact h.om i o hi
  · rw [h1 i (fun hn => hn hi)]; exact h.tm i m hi
  · rw [h3 r (fun hn => hn hr)]; exact h.study r i hr

theorem CopyW.frame {φ : Ren} {A B : Part} {w w' : World K D gs} (h : CopyW φ A w w') (hs : ∀ i, A.s i → B.s (φ.s i)) (ho : ∀ i, A.o i → B.o (φ.o i)) (ht : ∀ i, A.t i → B.t (φ.t i))
    (hc : ClosedW B.compl w') {op : WOp K D} (hop : op.Within B.compl) : CopyW φ A w (w'.step tab ext op).1 := by
  obtain ⟨h1, h2, h3⟩ := step_frame (tab := tab) (ext := ext) hc hop
  refine ⟨fun i hi => ?_, fun o hi => ?_, fun r hi => ?_, h.closed⟩
  · rw [h1 _ (fun hn => hn (hs i hi))]; exact h.studies i hi
  · rw [h2 _ (fun hn => hn (ho o hi))]; exact h.oms o hi
  · rw [h3 _ (fun hn => hn (ht r hi))]; exact h.heap r hi

end BL
