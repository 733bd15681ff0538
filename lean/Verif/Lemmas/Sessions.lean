import Verif.Lemmas.Objects

/-! # Sessions with several studies -/

set_option linter.unusedSectionVars false

namespace BL
open Spec
variable {K D : Type} [Field K] [LinearOrder K] [IsStrictOrderedRing K] {d : ℕ} {gs : Fin d → ℕ} {tab : ℕ → LeafObj K} {ext : Ext K gs}

theorem AgreeH.upd {i : ℕ} {A B : ℕ → Prop} {h h' : THeap K d} (hh : AgreeH i A B h h') (r : ℕ) {a a' : TAttr K d} (h1 : a.study = a'.study) (h2 : a.study = none ∨ a.study = some i)
    (h3 : a.lattice = a'.lattice) (h4 : B r → a.toff = a'.toff) (h5 : A r → a.cache = a'.cache) : AgreeH i A B (Function.update h r a) (Function.update h' r a') := by
  constructor <;> intro x hx <;> rcases eq_or_ne x r with rfl | hxr
  · rw [Function.update_self, Function.update_self]; exact h1
  · rw [Function.update_of_ne hxr, Function.update_of_ne hxr]; exact hh.study x hx
  · rw [Function.update_self]; exact h2
  · rw [Function.update_of_ne hxr]; exact hh.own x hx
  · rw [Function.update_self, Function.update_self]; exact h3
  · rw [Function.update_of_ne hxr, Function.update_of_ne hxr]; exact hh.lattice x hx
  · rw [Function.update_self, Function.update_self]; exact h4 hx
  · rw [Function.update_of_ne hxr, Function.update_of_ne hxr]; exact hh.toff x hx
  · rw [Function.update_self, Function.update_self]; exact h5 hx
  · rw [Function.update_of_ne hxr, Function.update_of_ne hxr]; exact hh.cache x hx

theorem AgreeH.left {i : ℕ} {A B : ℕ → Prop} {h h' g : THeap K d} (hh : AgreeH i A B h h') (hA : ∀ x, A x → g x = h x) (hB : ∀ x, B x → g x = h x) : AgreeH i A B g h' :=
  ⟨fun x hx => by rw [hB x hx]; exact hh.study x hx, fun x hx => by rw [hB x hx]; exact hh.own x hx, fun x hx => by rw [hB x hx]; exact hh.lattice x hx,
   fun x hx => by rw [hB x hx]; exact hh.toff x hx, fun x hx => by rw [hA x hx]; exact hh.cache x hx⟩

/-- the models of all studies come from the calls `ops` -/
structure FromOps (ops : List (WOp K D)) (w : World K D gs) : Prop where
  tm : ∀ j m, (w.studies j).tm = some m → .setTM j m ∈ ops
  om : ∀ j o, (w.studies j).om = some o → .setOM j o ∈ ops

theorem fit_studies (w : World K D gs) (i : ℕ) (fo eo : Bool) (j : ℕ) :
    ((w.fit tab ext i fo eo).1.studies j).tm = (w.studies j).tm ∧ ((w.fit tab ext i fo eo).1.studies j).om = (w.studies j).om ∧
    ((w.fit tab ext i fo eo).1.studies j).lattice = (w.studies j).lattice ∧ (j ≠ i → (w.fit tab ext i fo eo).1.studies j = w.studies j) := by
  simp only [World.fit]
  split
  · split
    · exact ⟨rfl, rfl, rfl, fun _ => rfl⟩
    · split
      · exact ⟨rfl, rfl, rfl, fun _ => rfl⟩
      · split
        · exact ⟨rfl, rfl, rfl, fun _ => rfl⟩
        · rcases eq_or_ne j i with rfl | hj
          · simp only [Function.update_self]
            exact ⟨trivial, trivial, trivial, fun h => absurd rfl h⟩
          · simp only [Function.update_of_ne hj]
            exact ⟨trivial, trivial, trivial, fun _ => trivial⟩
  · exact ⟨rfl, rfl, rfl, fun _ => rfl⟩

theorem FromOps.step {ops : List (WOp K D)} {w : World K D gs} (h : FromOps ops w) {op : WOp K D} (hop : op ∈ ops) : FromOps ops (w.step tab ext op).1 := by
  cases op with
  | load i data ts =>
    constructor <;> intro j x <;> rcases eq_or_ne j i with rfl | hj
    · simp only [World.step, Function.update_self]; exact h.tm j x
    · simp only [World.step, Function.update_of_ne hj]; exact h.tm j x
    · simp only [World.step, Function.update_self]; exact h.om j x
    · simp only [World.step, Function.update_of_ne hj]; exact h.om j x
  | setOM i o =>
    constructor <;> intro j x <;> rcases eq_or_ne j i with rfl | hj
    · simp only [World.step, Function.update_self]; exact h.tm j x
    · simp only [World.step, Function.update_of_ne hj]; exact h.tm j x
    · simp only [World.step, Function.update_self, Option.some.injEq]; rintro rfl; exact hop
    · simp only [World.step, Function.update_of_ne hj]; exact h.om j x
  | setTM i m =>
    simp only [World.step]
    split
    · exact h
    · constructor <;> intro j x <;> rcases eq_or_ne j i with rfl | hj
      · simp only [Function.update_self, Option.some.injEq]; rintro rfl; exact hop
      · simp only [Function.update_of_ne hj]; exact h.tm j x
      · simp only [Function.update_self]; exact h.om j x
      · simp only [Function.update_of_ne hj]; exact h.om j x
  | fit i fo eo =>
    constructor <;> intro j x hx
    · rw [World.step, (fit_studies w i fo eo j).1] at hx; exact h.tm j x hx
    · rw [World.step, (fit_studies w i fo eo j).2.1] at hx; exact h.om j x hx

/-- observation models whose prior is not an array do not change -/
theorem fit_oms {w : World K D gs} {i : ℕ} {fo eo : Bool} {o : ℕ} (ho : (w.studies i).om ≠ some o ∨ (w.oms o).prior.isArray = false) : (w.fit tab ext i fo eo).1.oms o = w.oms o := by
  simp only [World.fit]
  split
  · rename_i o' m h1 h2
    split
    · rfl
    · split
      · rfl
      · split
        · rfl
        · rename_i h R hR
          rcases eq_or_ne o o' with rfl | hne
          · rcases ho with ho | ho
            · exact absurd h1 ho
            · simp only [Function.update_self]
              rw [fitS_prior (S := ⟨(w.oms o).prior, (w.studies i).posts, (w.studies i).means, (w.studies i).logEv, (w.studies i).locals⟩) ho (by rw [hR])]
          · simp only [Function.update_of_ne hne]
  · rfl

/-- a fit changes only the attributes of the objects of the transition model of the study -/
theorem fit_heap {w : World K D gs} {i : ℕ} {fo eo : Bool} {x : ℕ} (hx : ∀ m, (w.studies i).tm = some m → x ∉ objects m) : (w.fit tab ext i fo eo).1.heap x = w.heap x := by
  simp only [World.fit]
  split
  · rename_i o m h1 h2
    split
    · rfl
    · split
      · rfl
      · have hI := fitS_inv (E := ⟨(w.oms o).names, (w.studies i).lattice, .none, ext⟩) (grid := (w.studies i).grid) (ra := (m.value tab).returnsArg)
          (f := fun h pr => m.stepH tab ext (w.view o pr) false h) (fb := fun h pr => m.stepH tab ext (w.view o pr) true h) (I := fun h => h x = w.heap x)
          (fun s pr p t hs => by rw [stepH_frame m s p t (hx m h2)]; exact hs) (fun s pr p t hs => by rw [stepH_frame m s p t (hx m h2)]; exact hs)
          ((movingWindow (w.studies i).data (w.oms o).seg).map (w.oms o).pdf) (timestampsOf (w.studies i).ts (w.oms o).seg) fo eo
          ⟨(w.oms o).prior, (w.studies i).posts, (w.studies i).means, (w.studies i).logEv, (w.studies i).locals⟩ w.heap rfl
        split
        · rename_i hR; rw [hR] at hI; exact hI
        · rename_i hR; rw [hR] at hI; exact hI
  · rfl

/-- two sessions agree on everything that study `i` reads -/
structure SimW (tab : ℕ → LeafObj K) (oms : ℕ → OMObj K D gs) (i : ℕ) (ops : List (WOp K D)) (w w' : World K D gs) : Prop where
  study : w.studies i = w'.studies i
  om : ∀ o, .setOM i o ∈ ops → w.oms o = w'.oms o
  heap : AgreeH i (fun x => ∃ m, .setTM i m ∈ ops ∧ x ∈ objects m ∧ HasKernel tab x) (fun x => ∃ m, .setTM i m ∈ ops ∧ x = m.ref) w.heap w'.heap
  keep : ∀ o, (oms o).prior.isArray = false → w.oms o = oms o
  src : FromOps ops w

theorem SimW.own {oms : ℕ → OMObj K D gs} {i : ℕ} {ops : List (WOp K D)} {w w' : World K D gs} (h : SimW tab oms i ops w w') {op : WOp K D} (hop : op ∈ ops) (hi : op.study = i) :
    SimW tab oms i ops (w.step tab ext op).1 (w'.step tab ext op).1 ∧ (w.step tab ext op).1.seen i (w.step tab ext op).2 = (w'.step tab ext op).1.seen i (w'.step tab ext op).2 := by
  have hsrc := h.src.step (tab := tab) (ext := ext) hop
  have hseen : ∀ (v v' : World K D gs) (e : Option PyErr), SimW tab oms i ops v v' → v.seen i e = v'.seen i e := by
    intro v v' e hv
    simp only [World.seen]
    rw [← hv.study]
    cases ho : (v.studies i).om with
    | none => rfl
    | some o => simp only [Option.map_some]; rw [hv.om o (hv.src.om i o ho)]
  suffices hs : SimW tab oms i ops (w.step tab ext op).1 (w'.step tab ext op).1 ∧ (w.step tab ext op).2 = (w'.step tab ext op).2 by
    refine ⟨hs.1, ?_⟩; rw [hs.2]; exact hseen _ _ _ hs.1
  cases op with
  | load j data ts =>
    obtain rfl : j = i := hi
    refine ⟨⟨?_, h.om, h.heap, h.keep, hsrc⟩, rfl⟩
    simp only [World.step, Function.update_self]; rw [h.study]
  | setOM j o =>
    obtain rfl : j = i := hi
    refine ⟨⟨?_, h.om, ?_, h.keep, hsrc⟩, rfl⟩
    · simp only [World.step, Function.update_self]; rw [h.study, h.om o hop]
    · simp only [World.step]
      rw [← h.study]
      cases hm : (w.studies j).tm with
      | none => exact h.heap
      | some m =>
        have hB : ∃ m', WOp.setTM j m' ∈ ops ∧ m.ref = m'.ref := ⟨m, h.src.tm j m hm, rfl⟩
        exact h.heap.upd m.ref (h.heap.study _ hB) (h.heap.own _ hB) (by rw [h.om o hop]) (h.heap.toff _) (h.heap.cache _)
  | setTM j m =>
    obtain rfl : j = i := hi
    have hB : ∃ m', WOp.setTM j m' ∈ ops ∧ m.ref = m'.ref := ⟨m, hop, rfl⟩
    simp only [World.step] at hsrc ⊢
    split
    · exact ⟨h, rfl⟩
    · rename_i hx
      refine ⟨⟨?_, h.om, ?_, h.keep, ?_⟩, rfl⟩
      · simp only [Function.update_self]; rw [h.study]
      · rw [← h.study]
        exact h.heap.upd m.ref rfl (Or.inr rfl) rfl (h.heap.toff _) (h.heap.cache _)
      · split at hsrc
        · rename_i he; exact absurd he (hx _ _ _)
        · exact hsrc
  | fit j fo eo =>
    obtain rfl : j = i := hi
    simp only [World.step] at hsrc ⊢
    have hkeep : ∀ o, (oms o).prior.isArray = false → (w.fit tab ext j fo eo).1.oms o = oms o := by
      intro o ho
      rw [fit_oms (Or.inr (by rw [h.keep o ho]; exact ho)), h.keep o ho]
    revert hsrc hkeep
    simp only [World.fit]
    rw [← h.study]
    cases hom : (w.studies j).om with
    | none => intro hsrc hkeep; exact ⟨h, rfl⟩
    | some o =>
      cases htm : (w.studies j).tm with
      | none => intro hsrc hkeep; exact ⟨h, rfl⟩
      | some m =>
        simp only
        rw [← h.om o (h.src.om j o hom)]
        split
        · intro hsrc hkeep; exact ⟨h, rfl⟩
        · split
          · intro hsrc hkeep; exact ⟨h, rfl⟩
          · have hB : ∃ m', WOp.setTM j m' ∈ ops ∧ m.ref = m'.ref := ⟨m, h.src.tm j m htm, rfl⟩
            have hA : ∀ x ∈ objects m, HasKernel tab x → ∃ m', WOp.setTM j m' ∈ ops ∧ x ∈ objects m' ∧ HasKernel tab x := fun x hx hk => ⟨m, h.src.tm j m htm, hx, hk⟩
            have hview : ∀ pr, w.view o pr j = w'.view o pr j := by
              intro pr
              simp only [World.view]
              rw [← h.study, hom]
              simp only [if_true]
              rw [h.om o (h.src.om j o hom)]
            have hrel := fitS_rel (E := ⟨(w.oms o).names, (w.studies j).lattice, .none, ext⟩) (grid := (w.studies j).grid) (ra := (m.value tab).returnsArg)
              (f := fun h pr => m.stepH tab ext (w.view o pr) false h) (fb := fun h pr => m.stepH tab ext (w.view o pr) true h)
              (g := fun h pr => m.stepH tab ext (w'.view o pr) false h) (gb := fun h pr => m.stepH tab ext (w'.view o pr) true h)
              (fun s s' pr p t hs => stepH_rel (hview pr) m _ s s' p t hs hB hA) (fun s s' pr p t hs => stepH_rel (hview pr) m _ s s' p t hs hB hA)
              ((movingWindow (w.studies j).data (w.oms o).seg).map (w.oms o).pdf) (timestampsOf (w.studies j).ts (w.oms o).seg) fo eo
              ⟨(w.oms o).prior, (w.studies j).posts, (w.studies j).means, (w.studies j).logEv, (w.studies j).locals⟩ w.heap w'.heap h.heap
            revert hrel
            generalize fitS ⟨(w.oms o).names, (w.studies j).lattice, .none, ext⟩ (w.studies j).grid (m.value tab).returnsArg
              (fun h pr => m.stepH tab ext (w.view o pr) false h) (fun h pr => m.stepH tab ext (w.view o pr) true h)
              ((movingWindow (w.studies j).data (w.oms o).seg).map (w.oms o).pdf) (timestampsOf (w.studies j).ts (w.oms o).seg) fo eo
              ⟨(w.oms o).prior, (w.studies j).posts, (w.studies j).means, (w.studies j).logEv, (w.studies j).locals⟩ w.heap = u
            generalize fitS ⟨(w.oms o).names, (w.studies j).lattice, .none, ext⟩ (w.studies j).grid (m.value tab).returnsArg
              (fun h pr => m.stepH tab ext (w'.view o pr) false h) (fun h pr => m.stepH tab ext (w'.view o pr) true h)
              ((movingWindow (w.studies j).data (w.oms o).seg).map (w.oms o).pdf) (timestampsOf (w.studies j).ts (w.oms o).seg) fo eo
              ⟨(w.oms o).prior, (w.studies j).posts, (w.studies j).means, (w.studies j).logEv, (w.studies j).locals⟩ w'.heap = v
            obtain ⟨u1, u2⟩ := u
            obtain ⟨v1, v2⟩ := v
            rintro ⟨h1, h2⟩
            simp only at h1 h2
            subst h1
            cases u2 with
            | error e =>
              intro hsrc hkeep
              exact ⟨⟨h.study, h.om, h2, h.keep, hsrc⟩, rfl⟩
            | ok R =>
              intro hsrc hkeep
              refine ⟨⟨?_, ?_, h2, hkeep, hsrc⟩, rfl⟩
              · simp only [Function.update_self]
              · intro o' ho'
                rcases eq_or_ne o' o with rfl | hne
                · simp only [Function.update_self]
                · simp only [Function.update_of_ne hne]; exact h.om o' ho'

theorem SimW.other {oms : ℕ → OMObj K D gs} {i : ℕ} {ops : List (WOp K D)} (hu : Unshared tab oms i ops) {w w' : World K D gs} (h : SimW tab oms i ops w w') {op : WOp K D} (hop : op ∈ ops)
    (hi : op.study ≠ i) : SimW tab oms i ops (w.step tab ext op).1 w' := by
  have hsrc := h.src.step (tab := tab) (ext := ext) hop
  have hB : ∀ j m', j ≠ i → WOp.setTM j m' ∈ ops → ∀ x, (∃ m, WOp.setTM i m ∈ ops ∧ x = m.ref) → x ∉ objects m' := by
    rintro j m' hj hm' x ⟨m, hm, rfl⟩
    exact hu.model m hm j m' hm' hj
  have hA : ∀ j m', j ≠ i → WOp.setTM j m' ∈ ops → ∀ x, (∃ m, WOp.setTM i m ∈ ops ∧ x ∈ objects m ∧ HasKernel tab x) → x ∉ objects m' := by
    rintro j m' hj hm' x ⟨m, hm, hx, hk⟩
    exact hu.kernel m hm j m' hm' hj x hx hk
  cases op with
  | load j data ts =>
    refine ⟨?_, h.om, h.heap, h.keep, hsrc⟩
    simp only [World.step, Function.update_of_ne (Ne.symm hi : i ≠ j)]; exact h.study
  | setOM j o =>
    refine ⟨?_, h.om, ?_, h.keep, hsrc⟩
    · simp only [World.step, Function.update_of_ne (Ne.symm hi : i ≠ j)]; exact h.study
    · simp only [World.step]
      cases hm : (w.studies j).tm with
      | none => exact h.heap
      | some m =>
        have hm := h.src.tm j m hm
        exact h.heap.left (fun x hx => Function.update_of_ne (fun he => hA j m hi hm x hx (by simp [objects, he])) _ _)
          (fun x hx => Function.update_of_ne (fun he => hB j m hi hm x hx (by simp [objects, he])) _ _)
  | setTM j m =>
    simp only [World.step] at hsrc ⊢
    split
    · exact h
    · rename_i hx
      refine ⟨?_, h.om, ?_, h.keep, ?_⟩
      · simp only [Function.update_of_ne (Ne.symm hi : i ≠ j)]; exact h.study
      · exact h.heap.left (fun x hx => Function.update_of_ne (fun he => hA j m hi hop x hx (by simp [objects, he])) _ _)
          (fun x hx => Function.update_of_ne (fun he => hB j m hi hop x hx (by simp [objects, he])) _ _)
      · split at hsrc
        · rename_i he; exact absurd he (hx _ _ _)
        · exact hsrc
  | fit j fo eo =>
    have hj : j ≠ i := hi
    simp only [World.step] at hsrc ⊢
    refine ⟨?_, ?_, ?_, ?_, hsrc⟩
    · rw [(fit_studies w j fo eo i).2.2.2 hj.symm]; exact h.study
    · intro o ho
      rw [fit_oms, h.om o ho]
      by_cases he : (w.studies j).om = some o
      · right
        have := hu.prior o ho j (h.src.om j o he) hj
        rw [h.keep o this]; exact this
      · exact Or.inl he
    · exact h.heap.left (fun x hx => fit_heap fun m hm => hA j m hj (h.src.tm j m hm) x hx) (fun x hx => fit_heap fun m hm => hB j m hj (h.src.tm j m hm) x hx)
    · intro o ho
      rw [fit_oms (Or.inr (by rw [h.keep o ho]; exact ho)), h.keep o ho]

theorem trace_own {oms : ℕ → OMObj K D gs} {i : ℕ} {ops : List (WOp K D)} (hu : Unshared tab oms i ops) : ∀ (rest : List (WOp K D)) (w w' : World K D gs), (∀ op ∈ rest, op ∈ ops) →
    SimW tab oms i ops w w' → (w.trace tab ext rest).filter (fun e => e.1 = i) = w'.trace tab ext (rest.filter fun op => op.study = i)
  | [], w, w', _, _ => rfl
  | op :: rest, w, w', hin, h => by
      have hop := hin op List.mem_cons_self
      have hin' : ∀ op ∈ rest, op ∈ ops := fun op ho => hin op (List.mem_cons_of_mem _ ho)
      by_cases hi : op.study = i
      · obtain ⟨h1, h2⟩ := h.own (ext := ext) hop hi
        simp only [World.trace, List.filter_cons, hi, decide_true, if_true]
        rw [trace_own hu rest _ _ hin' h1, h2]
      · simp only [World.trace, List.filter_cons, hi, decide_false, Bool.false_eq_true, if_false]
        exact trace_own hu rest _ _ hin' (h.other hu hop hi)

theorem SimW.init (oms : ℕ → OMObj K D gs) (i : ℕ) (ops : List (WOp K D)) : SimW tab oms i ops (World.init oms) (World.init oms) where
  study := rfl
  om := fun _ _ => rfl
  heap := ⟨fun _ _ => rfl, fun _ _ => Or.inl rfl, fun _ _ => rfl, fun _ _ => rfl, fun _ _ => rfl⟩
  keep := fun _ _ => rfl
  src := ⟨fun j m h => by simp [World.init, StudyObj.new] at h, fun j o h => by simp [World.init, StudyObj.new] at h⟩

/-! ## Attributes after a session -/

section
variable {view : ℕ → View K gs} {back : Bool}

mutual
/-- a property of the heap that is kept by the writes of attributes to parts and by elementary models is kept by all models -/
theorem stepH_inv {I : THeap K d → Prop} (hp : ∀ h r m toff, I h → I (h.pass r m toff)) (hl : ∀ h r p t, I h → I (leafH tab ext view back h r p t).1) :
    ∀ (m : OTM K) (h : THeap K d) (p : Arr K gs) (t : K), I h → I (m.stepH tab ext view back h p t).1
  | .leaf r, h, p, t, hh => by simp only [OTM.stepH]; exact hl h r p t hh
  | .combined r ms, h, p, t, hh => by simp only [OTM.stepH]; exact stepAllH_inv hp hl ms h r p t hh
  | .serial r _ vals _ mask ms, h, p, t, hh => by
      simp only [OTM.stepH]
      cases scalars vals with
      | error e => exact hh
      | ok vs =>
        simp only
        have := stepNthH_inv hp hl ms h r (breakOffset vs (modelIndex vs (if back then t - 1 else t))) (modelIndex vs (if back then t - 1 else t)) p t hh
        revert this
        generalize OTM.stepNthH tab ext view back h r (breakOffset vs (modelIndex vs (if back then t - 1 else t))) ms (modelIndex vs (if back then t - 1 else t)) p t = u
        obtain ⟨u1, u2⟩ := u
        cases u2 <;> exact id
theorem stepAllH_inv {I : THeap K d → Prop} (hp : ∀ h r m toff, I h → I (h.pass r m toff)) (hl : ∀ h r p t, I h → I (leafH tab ext view back h r p t).1) :
    ∀ (ms : List (OTM K)) (h : THeap K d) (r : ℕ) (p : Arr K gs) (t : K), I h → I (OTM.stepAllH tab ext view back h r ms p t).1
  | [], h, r, p, t, hh => hh
  | m :: ms, h, r, p, t, hh => by
      simp only [OTM.stepAllH]
      have := stepH_inv hp hl m (h.pass r m.ref (h r).toff) p t (hp _ _ _ _ hh)
      revert this
      generalize OTM.stepH tab ext view back (h.pass r m.ref (h r).toff) m p t = u
      obtain ⟨u1, u2⟩ := u
      cases u2 with
      | error e => exact id
      | ok q => intro hu; exact stepAllH_inv hp hl ms u1 r q t hu
theorem stepNthH_inv {I : THeap K d → Prop} (hp : ∀ h r m toff, I h → I (h.pass r m toff)) (hl : ∀ h r p t, I h → I (leafH tab ext view back h r p t).1) :
    ∀ (ms : List (OTM K)) (h : THeap K d) (r : ℕ) (toff : K) (i : ℕ) (p : Arr K gs) (t : K), I h → I (OTM.stepNthH tab ext view back h r toff ms i p t).1
  | [], h, r, toff, i, p, t, hh => hh
  | m :: ms, h, r, toff, 0, p, t, hh => by
      simp only [OTM.stepNthH]
      exact stepH_inv hp hl m _ p t (hp _ _ _ _ hh)
  | m :: ms, h, r, toff, i + 1, p, t, hh => by
      simp only [OTM.stepNthH]
      exact stepNthH_inv hp hl ms h r toff i p t hh
end
end

/-- a property of the heap that every computation of the transition model keeps is kept by `fit` -/
theorem fit_inv {w : World K D gs} {i : ℕ} {fo eo : Bool} {I : THeap K d → Prop}
    (hs : ∀ o m, (w.studies i).om = some o → (w.studies i).tm = some m → ∀ back pr h p t, I h → I (m.stepH tab ext (w.view o pr) back h p t).1) (h0 : I w.heap) :
    I (w.fit tab ext i fo eo).1.heap := by
  simp only [World.fit]
  split
  · rename_i o m h1 h2
    split
    · exact h0
    · split
      · exact h0
      · have hI := fitS_inv (E := ⟨(w.oms o).names, (w.studies i).lattice, .none, ext⟩) (grid := (w.studies i).grid) (ra := (m.value tab).returnsArg)
          (f := fun h pr => m.stepH tab ext (w.view o pr) false h) (fb := fun h pr => m.stepH tab ext (w.view o pr) true h) (I := I)
          (fun s pr p t hI => hs o m h1 h2 false pr s p t hI) (fun s pr p t hI => hs o m h1 h2 true pr s p t hI)
          ((movingWindow (w.studies i).data (w.oms o).seg).map (w.oms o).pdf) (timestampsOf (w.studies i).ts (w.oms o).seg) fo eo
          ⟨(w.oms o).prior, (w.studies i).posts, (w.studies i).means, (w.studies i).logEv, (w.studies i).locals⟩ w.heap h0
        split
        · rename_i hR; rw [hR] at hI; exact hI
        · rename_i hR; rw [hR] at hI; exact hI
  · exact h0

theorem run_cons (w : World K D gs) (op : WOp K D) (ops : List (WOp K D)) : w.run tab ext (op :: ops) = (w.step tab ext op).1.run tab ext ops := rfl

theorem run_append (w : World K D gs) (ops ops' : List (WOp K D)) : w.run tab ext (ops ++ ops') = (w.run tab ext ops).run tab ext ops' := by
  simp only [World.run, List.foldl_append]

/-- invariants of sessions -/
theorem run_inv {ops : List (WOp K D)} {J : World K D gs → Prop} (hs : ∀ w op, op ∈ ops → FromOps ops w → J w → J (w.step tab ext op).1) :
    ∀ (rest : List (WOp K D)) (w : World K D gs), (∀ op ∈ rest, op ∈ ops) → FromOps ops w → J w → FromOps ops (w.run tab ext rest) ∧ J (w.run tab ext rest)
  | [], w, _, hf, hj => ⟨hf, hj⟩
  | op :: rest, w, hin, hf, hj => by
      rw [run_cons]
      exact run_inv hs rest _ (fun o ho => hin o (List.mem_cons_of_mem _ ho)) (hf.step (hin op List.mem_cons_self)) (hs w op (hin op List.mem_cons_self) hf hj)

theorem init_from (oms : ℕ → OMObj K D gs) (ops : List (WOp K D)) : FromOps ops (World.init oms) :=
  ⟨fun j m h => by simp [World.init, StudyObj.new] at h, fun j o h => by simp [World.init, StudyObj.new] at h⟩

/-- an object that was never a part of a model has `tOffset = 0` -/
theorem run_toff (oms : ℕ → OMObj K D gs) (ops : List (WOp K D)) {x : ℕ} (hx : ∀ j m, .setTM j m ∈ ops → x ∉ parts m) : (((World.init oms).run tab ext ops).heap x).toff = 0 := by
  refine (run_inv (J := fun w : World K D gs => (w.heap x).toff = 0) ?_ ops (World.init oms) (fun _ h => h) (init_from oms ops) rfl).2
  intro w op hop hf hj
  cases op with
  | load i data ts => exact hj
  | setOM i o =>
    simp only [World.step]
    cases (w.studies i).tm with
    | none => exact hj
    | some m =>
      simp only
      rcases eq_or_ne x m.ref with he | he
      · rw [he, Function.update_self]; rw [he] at hj; exact hj
      · rw [Function.update_of_ne he]; exact hj
  | setTM i m =>
    simp only [World.step]
    split
    · exact hj
    · rcases eq_or_ne x m.ref with he | he
      · simp only [he, Function.update_self]; rw [he] at hj; exact hj
      · simp only [Function.update_of_ne he]; exact hj
  | fit i fo eo =>
    refine fit_inv (I := fun h => (h x).toff = 0) ?_ hj
    intro o m _ hm back pr h p t hh
    have := stepH_main (tab := tab) (ext := ext) (view := w.view o pr) (back := back) (x := x) m h p t (hx i m (hf.tm i m hm))
    simp only [TAttr.main, Prod.mk.injEq] at this
    rw [this.2.2]; exact hh

/-- an object that was never used has no kernel -/
theorem run_cache (oms : ℕ → OMObj K D gs) (ops : List (WOp K D)) {x : ℕ} (hx : ∀ j m, .setTM j m ∈ ops → x ∉ objects m) : (((World.init oms).run tab ext ops).heap x).cache = none := by
  refine (run_inv (J := fun w : World K D gs => (w.heap x).cache = none) ?_ ops (World.init oms) (fun _ h => h) (init_from oms ops) rfl).2
  intro w op hop hf hj
  cases op with
  | load i data ts => exact hj
  | setOM i o =>
    simp only [World.step]
    cases hm : (w.studies i).tm with
    | none => exact hj
    | some m =>
      have hne : x ≠ m.ref := fun he => hx i m (hf.tm i m hm) (by simp [objects, he])
      simp only
      rw [Function.update_of_ne hne]; exact hj
  | setTM i m =>
    simp only [World.step]
    split
    · exact hj
    · have hne : x ≠ m.ref := fun he => hx i m hop (by simp [objects, he])
      simp only [Function.update_of_ne hne]; exact hj
  | fit i fo eo =>
    refine fit_inv (I := fun h => (h x).cache = none) ?_ hj
    intro o m _ hm back pr h p t hh
    rw [stepH_frame m h p t (hx i m (hf.tm i m hm))]; exact hh

theorem makeKernel_zero {E : Env K gs} (h : E.lattice = fun _ => 0) (km : KernelModel) (vals : List (HVal K)) (k : Kernel K d) : makeKernel E km vals ≠ .ok k := by
  cases km with
  | alphaStable target =>
    simp only [makeKernel, bind, Except.bind, h]
    cases scalarAt vals 0 with
    | error e => simp
    | ok c =>
      cases scalarAt vals 1 with
      | error e => simp
      | ok al =>
        cases E.axis target with
        | error e => simp
        | ok a => simp only; split <;> simp; split <;> simp
  | bivariate =>
    simp only [makeKernel, bind, Except.bind, h]
    cases numberAt vals 0 with
    | error e => simp
    | ok c =>
      cases numberAt vals 1 with
      | error e => simp
      | ok al =>
        cases numberAt vals 2 with
        | error e => simp
        | ok a => simp only; split <;> simp

/-- the lattice constants known to transition models are those of the grid `E`, or not yet set -/
structure OneGrid (tab : ℕ → LeafObj K) (E : Env K gs) (h : THeap K d) : Prop where
  lattice : ∀ x l, (h x).lattice = some l → l = E.lattice ∨ l = fun _ => 0
  fresh : FreshH tab E (fun _ => True) h

theorem OneGrid.pass {E : Env K gs} {h : THeap K d} (hh : OneGrid tab E h) (r m : ℕ) (toff : K) : OneGrid tab E (h.pass r m toff) := by
  refine ⟨?_, hh.fresh.of_cache fun x _ => pass_cache ..⟩
  intro x l hl
  rcases eq_or_ne x m with he | he
  · have := pass_main h r m toff
    simp only [TAttr.main, Prod.mk.injEq] at this
    rw [he, this.2.1] at hl
    exact hh.lattice r l hl
  · rw [pass_frame he] at hl; exact hh.lattice x l hl

theorem OneGrid.leaf {E : Env K gs} {view : ℕ → View K gs} {back : Bool} (hv : ∀ s, (view s).ok = true → (view s).names = E.names) {h : THeap K d} (hh : OneGrid tab E h) (r : ℕ) (p : Arr K gs) (t : K) :
    OneGrid tab E (leafH tab E.ext view back h r p t).1 := by
  refine ⟨?_, ?_⟩
  · intro x l hl
    have := leafH_main (tab := tab) (ext := E.ext) (view := view) (back := back) (h := h) (r := r) (p := p) (t := t) (x := x)
    simp only [TAttr.main, Prod.mk.injEq] at this
    rw [this.2.1] at hl
    exact hh.lattice x l hl
  · unfold leafH
    cases henv : h.env E.ext view r with
    | error e => exact hh.fresh
    | ok E' =>
      simp only
      cases hk : kernelKind (tab r).kind with
      | none =>
        simp only
        split
        · exact hh.fresh
        · split
          · split <;> exact hh.fresh
          · exact hh.fresh
      | some km =>
        simp only
        have hnew : ∀ k, (if (needsOM (tab r).kind && !h.hasOM view r) = true then .error .attributeError else makeKernel E' km (tab r).values) = .ok k →
            makeKernel E km (tab r).values = .ok k := by
          intro k hkk
          split at hkk
          · cases hkk
          · rename_i hno
            unfold THeap.env at henv
            cases hs : (h r).study with
            | none => rw [hs] at henv; cases henv
            | some s =>
              cases hl : (h r).lattice with
              | none => rw [hs, hl] at henv; cases henv
              | some l =>
                rw [hs, hl] at henv
                simp only [Except.ok.injEq] at henv
                subst henv
                rcases hh.lattice r l hl with rfl | rfl
                · cases hkind : (tab r).kind with
                  | alphaStable target =>
                    rw [hkind] at hno hk
                    simp only [kernelKind, Option.some.injEq] at hk
                    subst hk
                    have hok : (view s).ok = true := by
                      unfold THeap.hasOM at hno; rw [hs] at hno; simpa [needsOM] using hno
                    rw [← hkk]
                    simp only [hv s hok]
                    rfl
                  | bivariate =>
                    rw [hkind] at hk
                    simp only [kernelKind, Option.some.injEq] at hk
                    subst hk
                    exact hkk
                  | _ => rw [hkind] at hk; simp [kernelKind] at hk
                · exact absurd hkk (makeKernel_zero rfl _ _ _)
        revert hnew
        generalize (if (needsOM (tab r).kind && !h.hasOM view r) = true then Except.error PyErr.attributeError else makeKernel E' km (tab r).values) = new
        intro hnew
        have put : ∀ k, new = .ok k → FreshH tab E (fun _ => True) (Function.update h r { h r with cache := some ((tab r).values, k) }) := by
          intro k hkk x hx km' hkm k' hc
          rcases eq_or_ne x r with rfl | hxr
          · rw [Function.update_self] at hc
            simp only [Option.some.injEq, Prod.mk.injEq, true_and] at hc
            subst hc
            rw [hk] at hkm
            cases hkm
            exact hnew k hkk
          · rw [Function.update_of_ne hxr] at hc
            exact hh.fresh x hx km' hkm k' hc
        unfold kernelH
        cases (h r).cache with
        | none => cases new with
          | error e => exact hh.fresh
          | ok k => exact put k rfl
        | some c =>
          obtain ⟨v, k⟩ := c
          simp only
          split
          · exact hh.fresh
          · cases new with
            | error e => exact hh.fresh
            | ok k => exact put k rfl

/-- in a session with one grid all kernels belong to this grid -/
theorem run_oneGrid (oms : ℕ → OMObj K D gs) (ops : List (WOp K D)) (E : Env K gs) (hE : E.ext = ext)
    (hx : ∀ j o, .setOM j o ∈ ops → (oms o).names = E.names ∧ (oms o).lattice = E.lattice) : OneGrid tab E (((World.init oms).run tab ext ops).heap) := by
  subst hE
  refine (run_inv (J := fun w : World K D gs => OneGrid tab E w.heap ∧ (∀ j, (w.studies j).lattice = E.lattice ∨ (w.studies j).lattice = fun _ => 0) ∧
    ∀ o, (w.oms o).names = (oms o).names ∧ (w.oms o).lattice = (oms o).lattice) ?_ ops (World.init oms) (fun _ h => h) (init_from oms ops) ?_).2.1
  · intro w op hop hf hj
    obtain ⟨hj, hlat, hom⟩ := hj
    cases op with
    | load i data ts =>
      refine ⟨hj, ?_, hom⟩
      intro j
      rcases eq_or_ne j i with rfl | hne
      · simp only [World.step, Function.update_self]; exact hlat j
      · simp only [World.step, Function.update_of_ne hne]; exact hlat j
    | setOM i o =>
      refine ⟨?_, ?_, hom⟩
      · simp only [World.step]
        cases hm : (w.studies i).tm with
        | none => exact hj
        | some m =>
          simp only
          refine ⟨?_, ?_⟩
          · intro x l hl
            rcases eq_or_ne x m.ref with he | he
            · rw [he, Function.update_self] at hl
              simp only [Option.some.injEq] at hl
              left
              rw [← hl, (hom o).2, (hx i o hop).2]
            · rw [Function.update_of_ne he] at hl; exact hj.lattice x l hl
          · refine hj.fresh.of_cache fun x _ => ?_
            rcases eq_or_ne x m.ref with he | he
            · rw [he, Function.update_self]
            · rw [Function.update_of_ne he]
      · intro j
        rcases eq_or_ne j i with rfl | hne
        · simp only [World.step, Function.update_self]; left; rw [(hom o).2, (hx j o hop).2]
        · simp only [World.step, Function.update_of_ne hne]; exact hlat j
    | setTM i m =>
      simp only [World.step]
      split
      · exact ⟨hj, hlat, hom⟩
      · refine ⟨⟨?_, ?_⟩, ?_, hom⟩
        · intro x l hl
          rcases eq_or_ne x m.ref with he | he
          · simp only [he, Function.update_self, Option.some.injEq] at hl
            rw [← hl]; exact hlat i
          · simp only [Function.update_of_ne he] at hl; exact hj.lattice x l hl
        · refine hj.fresh.of_cache fun x _ => ?_
          rcases eq_or_ne x m.ref with he | he
          · simp only [he, Function.update_self]
          · simp only [Function.update_of_ne he]
        · intro j
          rcases eq_or_ne j i with rfl | hne
          · simp only [Function.update_self]; exact hlat j
          · simp only [Function.update_of_ne hne]; exact hlat j
    | fit i fo eo =>
      refine ⟨?_, ?_, ?_⟩
      · refine fit_inv (I := OneGrid tab E) ?_ hj
        intro o m _ hm back pr h p t hh
        refine stepH_inv (fun h r m toff hh => hh.pass r m toff) (fun h r p t hh => hh.leaf ?_ r p t) m h p t hh
        intro s hs
        simp only [World.view] at hs ⊢
        cases ho : (w.studies s).om with
        | none => rw [ho] at hs; simp at hs
        | some o' => simp only; rw [(hom o').1, (hx s o' (hf.om s o' ho)).1]
      · intro j
        simp only [World.step]
        rw [(fit_studies w i fo eo j).2.2.1]; exact hlat j
      · intro o
        simp only [World.step, World.fit]
        split
        · rename_i o' m _ _
          split
          · exact hom o
          · split
            · exact hom o
            · split
              · exact hom o
              · rcases eq_or_ne o o' with rfl | hne
                · simp only [Function.update_self]; exact hom o
                · simp only [Function.update_of_ne hne]; exact hom o
        · exact hom o
  · refine ⟨⟨?_, ?_⟩, fun j => Or.inr rfl, fun o => ⟨rfl, rfl⟩⟩
    · intro x l hl; simp [World.init, TAttr.new] at hl
    · intro x _ km _ k hk; simp [World.init, TAttr.new] at hk

/-- a fit with an object whose attributes are right is the fit of Model/Fit.lean -/
theorem fit_pure {w : World K D gs} {i o : ℕ} {m : OTM K} {fo eo : Bool} (ho : (w.studies i).om = some o) (hm : (w.studies i).tm = some m) (hp : Acyclic m) (hd : (w.studies i).data ≠ [])
    (hdup : duplicates (m.value tab).flatNames = []) (hattr : (w.heap m.ref).main = (some i, some (w.studies i).lattice, 0))
    (hf : FreshH tab (⟨(w.oms o).names, (w.studies i).lattice, .none, ext⟩ : Env K gs) (fun x => x ∈ objects m ∧ HasKernel tab x) w.heap) :
    ∃ h, w.fit tab ext i fo eo =
      match BL.fit ⟨(w.oms o).names, (w.studies i).lattice, .none, ext⟩ (w.studies i).grid (m.value tab) ((movingWindow (w.studies i).data (w.oms o).seg).map (w.oms o).pdf)
        (timestampsOf (w.studies i).ts (w.oms o).seg) fo eo ⟨(w.oms o).prior, (w.studies i).posts, (w.studies i).means, (w.studies i).logEv, (w.studies i).locals⟩ with
      | .error e => ({ w with heap := h }, some e)
      | .ok R =>
        ({ studies := Function.update w.studies i { w.studies i with posts := R.posts, means := R.means, logEv := R.logEv, locals := R.locals }
           oms := Function.update w.oms o { w.oms o with prior := R.prior }
           heap := h }, none) := by
  have hd' : ¬ (w.studies i).data.length = 0 := fun h => hd (List.length_eq_zero_iff.1 h)
  have hdup' : ¬ (duplicates (m.value tab).flatNames).length > 0 := by rw [hdup]; simp
  have hview : ∀ pr, w.view o pr i = ⟨true, (w.oms o).names, (w.studies i).lattice, pr⟩ := by
    intro pr; simp only [World.view]; rw [ho]; simp
  have hstep : ∀ (back : Bool) (h : THeap K d) (pr : PriorSpec K gs) (p : Arr K gs) (t : K),
      ((h m.ref).main = (some i, some (w.studies i).lattice, 0) ∧ FreshH tab (⟨(w.oms o).names, (w.studies i).lattice, .none, ext⟩ : Env K gs) (fun x => x ∈ objects m ∧ HasKernel tab x) h) →
      (m.stepH tab ext (w.view o pr) back h p t).2 = pureStep ⟨(w.oms o).names, (w.studies i).lattice, pr, ext⟩ back 0 (m.value tab) p t ∧
      ((m.stepH tab ext (w.view o pr) back h p t).1 m.ref).main = (some i, some (w.studies i).lattice, 0) ∧
      FreshH tab (⟨(w.oms o).names, (w.studies i).lattice, .none, ext⟩ : Env K gs) (fun x => x ∈ objects m ∧ HasKernel tab x) (m.stepH tab ext (w.view o pr) back h p t).1 := by
    intro back h pr p t ⟨h1, h2⟩
    obtain ⟨k1, k2⟩ := stepH_pure (E := ⟨(w.oms o).names, (w.studies i).lattice, pr, ext⟩) (tab := tab) (back := back) (hview pr) (A := fun x => x ∈ objects m ∧ HasKernel tab x) m h 0 p t hp
      (fun x hx hk => ⟨hx, hk⟩) h2 h1
    refine ⟨k1, ?_, k2⟩
    have hr : m.ref ∉ parts m := by
      cases m with
      | leaf r => simp [parts]
      | combined r ms => simp only [Acyclic] at hp; simpa [parts, OTM.ref] using hp.1
      | serial r _ _ _ _ ms => simp only [Acyclic] at hp; simpa [parts, OTM.ref] using hp.1
    rw [stepH_main m h p t hr]; exact h1
  have hrel := fitS_rel (E := ⟨(w.oms o).names, (w.studies i).lattice, .none, ext⟩) (grid := (w.studies i).grid) (ra := (m.value tab).returnsArg)
    (R := fun (h : THeap K d) (_ : Unit) => (h m.ref).main = (some i, some (w.studies i).lattice, 0) ∧
      FreshH tab (⟨(w.oms o).names, (w.studies i).lattice, .none, ext⟩ : Env K gs) (fun x => x ∈ objects m ∧ HasKernel tab x) h)
    (f := fun h pr => m.stepH tab ext (w.view o pr) false h) (fb := fun h pr => m.stepH tab ext (w.view o pr) true h)
    (g := pureF ⟨(w.oms o).names, (w.studies i).lattice, .none, ext⟩ (m.value tab)) (gb := pureB ⟨(w.oms o).names, (w.studies i).lattice, .none, ext⟩ (m.value tab))
    (fun s s' pr p t hs => ⟨(hstep false s pr p t hs).1, (hstep false s pr p t hs).2⟩) (fun s s' pr p t hs => ⟨(hstep true s pr p t hs).1, (hstep true s pr p t hs).2⟩)
    ((movingWindow (w.studies i).data (w.oms o).seg).map (w.oms o).pdf) (timestampsOf (w.studies i).ts (w.oms o).seg) fo eo
    ⟨(w.oms o).prior, (w.studies i).posts, (w.studies i).means, (w.studies i).logEv, (w.studies i).locals⟩ w.heap () ⟨hattr, hf⟩
  have h1 := hrel.1
  rw [fitS_pure] at h1
  refine ⟨(fitS ⟨(w.oms o).names, (w.studies i).lattice, .none, ext⟩ (w.studies i).grid (m.value tab).returnsArg
      (fun h pr => m.stepH tab ext (w.view o pr) false h) (fun h pr => m.stepH tab ext (w.view o pr) true h)
      ((movingWindow (w.studies i).data (w.oms o).seg).map (w.oms o).pdf) (timestampsOf (w.studies i).ts (w.oms o).seg) fo eo
      ⟨(w.oms o).prior, (w.studies i).posts, (w.studies i).means, (w.studies i).logEv, (w.studies i).locals⟩ w.heap).1, ?_⟩
  rw [← h1]
  simp only [World.fit]
  rw [ho, hm]
  simp only [hd', hdup', if_false]
  generalize fitS ⟨(w.oms o).names, (w.studies i).lattice, .none, ext⟩ (w.studies i).grid (m.value tab).returnsArg
      (fun h pr => m.stepH tab ext (w.view o pr) false h) (fun h pr => m.stepH tab ext (w.view o pr) true h)
      ((movingWindow (w.studies i).data (w.oms o).seg).map (w.oms o).pdf) (timestampsOf (w.studies i).ts (w.oms o).seg) fo eo
      ⟨(w.oms o).prior, (w.studies i).posts, (w.studies i).means, (w.studies i).logEv, (w.studies i).locals⟩ w.heap = u
  obtain ⟨u1, u2⟩ := u
  cases u2 <;> rfl

end BL
