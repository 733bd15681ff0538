import Verif.Lemmas.Files
import Verif.Props.C89

/-! # C97: saved and loaded studies -/

set_option linter.unusedSectionVars false

namespace Spec
open BL
variable {K D : Type} [Field K] [LinearOrder K] {d : ℕ} {gs : Fin d → ℕ}

/-- different objects get different identities -/
def Distinct (φ : Ren) : Prop := Function.Injective φ.s ∧ Function.Injective φ.o ∧ Function.Injective φ.t

/-- the call does not concern any of the objects `φ x` -/
def NotOf (φ : Ren) : WOp K D → Prop
  | .load i _ _ => i ∉ Set.range φ.s
  | .setOM i o => i ∉ Set.range φ.s ∧ o ∉ Set.range φ.o
  | .setTM i m => i ∉ Set.range φ.s ∧ ∀ r ∈ objects m, r ∉ Set.range φ.t
  | .fit i _ _ => i ∉ Set.range φ.s

/-- A call that can be made on the studies in the file made from study `i` of the session `w` (usually on study `i` itself): models passed are objects in the file, new transition models, or
observation models that are equal (`same`) in both sessions. -/
def Continues (w : World K D gs) (same : ℕ → Prop) (i : ℕ) : WOp K D → Prop
  | .load j _ _ => Reaches w i (.study j)
  | .setOM j o => Reaches w i (.study j) ∧ (Reaches w i (.om o) ∨ same o)
  | .setTM j m => Reaches w i (.study j) ∧ ∀ r ∈ objects m, Reaches w i (.tm r) ∨ w.heap r = .new
  | .fit j _ _ => Reaches w i (.study j)

/-- Calls after loading: `inl op` is the call `op` made on the loaded objects, `inr op` a call on other objects. -/
def afterLoad (φ : Ren) : WOp K D ⊕ WOp K D → WOp K D
  | .inl op => op.rename φ
  | .inr op => op

/-- the calls on loaded objects, in terms of the objects before saving -/
def onLoaded (ops : List (WOp K D ⊕ WOp K D)) : List (WOp K D) := ops.filterMap Sum.getLeft?
/-- the calls on other objects -/
def onOthers (ops : List (WOp K D ⊕ WOp K D)) : List (WOp K D) := ops.filterMap Sum.getRight?

end Spec

namespace BL
open Spec
variable {K D : Type} [Field K] [LinearOrder K] [IsStrictOrderedRing K] {d : ℕ} {gs : Fin d → ℕ} {tab : ℕ → LeafObj K} {ext : Ext K gs}

theorem placed_new {α : Type} {file : ℕ → Option α} {f : ℕ → ℕ} (hf : Function.Injective f) (conv : α → α) (old : ℕ → α) {i : ℕ} {a : α} (h : file i = some a) : placed file f conv old (f i) = conv a := by
  unfold placed
  have hex : ∃ a j, file j = some a ∧ f j = f i := ⟨a, i, h, rfl⟩
  rw [dif_pos hex]
  obtain ⟨j, h1, h2⟩ := hex.choose_spec
  rw [hf h2, h] at h1
  rw [← Option.some.inj h1]

theorem placed_old {α : Type} {file : ℕ → Option α} {f : ℕ → ℕ} (conv : α → α) (old : ℕ → α) {j : ℕ} (h : ∀ i, f i = j → file i = none) : placed file f conv old j = old j := by
  unfold placed
  refine dif_neg ?_
  rintro ⟨a, i, h1, h2⟩
  rw [h i h2] at h1
  cases h1

/-- the objects that calls on loaded studies may concern -/
def usable (w : World K D gs) (same : ℕ → Prop) (i : ℕ) : Part :=
  ⟨fun j => Reaches w i (.study j), fun o => Reaches w i (.om o) ∨ same o, fun r => Reaches w i (.tm r) ∨ w.heap r = .new⟩

theorem usable_closed (w : World K D gs) (same : ℕ → Prop) (i : ℕ) : ClosedW (usable w same i) w where
  om := fun j o hj ho => Or.inl (hj.tail (.om ho))
  tm := fun j m hj hm r hr => Or.inl (hj.tail (.tm hm hr))
  study := fun r j hr hs => by
    rcases hr with hr | hr
    · exact hr.tail (.study hs)
    · rw [hr] at hs; cases hs

/-- the new identities of the objects of a part -/
def Part.image (A : Part) (φ : Ren) : Part := ⟨fun x => ∃ i, A.s i ∧ φ.s i = x, fun x => ∃ i, A.o i ∧ φ.o i = x, fun x => ∃ i, A.t i ∧ φ.t i = x⟩

/-- identities that are not used for new objects -/
def Part.others (φ : Ren) : Part := ⟨fun x => x ∉ Set.range φ.s, fun x => x ∉ Set.range φ.o, fun x => x ∉ Set.range φ.t⟩

theorem within_mono {A B : Part} (hs : ∀ x, A.s x → B.s x) (ho : ∀ x, A.o x → B.o x) (ht : ∀ x, A.t x → B.t x) {op : WOp K D} (h : op.Within A) : op.Within B := by
  cases op with
  | load i data ts => exact hs _ h
  | setOM i o => exact ⟨hs _ h.1, ho _ h.2⟩
  | setTM i m => exact ⟨hs _ h.1, fun r hr => ht _ (h.2 r hr)⟩
  | fit i fo eo => exact hs _ h

theorem within_rename {A : Part} (φ : Ren) {op : WOp K D} (h : op.Within A) : (op.rename φ).Within (A.image φ) := by
  cases op with
  | load i data ts => exact ⟨i, h, rfl⟩
  | setOM i o => exact ⟨⟨i, h.1, rfl⟩, ⟨o, h.2, rfl⟩⟩
  | setTM i m =>
    refine ⟨⟨i, h.1, rfl⟩, fun r hr => ?_⟩
    rw [rename_objects, List.mem_map] at hr
    obtain ⟨x, hx, rfl⟩ := hr
    exact ⟨x, h.2 x hx, rfl⟩
  | fit i fo eo => exact ⟨i, h, rfl⟩

theorem CopyW.image_closed {φ : Ren} {A : Part} {w w' : World K D gs} (h : CopyW φ A w w') : ClosedW (A.image φ) w' := by
  constructor
  · rintro _ o ⟨i, hi, rfl⟩ ho
    rw [h.studies i hi] at ho
    simp only [StudyObj.rename, Option.map_eq_some_iff] at ho
    obtain ⟨o', h1, rfl⟩ := ho
    exact ⟨o', h.closed.om i o' hi h1, rfl⟩
  · rintro _ m ⟨i, hi, rfl⟩ hm r hr
    rw [h.studies i hi] at hm
    simp only [StudyObj.rename, Option.map_eq_some_iff] at hm
    obtain ⟨m', h1, rfl⟩ := hm
    rw [rename_objects, List.mem_map] at hr
    obtain ⟨x, hx, rfl⟩ := hr
    exact ⟨x, h.closed.tm i m' hi h1 x hx, rfl⟩
  · rintro _ j ⟨r, hr, rfl⟩ hs
    rw [h.heap r hr] at hs
    simp only [TAttr.rename, Option.map_eq_some_iff] at hs
    obtain ⟨i, h1, rfl⟩ := hs
    exact ⟨i, h.closed.study r i hr h1, rfl⟩

/-- in a session without calls on the objects `φ x` these are new, and nothing refers to them -/
theorem others_session (φ : Ren) (oms : ℕ → OMObj K D gs) : ∀ ops : List (WOp K D), (∀ op ∈ ops, NotOf φ op) → ∀ w : World K D gs, ClosedW (Part.others φ) w → (∀ j, w.studies (φ.s j) = .new) →
    (∀ r, w.heap (φ.t r) = .new) → (∀ o, w.oms (φ.o o) = oms (φ.o o)) → ClosedW (Part.others φ) (w.run tab ext ops) ∧ (∀ j, (w.run tab ext ops).studies (φ.s j) = .new) ∧
    (∀ r, (w.run tab ext ops).heap (φ.t r) = .new) ∧ (∀ o, (w.run tab ext ops).oms (φ.o o) = oms (φ.o o))
  | [], _, w, h1, h2, h3, h4 => ⟨h1, h2, h3, h4⟩
  | op :: ops, hops, w, h1, h2, h3, h4 => by
      have hop : op.Within (Part.others φ) := by
        have := hops op List.mem_cons_self
        cases op <;> exact this
      obtain ⟨e1, e2, e3⟩ := step_frame (tab := tab) (ext := ext) h1 hop
      exact others_session φ oms ops (fun o ho => hops o (List.mem_cons_of_mem _ ho)) _ (h1.step hop) (fun j => (e1 _ (not_not.2 ⟨j, rfl⟩)).trans (h2 j))
        (fun r => (e3 _ (not_not.2 ⟨r, rfl⟩)).trans (h3 r)) (fun o => (e2 _ (not_not.2 ⟨o, rfl⟩)).trans (h4 o))

theorem rename_study (φ : Ren) (op : WOp K D) : (op.rename φ).study = φ.s op.study := by cases op <;> rfl

theorem within_study {A : Part} {op : WOp K D} (h : op.Within A) : A.s op.study := by
  cases op with
  | load i data ts => exact h
  | setOM i o => exact h.1
  | setTM i m => exact h.1
  | fit i fo eo => exact h

open Classical in
/-- two independent parts of a session: the copies of the objects `A` of a session, and all others -/
theorem two_parts {φ : Ren} (hφ : φ.Inj) {A : Part} (ht : ∀ r, A.t r → tab (φ.t r) = tab r) : ∀ (ops : List (WOp K D ⊕ WOp K D)), (∀ op, .inl op ∈ ops → op.Within A) →
    (∀ op, .inr op ∈ ops → op.Within (Part.others φ)) → ∀ (w0 w1 w2 : World K D gs), CopyW φ A w0 w2 → CopyW ⟨id, id, id⟩ (A.image φ).compl w1 w2 → ClosedW (A.image φ).compl w2 →
    (w2.trace tab ext (ops.map (afterLoad φ))).filter (fun e => e.1 ∈ Set.range φ.s) = (w0.trace tab ext (onLoaded ops)).map (fun e => (φ.s e.1, e.2)) ∧
    (w2.trace tab ext (ops.map (afterLoad φ))).filter (fun e => e.1 ∉ Set.range φ.s) = w1.trace tab ext (onOthers ops)
  | [], _, _, _, _, _, _, _, _ => ⟨rfl, rfl⟩
  | .inl op :: ops, hl, hr, w0, w1, w2, h0, h1, hc => by
      have hop := hl op List.mem_cons_self
      obtain ⟨e1, e2⟩ := h0.step (tab := tab) (ext := ext) hφ ht hop
      have hopB := within_rename φ hop
      have hB := h0.image_closed
      have hopC : (op.rename φ).Within ((A.image φ).compl).compl := within_mono (fun x hx => not_not.2 hx) (fun x hx => not_not.2 hx) (fun x hx => not_not.2 hx) hopB
      have hBC : ClosedW ((A.image φ).compl).compl w2 :=
        ⟨fun i o hi ho => not_not.2 (hB.om i o (not_not.1 hi) ho), fun i m hi hm r hr => not_not.2 (hB.tm i m (not_not.1 hi) hm r hr), fun r i hr hs => not_not.2 (hB.study r i (not_not.1 hr) hs)⟩
      obtain ⟨i1, i2⟩ := two_parts hφ ht ops (fun o ho => hl o (List.mem_cons_of_mem _ ho)) (fun o ho => hr o (List.mem_cons_of_mem _ ho)) _ _ _ e1
        (h1.frame (B := (A.image φ).compl) (fun _ h => h) (fun _ h => h) (fun _ h => h) hBC hopC) (hc.other hBC hopC)
      have hs : (op.rename φ).study ∈ Set.range φ.s := by rw [rename_study]; exact ⟨_, rfl⟩
      simp only [List.map_cons, afterLoad, World.trace, onLoaded, onOthers, List.filterMap_cons, Sum.getLeft?_inl, Sum.getRight?_inl]
      constructor
      · rw [List.filter_cons_of_pos (by simpa using hs), i1]
        congr 1
        rw [e2, rename_study, e1.seen (within_study hop)]
      · rw [List.filter_cons_of_neg (by simpa using hs), i2]
        rfl
  | .inr op :: ops, hl, hr, w0, w1, w2, h0, h1, hc => by
      have hop := hr op List.mem_cons_self
      have hopC : op.Within (A.image φ).compl := by
        refine within_mono ?_ ?_ ?_ hop
        · rintro x hx ⟨i, -, hi⟩; exact hx ⟨i, hi⟩
        · rintro x hx ⟨i, -, hi⟩; exact hx ⟨i, hi⟩
        · rintro x hx ⟨i, -, hi⟩; exact hx ⟨i, hi⟩
      obtain ⟨e1, e2⟩ := h1.step (tab := tab) (ext := ext) ⟨fun _ _ h => h, fun _ _ h => h, fun _ _ h => h⟩ (fun _ _ => rfl) hopC
      have hid : op.rename ⟨id, id, id⟩ = op := by cases op <;> simp [WOp.rename, rename_id]
      rw [hid] at e1 e2
      obtain ⟨i1, i2⟩ := two_parts hφ ht ops (fun o ho => hl o (List.mem_cons_of_mem _ ho)) (fun o ho => hr o (List.mem_cons_of_mem _ ho)) _ _ _
        (h0.frame (B := A.image φ) (fun i h => ⟨i, h, rfl⟩) (fun i h => ⟨i, h, rfl⟩) (fun i h => ⟨i, h, rfl⟩) hc hopC) e1 (hc.step hopC)
      have hs : op.study ∉ Set.range φ.s := within_study hop
      simp only [List.map_cons, afterLoad, World.trace, onLoaded, onOthers, List.filterMap_cons, Sum.getLeft?_inr, Sum.getRight?_inr]
      constructor
      · rw [List.filter_cons_of_neg (by simpa using hs), i1]
        rfl
      · rw [List.filter_cons_of_pos (by simpa using hs), i2]
        congr 1
        rw [e2]
        have := e1.seen (i := op.study) (within_study hopC) (w1.step tab ext op).2
        simp only [id] at this
        rw [this]

end BL

namespace Props
open BL Spec
variable {K D : Type} [Field K] [LinearOrder K] [IsStrictOrderedRing K] {d : ℕ} {gs : Fin d → ℕ}

/-- the world after loading agrees with the file and with the former world -/
theorem load_copies (tab : ℕ → LeafObj K) (ext : Ext K gs) (φ : Ren) (hφ : φ.Inj) (w0 : World K D gs) (i : ℕ) (oms1 : ℕ → OMObj K D gs) (ops1 : List (WOp K D)) (h1 : ∀ op ∈ ops1, NotOf φ op) :
    let A := usable w0 (fun o => oms1 (φ.o o) = w0.oms o) i
    let w1 := (World.init oms1).run tab ext ops1
    let w2 := w1.loadFile (w0.save i) φ
    CopyW φ A w0 w2 ∧ CopyW ⟨id, id, id⟩ (A.image φ).compl w1 w2 ∧ ClosedW (A.image φ).compl w2 := by
  intro A w1 w2
  obtain ⟨c1, c2, c3, c4⟩ := others_session (tab := tab) (ext := ext) φ oms1 ops1 h1 (World.init oms1)
    ⟨fun i o _ h => by simp [World.init, StudyObj.new] at h, fun i m _ h => by simp [World.init, StudyObj.new] at h, fun r i _ h => by simp [World.init, TAttr.new] at h⟩ (fun _ => rfl) (fun _ => rfl) (fun _ => rfl)
  have hold_s : ∀ x, ¬ (A.image φ).s x → w2.studies x = w1.studies x := by
    intro x hx
    refine placed_old _ _ fun j hj => ?_
    simp only [World.save]
    exact if_neg fun hr => hx ⟨j, hr, hj⟩
  have hold_o : ∀ x, ¬ (A.image φ).o x → w2.oms x = w1.oms x := by
    intro x hx
    refine placed_old _ _ fun j hj => ?_
    simp only [World.save]
    exact if_neg fun hr => hx ⟨j, Or.inl hr, hj⟩
  have hold_t : ∀ x, ¬ (A.image φ).t x → w2.heap x = w1.heap x := by
    intro x hx
    refine placed_old _ _ fun j hj => ?_
    simp only [World.save]
    exact if_neg fun hr => hx ⟨j, Or.inl hr, hj⟩
  have hcl : ClosedW (A.image φ).compl w1 := by
    have hs : ∀ x, (Part.others φ).s x → ¬ (A.image φ).s x := by rintro x hx ⟨i, -, hi⟩; exact hx ⟨i, hi⟩
    have ho : ∀ x, (Part.others φ).o x → ¬ (A.image φ).o x := by rintro x hx ⟨i, -, hi⟩; exact hx ⟨i, hi⟩
    have ht : ∀ x, (Part.others φ).t x → ¬ (A.image φ).t x := by rintro x hx ⟨i, -, hi⟩; exact hx ⟨i, hi⟩
    have hnew : ∀ x, (Part.others φ).s x ∨ w1.studies x = .new := by
      intro x
      by_cases hx : x ∈ Set.range φ.s
      · obtain ⟨j, rfl⟩ := hx; exact Or.inr (c2 j)
      · exact Or.inl hx
    have hnewt : ∀ x, (Part.others φ).t x ∨ w1.heap x = .new := by
      intro x
      by_cases hx : x ∈ Set.range φ.t
      · obtain ⟨j, rfl⟩ := hx; exact Or.inr (c3 j)
      · exact Or.inl hx
    refine ⟨fun x o _ h => ?_, fun x m _ h r hr => ?_, fun r x _ h => ?_⟩
    · rcases hnew x with hx | hx
      · exact ho _ (c1.om x o hx h)
      · rw [hx] at h; simp [StudyObj.new] at h
    · rcases hnew x with hx | hx
      · exact ht _ (c1.tm x m hx h r hr)
      · rw [hx] at h; simp [StudyObj.new] at h
    · rcases hnewt r with hx | hx
      · exact hs _ (c1.study r x hx h)
      · rw [hx] at h; simp [TAttr.new] at h
  have hcl2 : ClosedW (A.image φ).compl w2 := by
    refine ⟨fun x o hx h => ?_, fun x m hx h => ?_, fun r x hx h => ?_⟩
    · rw [hold_s x hx] at h; exact hcl.om x o hx h
    · rw [hold_s x hx] at h; exact hcl.tm x m hx h
    · rw [hold_t r hx] at h; exact hcl.study r x hx h
  refine ⟨⟨fun j hj => ?_, fun o ho => ?_, fun r hr => ?_, usable_closed _ _ _⟩, ⟨fun j hj => ?_, fun o ho => ?_, fun r hr => ?_, hcl⟩, hcl2⟩
  · exact placed_new hφ.s _ _ (by simp only [World.save]; exact if_pos hj)
  · by_cases hr : Reaches w0 i (.om o)
    · exact placed_new hφ.o _ _ (by simp only [World.save]; exact if_pos hr)
    · have : w2.oms (φ.o o) = w1.oms (φ.o o) := placed_old _ _ fun j hj => by
        rw [hφ.o hj]; simp only [World.save]; exact if_neg hr
      rw [this]
      exact (c4 o).trans (ho.resolve_left hr)
  · by_cases hr' : Reaches w0 i (.tm r)
    · exact placed_new hφ.t _ _ (by simp only [World.save]; exact if_pos hr')
    · have : w2.heap (φ.t r) = w1.heap (φ.t r) := placed_old _ _ fun j hj => by
        rw [hφ.t hj]; simp only [World.save]; exact if_neg hr'
      rw [this, hr.resolve_left hr']
      exact c3 r
  · simp only [id]
    rw [hold_s j hj]
    simp only [StudyObj.rename, Option.map_id_fun]
    cases w1.studies j with
    | mk data ts om grid lattice tm posts means logEv locals => cases tm <;> simp [rename_id]
  · exact hold_o o ho
  · simp only [id]
    rw [hold_t r hr]
    simp [TAttr.rename]

open Classical in
/-- **C97.** A study is saved after any session `ops0`, and loaded in the same or another Python process, after any other calls `ops1`; then calls on the loaded study (and the other studies in the file) and calls on other studies
follow in any order.  Then everything that is seen of the loaded study is what would have been seen if the calls had been made on the original study directly after it was saved; and everything seen of
other studies (e.g. the original study, when it is in the same process) is as if the file had not been loaded. -/
theorem C97 (tab : ℕ → LeafObj K) (ext : Ext K gs) (oms0 oms1 : ℕ → OMObj K D gs) (ops0 ops1 : List (WOp K D)) (i : ℕ) (φ : Ren) (hφ : Distinct φ) (htab : ∀ r, tab (φ.t r) = tab r)
    (h1 : ∀ op ∈ ops1, NotOf φ op) (ops : List (WOp K D ⊕ WOp K D)) :
    let w0 := (World.init oms0).run tab ext ops0
    let w1 := (World.init oms1).run tab ext ops1
    let w2 := w1.loadFile (w0.save i) φ
    (∀ op, .inl op ∈ ops → Continues w0 (fun o => oms1 (φ.o o) = w0.oms o) i op) → (∀ op, .inr op ∈ ops → NotOf φ op) →
    (w2.seen (φ.s i) none = w0.seen i none ∧
      (w2.trace tab ext (ops.map (afterLoad φ))).filter (fun e => e.1 ∈ Set.range φ.s) = (w0.trace tab ext (onLoaded ops)).map fun e => (φ.s e.1, e.2)) ∧
    ((∀ j, j ∉ Set.range φ.s → w2.seen j none = w1.seen j none) ∧
      (w2.trace tab ext (ops.map (afterLoad φ))).filter (fun e => e.1 ∉ Set.range φ.s) = w1.trace tab ext (onOthers ops)) := by
  intro w0 w1 w2 hl hr
  have hinj : φ.Inj := ⟨hφ.1, hφ.2.1, hφ.2.2⟩
  obtain ⟨c1, c2, c3⟩ := load_copies tab ext φ hinj w0 i oms1 ops1 h1
  obtain ⟨t1, t2⟩ := two_parts (tab := tab) (ext := ext) hinj (A := usable w0 (fun o => oms1 (φ.o o) = w0.oms o) i) (fun r _ => htab r) ops
    (fun op ho => by have := hl op ho; cases op <;> exact this) (fun op ho => by have := hr op ho; cases op <;> exact this) w0 w1 w2 c1 c2 c3
  refine ⟨⟨c1.seen (i := i) .refl none, t1⟩, ⟨fun j hj => ?_, t2⟩⟩
  exact c2.seen (i := j) (fun ⟨k, _, hk⟩ => hj ⟨k, hk⟩) none

/-- elementary models as in C89, the models 10, 11, … are made by loading -/
def _root_.Ex.tabF (r : ℕ) : LeafObj ℚ := Ex.tabW (r % 10)
/-- identities of loaded objects -/
def _root_.Ex.renF : Ren := ⟨(· + 10), (· + 10), (· + 10)⟩
/-- two studies with a common random walk -/
def _root_.Ex.opsF : List (WOp ℚ ℚ) := [.load 0 [2, 3] [0, 1], .setOM 0 0, .setTM 0 (.leaf 0), .setOM 1 1, .setTM 1 (.leaf 0), .fit 0 false false]

/-- The hypotheses are met: study 0 is saved and loaded in the same process, then the original study and the loaded study (number 10) are used with different data; the loaded study is given a new transition model. -/
example : Distinct Ex.renF ∧ (∀ r, Ex.tabF (Ex.renF.t r) = Ex.tabF r) ∧ (∀ op ∈ Ex.opsF, NotOf Ex.renF op) ∧
    ∀ op ∈ [WOp.load 0 [5, 1] [0, 1], .setTM 0 (.combined 7 [.leaf 0, .leaf 3]), .fit 0 false false],
      Continues ((World.init Ex.omW).run Ex.tabF Ex.extW Ex.opsF) (fun o => Ex.omW (Ex.renF.o o) = Ex.omW o) 0 op ∧ NotOf Ex.renF op := by
  have hr : Set.range (fun x : ℕ => x + 10) = {x | 10 ≤ x} := by
    ext x; exact ⟨by rintro ⟨y, rfl⟩; simp, fun h => ⟨x - 10, Nat.sub_add_cancel h⟩⟩
  refine ⟨⟨add_left_injective 10, add_left_injective 10, add_left_injective 10⟩, fun r => by simp [Ex.tabF, Ex.renF], ?_, ?_⟩
  · intro op hop
    simp only [Ex.opsF, List.mem_cons, List.not_mem_nil, or_false] at hop
    rcases hop with rfl | rfl | rfl | rfl | rfl | rfl <;> simp [NotOf, Ex.renF, hr, objects, parts, OTM.ref]
  · have h0 : Reaches ((World.init Ex.omW).run Ex.tabF Ex.extW Ex.opsF) 0 (.study 0) := .refl
    have ht : Reaches ((World.init Ex.omW).run Ex.tabF Ex.extW Ex.opsF) 0 (.tm 0) := h0.tail (.tm (m := .leaf 0) ((fit_studies _ 0 false false 0).1.trans rfl) (by simp [objects, OTM.ref]))
    intro op hop
    simp only [List.mem_cons, List.not_mem_nil, or_false] at hop
    rcases hop with rfl | rfl | rfl
    · exact ⟨h0, by simp [NotOf, Ex.renF, hr]⟩
    · refine ⟨⟨h0, ?_⟩, by simp [NotOf, Ex.renF, hr, objects, parts, partsL, OTM.ref]⟩
      intro r hr
      simp only [objects, parts, partsL, OTM.ref, List.mem_cons, List.mem_append, List.not_mem_nil, or_false, false_or, List.nil_append, List.append_nil] at hr
      have hnew : ∀ x, x ≠ 0 → ((World.init Ex.omW).run Ex.tabF Ex.extW Ex.opsF).heap x = .new := by
        intro x hx
        refine (fit_heap (i := 0) fun m hm => ?_).trans ?_
        · obtain rfl : OTM.leaf 0 = m := Option.some.inj hm
          simpa [objects, parts, OTM.ref] using hx
        · exact (Function.update_of_ne hx _ _).trans (Function.update_of_ne hx _ _)
      rcases hr with rfl | rfl | rfl
      · exact Or.inr (hnew 7 (by decide))
      · exact Or.inl ht
      · exact Or.inr (hnew 3 (by decide))
    · exact ⟨h0, by simp [NotOf, Ex.renF, hr]⟩

end Props
