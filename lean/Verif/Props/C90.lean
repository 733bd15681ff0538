import Verif.Props.C89

/-! # C90: transition-model objects can be used again -/

set_option linter.unusedSectionVars false

namespace Props
open BL Spec
variable {K D : Type} [Field K] [LinearOrder K] [IsStrictOrderedRing K] {d : ℕ} {gs : Fin d → ℕ}

/-- **C90 (partial).** Any session `ops` (any number of studies, models shared in any way), after which data, an observation model and a transition model are set in some study, and this study is fitted.  If the transition model itself was not a part of
a combined or serial model before, and the random walks with a kernel in it were not used before or all observation models of the session have the same parameter names and lattice constants, then the fit is the one that Model/Fit.lean
describes for the new model: same exception, or the same evidence, posteriors, means, local evidences and prior.  In particular all parts of the model may have been used anywhere before.  The full claim (any earlier use) is false (`C90_refuted`,
`C90_kernel_refuted`). -/
theorem C90_partial (tab : ℕ → LeafObj K) (ext : Ext K gs) (oms : ℕ → OMObj K D gs) (ops : List (WOp K D)) (i o : ℕ) (m : OTM K) (data : List D) (ts : List K) (fo eo : Bool)
    (hm : (tab m.ref).kind ≠ .breakPoint) (hp : Acyclic m) (hd : data ≠ []) (hdup : duplicates (m.value tab).flatNames = [])
    (hpart : ∀ j m', .setTM j m' ∈ ops → m.ref ∉ parts m')
    (hker : (∀ j m', .setTM j m' ∈ ops → ∀ x ∈ objects m, HasKernel tab x → x ∉ objects m') ∨
      ∀ j o', .setOM j o' ∈ ops → (oms o').names = (oms o).names ∧ (oms o').lattice = (oms o).lattice) :
    let w₀ := (World.init oms).run tab ext ops
    let r := (w₀.run tab ext [.load i data ts, .setOM i o, .setTM i m]).step tab ext (.fit i fo eo)
    match BL.fit ⟨(oms o).names, (oms o).lattice, .none, ext⟩ (oms o).grid (m.value tab) ((movingWindow data (oms o).seg).map (oms o).pdf) (timestampsOf ts (oms o).seg) fo eo
      ⟨(w₀.oms o).prior, (w₀.studies i).posts, (w₀.studies i).means, (w₀.studies i).logEv, (w₀.studies i).locals⟩ with
    | .error e => r.2 = some e
    | .ok R => r.1.seen i r.2 = ⟨none, R.posts, R.means, R.logEv, R.locals, some R.prior⟩ := by
  intro w₀ r
  have hnb : ∀ n v p, m.value tab ≠ .leaf .breakPoint n v p := by
    intro n v p h
    cases m with
    | leaf r => simp only [OTM.value, TM.leaf.injEq] at h; exact hm h.1
    | combined r ms => simp [OTM.value] at h
    | serial r _ _ _ _ ms => simp [OTM.value] at h
  -- names, grid, lattice, segment length and density of observation models do not change
  have hconst : ∀ o, (w₀.oms o).names = (oms o).names ∧ (w₀.oms o).lattice = (oms o).lattice ∧ (w₀.oms o).grid = (oms o).grid ∧ (w₀.oms o).seg = (oms o).seg ∧ (w₀.oms o).pdf = (oms o).pdf := by
    refine (run_inv (tab := tab) (ext := ext) (J := fun w : World K D gs => ∀ o, (w.oms o).names = (oms o).names ∧ (w.oms o).lattice = (oms o).lattice ∧ (w.oms o).grid = (oms o).grid ∧
      (w.oms o).seg = (oms o).seg ∧ (w.oms o).pdf = (oms o).pdf) ?_ ops (World.init oms) (fun _ h => h) (init_from oms ops) (fun o => ⟨rfl, rfl, rfl, rfl, rfl⟩)).2
    intro w op _ _ hj o
    cases op with
    | load _ _ _ => exact hj o
    | setOM _ _ => exact hj o
    | setTM _ _ => simp only [World.step]; split <;> exact hj o
    | fit j fo eo =>
      simp only [World.step, World.fit]
      split
      · rename_i o' m' _ _
        split
        · exact hj o
        · split
          · exact hj o
          · split
            · exact hj o
            · rcases eq_or_ne o o' with rfl | hne
              · simp only [Function.update_self]; exact hj o
              · simp only [Function.update_of_ne hne]; exact hj o
      · exact hj o
  obtain ⟨c1, c2, c3, c4, c5⟩ := hconst o
  have htoff : (w₀.heap m.ref).toff = 0 := run_toff oms ops hpart
  have hfresh : FreshH tab (⟨(oms o).names, (oms o).lattice, .none, ext⟩ : Env K gs) (fun x => x ∈ objects m ∧ HasKernel tab x) w₀.heap := by
    rcases hker with hk | hk
    · rintro x ⟨hx, hkx⟩ km hkm k hc
      have := run_cache (tab := tab) (ext := ext) oms ops (x := x) (fun j m' hm' => hk j m' hm' x hx hkx)
      rw [show ((World.init oms).run tab ext ops).heap x = w₀.heap x from rfl] at this
      rw [this] at hc; cases hc
    · intro x _ km hkm k hc
      exact (run_oneGrid (tab := tab) oms ops ⟨(oms o).names, (oms o).lattice, .none, ext⟩ rfl hk).fresh x trivial km hkm k hc
  -- the state before the fit
  obtain ⟨w, hw⟩ : ∃ w, w = w₀.run tab ext [.load i data ts, .setOM i o, .setTM i m] := ⟨_, rfl⟩
  have hw' := hw
  simp only [World.run, List.foldl_cons, List.foldl_nil] at hw'
  have hset : ∀ v : World K D gs, v.step tab ext (.setTM i m) = ({ v with studies := Function.update v.studies i { v.studies i with tm := some m }, heap := Function.update v.heap m.ref { v.heap m.ref with study := some i, lattice := some (v.studies i).lattice } }, none) := by
    intro v
    rw [World.step]
    split
    · rename_i h; exact absurd h (hnb _ _ _)
    · rfl
  rw [hset] at hw'
  have hstudy : w.studies i = { w₀.studies i with data := data, ts := ts, om := some o, grid := (oms o).grid, lattice := (oms o).lattice, tm := some m } := by
    rw [hw']
    simp only [World.step, Function.update_self]; rw [c2, c3]
  have homs : w.oms = w₀.oms := by
    rw [hw']; rfl
  have hattr : (w.heap m.ref).main = (some i, some (w.studies i).lattice, 0) := by
    rw [hstudy]
    rw [hw']
    simp only [World.step, Function.update_self, TAttr.main]
    rw [c2]
    refine Prod.ext rfl (Prod.ext rfl ?_)
    simp only
    cases (w₀.studies i).tm with
    | none => exact htoff
    | some m' =>
      simp only
      rcases eq_or_ne m.ref m'.ref with he | he
      · rw [he, Function.update_self]; rw [he] at htoff; exact htoff
      · rw [Function.update_of_ne he]; exact htoff
  have hcache : ∀ x, (w.heap x).cache = (w₀.heap x).cache := by
    intro x
    rw [hw']
    have e : ∀ (h : THeap K d) (y : ℕ) (a : TAttr K d), a.cache = (h y).cache → (Function.update h y a x).cache = (h x).cache := by
      intro h y a ha
      rcases eq_or_ne x y with he | he
      · rw [he, Function.update_self]; exact ha
      · rw [Function.update_of_ne he]
    have e2 : (((w₀.step tab ext (.load i data ts)).1.step tab ext (.setOM i o)).1.heap x).cache = (w₀.heap x).cache := by
      simp only [World.step, Function.update_self]
      cases (w₀.studies i).tm with
      | none => rfl
      | some m' => exact e _ _ _ rfl
    rw [← e2]; exact e _ _ _ rfl
  have hfr : FreshH tab (⟨(w.oms o).names, (w.studies i).lattice, .none, ext⟩ : Env K gs) (fun x => x ∈ objects m ∧ HasKernel tab x) w.heap := by
    rw [homs, c1, hstudy]
    exact hfresh.of_cache fun x _ => hcache x
  obtain ⟨h, hfit⟩ := fit_pure (tab := tab) (ext := ext) (w := w) (i := i) (o := o) (m := m) (fo := fo) (eo := eo) (by rw [hstudy]) (by rw [hstudy]) hp (by rw [hstudy]; exact hd) hdup hattr hfr
  have hr : r = w.fit tab ext i fo eo := by rw [hw]; rfl
  rw [hr, hfit]
  rw [homs, hstudy, c1, c4, c5]
  simp only
  generalize BL.fit (⟨(oms o).names, (oms o).lattice, .none, ext⟩ : Env K gs) _ _ _ _ _ _ _ = q
  cases q with
  | error e => rfl
  | ok R =>
    simp only [World.seen, Function.update_self]
    simp only [Option.map_some, Function.update_self]

/-- a case: after a fit of study 0 the parts of its combined model are used in a serial model of study 1, with another grid -/
example :
    let ops : List (WOp ℚ ℚ) := [.load 0 [2, 3] [0, 1], .setOM 0 0, .setTM 0 (.combined 7 [.leaf 1, .leaf 0]), .fit 0 false false]
    let m : OTM ℚ := .serial 9 ["t"] [.scalar 1] [] [false] [.leaf 1, .combined 8 [.leaf 0, .leaf 2]]
    (Ex.tabW m.ref).kind ≠ .breakPoint ∧ Acyclic m ∧ duplicates (m.value Ex.tabW).flatNames = [] ∧ (∀ j m', .setTM j m' ∈ ops → m.ref ∉ parts m') ∧
    (∀ j m', .setTM j m' ∈ ops → ∀ x ∈ objects m, HasKernel Ex.tabW x → x ∉ objects m') := by
  intro ops m
  refine ⟨by simp [Ex.tabW, m, OTM.ref], by simp [m, Acyclic, AcyclicL, partsL, parts, OTM.ref], by decide +kernel, ?_, ?_⟩
  · intro j m' h
    simp only [ops, List.mem_cons, reduceCtorEq, WOp.setTM.injEq, List.not_mem_nil, or_false, false_or] at h
    obtain ⟨-, rfl⟩ := h
    decide
  · intro j m' _ x hx hk
    simp only [m, objects, parts, partsL, OTM.ref, List.mem_cons, List.mem_append, List.not_mem_nil, or_false, false_or, List.nil_append, List.append_nil] at hx
    rcases hx with rfl | rfl | rfl | rfl | rfl <;> exact hk.elim

/-- a case of the second alternative: an alpha-stable random walk used before, one grid -/
example :
    let ops : List (WOp ℚ ℚ) := [.load 0 [2, 3] [0, 1], .setOM 0 1, .setTM 0 (.leaf 4), .fit 0 false false]
    HasKernel Ex.tabW 4 ∧ ∀ j o', .setOM j o' ∈ ops → (Ex.omW o').names = (Ex.omW 3).names ∧ (Ex.omW o').lattice = (Ex.omW 3).lattice := by
  refine ⟨trivial, ?_⟩
  intro j o' h
  simp only [List.mem_cons, reduceCtorEq, WOp.setOM.injEq, List.not_mem_nil, or_false, false_or] at h
  obtain ⟨-, rfl⟩ := h
  exact ⟨rfl, rfl⟩

/-- **C90 (refuted).** One study.  After a fit with a serial model (break-point at time 1) its second part, a deterministic model with quadratic function, is used as the transition model: the evidence is not the one of this model. -/
theorem C90_refuted :
    let ops : List (WOp ℚ ℚ) := [.load 0 [2, 3, 1] [0, 1, 2], .setOM 0 1, .setTM 0 (.serial 5 ["t"] [.scalar 1] [] [false] [.leaf 1, .leaf 2]), .fit 0 false false]
    let w := ((World.init Ex.omW).run Ex.tabW Ex.extW ops).run Ex.tabW Ex.extW [.load 0 [2, 3, 5] [0, 1, 2], .setOM 0 1, .setTM 0 (.leaf 2)]
    let r := w.step Ex.tabW Ex.extW (.fit 0 false true)
    r.2 = none ∧ (r.1.studies 0).logEv.lin = 31 / 2 ∧
    Ex.ev (BL.fit ⟨(Ex.omW 1).names, (Ex.omW 1).lattice, .none, Ex.extW⟩ (Ex.omW 1).grid ((OTM.leaf 2).value Ex.tabW) ([[2], [3], [5]].map (Ex.omW 1).pdf) [0, 1, 2] false true (Ex.S0 .none)) = some (21 / 2) := by
  refine ⟨?_, ?_, ?_⟩ <;> decide +kernel

/-- **C90 (refuted).** An alpha-stable random walk is used in a study with lattice constant 2 and then in another study with lattice constant 1: the second fit uses the kernel of the first grid. -/
theorem C90_kernel_refuted :
    let ops : List (WOp ℚ ℚ) := [.load 0 [2, 3] [0, 1], .setOM 0 0, .setTM 0 (.leaf 4), .fit 0 false false]
    let w := ((World.init Ex.omW).run Ex.tabW Ex.extW ops).run Ex.tabW Ex.extW [.load 1 [2, 3] [0, 1], .setOM 1 1, .setTM 1 (.leaf 4)]
    let r := w.step Ex.tabW Ex.extW (.fit 1 false true)
    r.2 = none ∧ (r.1.studies 1).logEv.lin ≠ 0 ∧
    Ex.ev (BL.fit ⟨(Ex.omW 1).names, (Ex.omW 1).lattice, .none, Ex.extW⟩ (Ex.omW 1).grid ((OTM.leaf 4).value Ex.tabW) ([[2], [3]].map (Ex.omW 1).pdf) [0, 1] false true (Ex.S0 .none)) ≠ some (r.1.studies 1).logEv.lin := by
  refine ⟨?_, ?_, ?_⟩ <;> decide +kernel

end Props
