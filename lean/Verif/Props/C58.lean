import Verif.Model.Optimize
import Verif.Props.C15
import Verif.Props.C25
import Verif.Lemmas.Changepoint

/-! # C58: optimisation of hyper-parameters -/

set_option linter.unusedSectionVars false

namespace Spec
open BL
variable {K : Type}

/-- names of all other hyper-parameters -/
def otherNames (tm : TM K) : List String := ((entries tm).map (·.1)).filter fun n => n ∉ pointNames tm

end Spec

namespace BL
open Spec
variable {K : Type} [Field K] [LinearOrder K] [IsStrictOrderedRing K] {d : ℕ} {gs : Fin d → ℕ}

theorem points_iff (n : String) (tm : TM K) : n ∈ flatten tm.cpNameTree ++ flatten tm.bpNameTree ↔ n ∈ pointNames tm := by
  rw [List.mem_append, pointNames_mem n tm]

theorem selection_default (tm : TM K) (hp : Proper tm) : selection tm [] = otherNames tm := by
  rw [selection, if_pos rfl, otherNames, entries_names tm hp]
  apply List.filter_congr
  intro n _
  rw [decide_eq_decide]
  exact not_congr (points_iff n tm)

theorem checkNames_ok {tm : TM K} (hp : Proper tm) (h : checkNames tm = .ok ()) : ((entries tm).map (·.1)).Nodup := by
  rw [← entries_names tm hp]
  unfold checkNames at h
  split at h
  · simp at h
  · rename_i hd
    rw [List.nodup_iff_count_le_one]
    intro n
    by_contra hc
    apply hd
    apply List.length_pos_of_mem (a := n)
    unfold duplicates
    rw [List.mem_filter, List.mem_dedup]
    refine ⟨List.count_pos_iff.1 (by omega), by simpa using (by omega : 1 < tm.flatNames.count n)⟩

theorem plain_assigned_name {sel : List String} {xs : List K} (n : String) (v : HVal K) (hv : Plain v) : Plain (assigned sel (xs.map .scalar) n v) := by
  unfold assigned
  split
  · rename_i p hp
    have := (List.of_mem_zip (List.mem_of_find?_eq_some hp)).2
    obtain ⟨x, -, hx⟩ := List.mem_map.1 this
    rw [← hx]; trivial
  · exact hv

theorem names_withValues (g : String → HVal K → HVal K) (tm : TM K) : (entries (withValues g tm)).map (·.1) = (entries tm).map (·.1) := by
  rw [entries_withValues, List.map_map]; rfl

theorem assigned_twice {sel : List String} {xs ys : List (HVal K)} (hl : xs.length = sel.length) (n : String) (v : HVal K) :
    assigned sel xs n (assigned sel ys n v) = assigned sel xs n v := by
  by_cases hn : n ∈ sel
  · unfold assigned
    cases h : (sel.zip xs).find? (fun p => p.1 = n) with
    | some p => rfl
    | none =>
        exfalso
        rw [List.find?_eq_none] at h
        obtain ⟨i, hi, hni⟩ := List.mem_iff_getElem.1 hn
        have : (sel.zip xs)[i]'(by simp [hl, hi]) ∈ sel.zip xs := List.getElem_mem _
        have := h _ this
        simp [hni] at this
  · have : assigned sel ys n v = v := by
      unfold assigned
      have : (sel.zip ys).find? (fun p => p.1 = n) = none := by
        rw [List.find?_eq_none]
        intro p hp
        simp only [decide_eq_true_eq]
        rintro rfl
        exact hn (List.of_mem_zip hp).1
      rw [this]
    rw [this]

/-- setting the selected values again replaces the values set before -/
theorem setSelected_again {tm0 : TM K} {sel : List String} (hp : Proper tm0) (hnd : ((entries tm0).map (·.1)).Nodup) (hsel : sel.Nodup) (hne : sel ≠ []) (hsp : " " ∉ sel)
    (hin : ∀ n ∈ sel, n ∈ (entries tm0).map (·.1)) {tm : TM K} (htm : tm = tm0 ∨ ∃ ys : List K, tm = withValues (assigned sel (ys.map .scalar)) tm0) {xs : List K}
    (hl : xs.length = sel.length) : tm.setSelected sel (xs.map .scalar) = .ok (withValues (assigned sel (xs.map .scalar)) tm0) := by
  have hx : ∀ x ∈ xs.map HVal.scalar, Plain x := by
    intro x hx
    obtain ⟨y, -, rfl⟩ := List.mem_map.1 hx
    trivial
  rcases htm with rfl | ⟨ys, rfl⟩
  · obtain ⟨tm', h1, h2, -⟩ := Props.C25_selected_partial tm sel (xs.map .scalar) hp hnd hsel hne hsp hin (by simpa using hl) hx
    rw [h1, h2]
  · obtain ⟨tm', h1, h2, -⟩ := Props.C25_selected_partial (withValues (assigned sel (ys.map .scalar)) tm0) sel (xs.map .scalar)
      (proper_withValues _ (fun n v hv => plain_assigned_name n v hv) tm0 hp) (by rw [names_withValues]; exact hnd) hsel hne hsp (by rw [names_withValues]; exact hin) (by simpa using hl) hx
    rw [h1, h2, withValues_comp]
    congr 2
    funext n v
    exact assigned_twice (by simpa using hl) n v

theorem getValue_same {tm tm' : TM K} {n : String} (hp : Proper tm) (hp' : Proper tm') (hnd : ((entries tm).map (·.1)).Nodup)
    (hn : (entries tm').map (·.1) = (entries tm).map (·.1)) (h : ∀ v, (n, v) ∈ entries tm' ↔ (n, v) ∈ entries tm) : tm'.getValue n = tm.getValue n := by
  have h1 := Props.C25_get tm hp hnd n
  have h2 := Props.C25_get tm' hp' (by rw [hn]; exact hnd) n
  by_cases hin : n ∈ (entries tm).map (·.1)
  · obtain ⟨⟨n', v⟩, he, rfl⟩ := List.mem_map.1 hin
    rw [(h1.1 v).2 he, (h2.1 v).2 ((h v).2 he)]
  · rw [h1.2 hin, h2.2 (by rw [hn]; exact hin)]

/-- values after setting -/
theorem getValue_assigned {tm : TM K} {sel : List String} (hp : Proper tm) (hnd : ((entries tm).map (·.1)).Nodup) (hsel : sel.Nodup) (hne : sel ≠ []) (hsp : " " ∉ sel)
    (hin : ∀ n ∈ sel, n ∈ (entries tm).map (·.1)) {xs : List K} (hl : xs.length = sel.length) :
    (∀ n, n ∉ sel → (withValues (assigned sel (xs.map .scalar)) tm).getValue n = tm.getValue n) ∧
      ∀ p ∈ sel.zip xs, (withValues (assigned sel (xs.map .scalar)) tm).getValue p.1 = .ok (.scalar p.2) := by
  have hx : ∀ x ∈ xs.map HVal.scalar, Plain x := by
    intro x hx
    obtain ⟨y, -, rfl⟩ := List.mem_map.1 hx
    trivial
  obtain ⟨tm', -, h2, h3, h4⟩ := Props.C25_selected_partial tm sel (xs.map .scalar) hp hnd hsel hne hsp hin (by simpa using hl) hx
  have hp' : Proper tm' := by rw [h2]; exact proper_withValues _ (fun n v hv => plain_assigned_name n v hv) tm hp
  have hn' : (entries tm').map (·.1) = (entries tm).map (·.1) := by rw [h2, names_withValues]
  rw [← h2]
  refine ⟨fun n hn => getValue_same hp hp' hnd hn' fun v => h4 n v hn, ?_⟩
  rintro ⟨n, x⟩ hpx
  refine ((Props.C25_get tm' hp' (by rw [hn']; exact hnd) n).1 _).2 (h3 (n, .scalar x) ?_)
  rw [List.zip_map_right]
  exact List.mem_map.2 ⟨(n, x), hpx, rfl⟩

/-- the transition model during the optimisation -/
def Reached (tm0 : TM K) (sel : List String) (tm : TM K) : Prop := tm = tm0 ∨ ∃ ys : List K, ys.length = sel.length ∧ tm = withValues (assigned sel (ys.map .scalar)) tm0

theorem checkNames_congr {tm tm' : TM K} (h : tm'.nameTree = tm.nameTree) : checkNames tm' = checkNames tm := by unfold checkNames TM.flatNames; rw [h]

theorem setFit_spec {c : OptConf K gs} {tm0 : TM K} {s : OptState K gs} {sel : List String} (hs : s.selected = sel) (hp : Proper tm0) (hnd : ((entries tm0).map (·.1)).Nodup)
    (hsel : sel.Nodup) (hne : sel ≠ []) (hsp : " " ∉ sel) (hin : ∀ n ∈ sel, n ∈ (entries tm0).map (·.1)) (htm : Reached tm0 sel s.tm) {x : List K} (hl : x.length = sel.length) (fo eo : Bool) :
    (s.setFit c x fo eo).1.selected = sel ∧ (s.setFit c x fo eo).1.tm = withValues (assigned sel (x.map .scalar)) tm0 ∧
      ((s.setFit c x fo eo).2 = none → fit c.E c.grid (withValues (assigned sel (x.map .scalar)) tm0) c.liks c.ts fo eo s.res = .ok (s.setFit c x fo eo).1.res) := by
  subst hs
  unfold OptState.setFit
  rw [setSelected_again hp hnd hsel hne hsp hin (htm.imp id fun ⟨ys, _, h⟩ => ⟨ys, h⟩) hl]
  simp only
  cases checkNames (withValues (assigned s.selected (x.map .scalar)) tm0) with
  | error e => simp
  | ok u =>
      simp only
      cases fit c.E c.grid (withValues (assigned s.selected (x.map .scalar)) tm0) c.liks c.ts fo eo s.res with
      | error e => simp
      | ok r => simp

theorem steps_spec {c : OptConf K gs} {tm0 : TM K} {sel : List String} (hp : Proper tm0) (hnd : ((entries tm0).map (·.1)).Nodup)
    (hsel : sel.Nodup) (hne : sel ≠ []) (hsp : " " ∉ sel) (hin : ∀ n ∈ sel, n ∈ (entries tm0).map (·.1)) : ∀ (xs : List (List K)) (s : OptState K gs), s.selected = sel →
    Reached tm0 sel s.tm → (∀ x ∈ xs, x.length = sel.length) →
    (s.steps c xs).1.selected = sel ∧ Reached tm0 sel (s.steps c xs).1.tm ∧
      (s.res.prior.isArray = false → (s.steps c xs).2.2 = none → (s.steps c xs).1.res.prior = s.res.prior ∧
        List.Forall₂ (fun x ev => ∃ R, fit c.E c.grid (withValues (assigned sel (x.map .scalar)) tm0) c.liks c.ts false true s.res = .ok R ∧ ev = R.logEv) xs (s.steps c xs).2.1)
  | [], s, hs, htm, _ => by simpa [OptState.steps] using ⟨hs, htm⟩
  | x :: xs, s, hs, htm, hl => by
      obtain ⟨h1, h2, h3⟩ := setFit_spec (c := c) hs hp hnd hsel hne hsp hin htm (hl x (by simp)) false true
      have hlx := hl x (by simp)
      unfold OptState.steps
      generalize hr : s.setFit c x false true = r at h1 h2 h3
      obtain ⟨s', e⟩ := r
      cases e with
      | some e =>
          refine ⟨h1, Or.inr ⟨x, hlx, h2⟩, ?_⟩
          intro _ h; simp at h
      | none =>
          simp only
          obtain ⟨i1, i2, i3⟩ := steps_spec hp hnd hsel hne hsp hin xs s' h1 (Or.inr ⟨x, hlx, h2⟩) fun x hx => hl x (by simp [hx])
          refine ⟨i1, i2, ?_⟩
          intro hn h
          have hf := h3 rfl
          have hpr : s'.res.prior = s.res.prior := (Props.fit_again hn rfl hf).1
          obtain ⟨j1, j2⟩ := i3 (by rw [hpr]; exact hn) h
          refine ⟨j1.trans hpr, List.Forall₂.cons ⟨_, hf, rfl⟩ ?_⟩
          refine j2.imp ?_
          rintro y ev ⟨R, hR, he⟩
          obtain ⟨-, B, hB, -, hB2, -⟩ := Props.fit_again (T := s.res) (by rw [hpr]; exact hn) hpr.symm hR
          exact ⟨B, hB, by rw [he, hB2]⟩

end BL

namespace Props
open BL Spec
variable {K : Type} [Field K] [LinearOrder K] [IsStrictOrderedRing K] {d : ℕ} {gs : Fin d → ℕ}

theorem optimize_core (c : OptConf K gs) (s : OptState K gs) (plist : List String) (fo : Bool) (points : List (List K)) (best : List K) (sel : List String)
    (hp : Proper s.tm) (he : checkNames s.tm = .ok () → selection s.tm plist = sel ∧ sel.Nodup) (hne : sel ≠ []) (hsp : " " ∉ sel) (hin : ∀ n ∈ sel, n ∈ (entries s.tm).map (·.1))
    (hl : ∀ x ∈ points, x.length = sel.length) (hb : best.length = sel.length) :
    let r := s.optimize c plist fo points best
    (∀ n, n ∉ sel → r.1.tm.getValue n = s.tm.getValue n) ∧
    (r.2.2 = none → r.1.selected = [] ∧ r.1.tm = withValues (assigned sel (best.map .scalar)) s.tm ∧ (∀ p ∈ sel.zip best, r.1.tm.getValue p.1 = .ok (.scalar p.2)) ∧
      (s.res.prior.isArray = false →
        List.Forall₂ (fun x ev => ∃ R, fit c.E c.grid (withValues (assigned sel (x.map .scalar)) s.tm) c.liks c.ts false true s.res = .ok R ∧ ev = R.logEv) points r.2.1 ∧
        ∃ R, fit c.E c.grid (withValues (assigned sel (best.map .scalar)) s.tm) c.liks c.ts fo false s.res = .ok R ∧ r.1.res.logEv = R.logEv ∧ r.1.res.posts = R.posts)) := by
  intro r
  have hr : r = s.optimize c plist fo points best := rfl
  unfold OptState.optimize at hr
  cases hc : checkNames s.tm with
  | error e =>
      rw [hc] at hr
      rw [hr]
      refine ⟨fun n _ => rfl, fun h => by simp at h⟩
  | ok u =>
      obtain ⟨hsele, hsel⟩ := he hc
      have hnd := checkNames_ok hp hc
      rw [hc] at hr
      simp only [hsele] at hr
      cases hu : s.tm.unpackSelected sel with
      | error e =>
          rw [hu] at hr
          rw [hr]
          refine ⟨fun n _ => rfl, fun h => by simp at h⟩
      | ok x0 =>
          rw [hu] at hr
          simp only at hr
          split at hr
          · rw [hr]
            refine ⟨fun n _ => rfl, fun h => by simp at h⟩
          split at hr
          · rw [hr]
            refine ⟨fun n _ => rfl, fun h => by simp at h⟩
          have get : ∀ tm, Reached s.tm sel tm → ∀ n, n ∉ sel → tm.getValue n = s.tm.getValue n := by
            rintro tm (rfl | ⟨ys, hy, rfl⟩) n hn
            · rfl
            · exact (getValue_assigned hp hnd hsel hne hsp hin hy).1 n hn
          obtain ⟨i1, i2, i3⟩ := steps_spec (c := c) hp hnd hsel hne hsp hin points { s with selected := sel } rfl (Or.inl rfl) hl
          generalize hst : OptState.steps c { s with selected := sel } points = q at hr i1 i2 i3
          obtain ⟨s2, evs, e⟩ := q
          cases e with
          | some e =>
              rw [hr]
              exact ⟨get _ i2, fun h => by simp at h⟩
          | none =>
              simp only at hr i1 i2 i3
              obtain ⟨j1, j2, j3⟩ := setFit_spec (c := c) i1 hp hnd hsel hne hsp hin i2 hb fo false
              generalize hsf : s2.setFit c best fo false = w at hr j1 j2 j3
              obtain ⟨s3, e⟩ := w
              cases e with
              | some e =>
                  rw [hr]
                  exact ⟨get _ (Or.inr ⟨best, hb, j2⟩), fun h => by simp at h⟩
              | none =>
                  rw [hr]
                  refine ⟨get _ (Or.inr ⟨best, hb, j2⟩), fun _ => ⟨rfl, j2, ?_, ?_⟩⟩
                  · intro p hpz
                    change s3.tm.getValue p.1 = _
                    have j2' : s3.tm = _ := j2
                    rw [j2']
                    exact (getValue_assigned hp hnd hsel hne hsp hin hb).2 p hpz
                  · intro hn
                    obtain ⟨k1, k2⟩ := i3 hn trivial
                    refine ⟨k2, ?_⟩
                    obtain ⟨-, B, hB, -, hB2, -, hB3, -⟩ := fit_again (T := s.res) (by rw [k1]; exact hn) k1.symm (j3 rfl)
                    exact ⟨B, hB, hB2.symm, (hB3 (Or.inl rfl)).symm⟩

/-- **C58 (partial).** `optimize()` without names, for every nested transition model (built by the constructors, no hyper-parameter named `' '`) with at least one
hyper-parameter that is no change- or break-point; any behaviour of the minimisation routine (evaluated points, result) and however the call ends:
1. no change- or break-point has changed its value;
2. if the call succeeds, the selection is cleared, the other hyper-parameters have the values of the result, and (unless the parameter prior is a numpy array) the values
minimised are the negative log-evidences of fits with the respective hyper-parameter values, and the stored evidence and posteriors are those of a fit with the result.
The full claim (without the restriction to models with other hyper-parameters) is false: `C58_refuted`. -/
theorem C58_partial (c : OptConf K gs) (s : OptState K gs) (fo : Bool) (points : List (List K)) (best : List K) (hp : Proper s.tm)
    (hsp : " " ∉ otherNames s.tm) (hne : otherNames s.tm ≠ []) (hl : ∀ x ∈ points, x.length = (otherNames s.tm).length) (hb : best.length = (otherNames s.tm).length) :
    let r := s.optimize c [] fo points best
    (∀ n ∈ pointNames s.tm, r.1.tm.getValue n = s.tm.getValue n) ∧
    (r.2.2 = none → r.1.selected = [] ∧ (∀ p ∈ (otherNames s.tm).zip best, r.1.tm.getValue p.1 = .ok (.scalar p.2)) ∧
      (s.res.prior.isArray = false →
        List.Forall₂ (fun x ev => ∃ R, fit c.E c.grid (withValues (assigned (otherNames s.tm) (x.map .scalar)) s.tm) c.liks c.ts false true s.res = .ok R ∧ ev = R.logEv) points r.2.1 ∧
        ∃ R, fit c.E c.grid (withValues (assigned (otherNames s.tm) (best.map .scalar)) s.tm) c.liks c.ts fo false s.res = .ok R ∧
          r.1.res.logEv = R.logEv ∧ r.1.res.posts = R.posts)) := by
  intro r
  have hin : ∀ n ∈ otherNames s.tm, n ∈ (entries s.tm).map (·.1) := fun n hn => (List.mem_filter.1 hn).1
  obtain ⟨h1, h2⟩ := optimize_core c s [] fo points best (otherNames s.tm) hp (fun hc => ⟨selection_default _ hp, (checkNames_ok hp hc).filter _⟩) hne hsp hin hl hb
  refine ⟨fun n hn => h1 n ?_, fun h => ⟨(h2 h).1, (h2 h).2.2⟩⟩
  intro hc
  have := (List.mem_filter.1 hc).2
  simp [hn] at this

/-- **C58, selected names.** `optimize(names)` changes at most the named hyper-parameters, however it ends; after success these have the values of the result, and the selection is
cleared. -/
theorem C58_selected (c : OptConf K gs) (s : OptState K gs) (sel : List String) (fo : Bool) (points : List (List K)) (best : List K) (hp : Proper s.tm)
    (hsel : sel.Nodup) (hne : sel ≠ []) (hsp : " " ∉ sel) (hin : ∀ n ∈ sel, n ∈ (entries s.tm).map (·.1)) (hl : ∀ x ∈ points, x.length = sel.length) (hb : best.length = sel.length) :
    let r := s.optimize c sel fo points best
    (∀ n, n ∉ sel → r.1.tm.getValue n = s.tm.getValue n) ∧
    (r.2.2 = none → r.1.selected = [] ∧ ∀ p ∈ sel.zip best, r.1.tm.getValue p.1 = .ok (.scalar p.2)) := by
  intro r
  obtain ⟨h1, h2⟩ := optimize_core c s sel fo points best sel hp (fun _ => ⟨by rw [selection, if_neg hne], hsel⟩) hne hsp hin hl hb
  exact ⟨h1, fun h => ⟨(h2 h).1, (h2 h).2.2.1⟩⟩

/-- a transition model without hyper-parameters: `ConfigurationError`, nothing changes -/
theorem C58_none (c : OptConf K gs) (s : OptState K gs) (fo : Bool) (points : List (List K)) (best : List K) (hp : Proper s.tm) (h0 : entries s.tm = []) :
    (s.optimize c [] fo points best).2.2 = some .configuration ∧ (s.optimize c [] fo points best).1 = { s with selected := [] } := by
  have hn : s.tm.flatNames = [] := by rw [entries_names _ hp, h0]; rfl
  have hv : s.tm.flatValues = [] := by rw [entries_values _ hp, h0]; rfl
  have hc : checkNames s.tm = .ok () := by simp [checkNames, hn, duplicates]
  have hs : selection s.tm [] = [] := by simp [selection, hn]
  unfold OptState.optimize
  simp [hc, hs, TM.unpackSelected, hv]

/-- a study with three data points -/
def _root_.Ex.optConf : OptConf ℚ Ex.gs2 := ⟨Ex.env Ex.gs2 1, Ex.grid Ex.gs2, [Ex.v2 1 2, Ex.v2 3 1, Ex.v2 1 1], [0, 1, 2]⟩

/-- combination of a walk and a change-point -/
def _root_.Ex.optModel : TM ℚ := .combined [.leaf (.grw "x") ["sigma"] [.scalar 1] none, .leaf .changePoint ["t"] [.scalar 1] none]

/-- the hypotheses are met, and the optimisation succeeds -/
example : Proper Ex.optModel ∧ otherNames Ex.optModel = ["sigma"] ∧ pointNames Ex.optModel = ["t"] ∧
    (OptState.optimize Ex.optConf ⟨Ex.optModel, [], Ex.S0 .none⟩ [] false [[2], [3]] [2]).2.2 = none ∧
    (OptState.optimize Ex.optConf ⟨Ex.optModel, [], Ex.S0 .none⟩ [] false [[2], [3]] [2]).1.tm.getValue "t" = .ok (.scalar 1) := by
  refine ⟨by simp [Ex.optModel, Proper, ProperAll, Plain], by decide, by decide, by decide +kernel, ?_⟩
  have := (C58_partial Ex.optConf ⟨Ex.optModel, [], Ex.S0 .none⟩ false [[2], [3]] [2] (by simp [Ex.optModel, Proper, ProperAll, Plain]) (by decide) (by decide) (by decide) (by decide)).1 "t" (by decide)
  rw [this]
  rfl

/-- **C58 (refuted).** If the only hyper-parameters are change- or break-points, the list of names to optimise is empty, which stands for "all": the change-point is varied and
gets a new value. -/
theorem C58_refuted : Proper (Ex.cp 1) ∧ "t_change" ∈ pointNames (Ex.cp 1) ∧
    (OptState.optimize Ex.optConf ⟨Ex.cp 1, [], Ex.S0 .none⟩ [] false [[1], [2]] [0]).2.2 = none ∧
    (Ex.cp 1).getValue "t_change" = .ok (.scalar 1) ∧
    (OptState.optimize Ex.optConf ⟨Ex.cp 1, [], Ex.S0 .none⟩ [] false [[1], [2]] [0]).1.tm.getValue "t_change" = .ok (.scalar 0) := by
  refine ⟨by simp [Ex.cp, Proper, Plain], by decide, by decide +kernel, rfl, by decide +kernel⟩

end Props
