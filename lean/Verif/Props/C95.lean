import Verif.Props.C03
import Verif.Props.C04
import Verif.Props.C55
import Verif.Props.C62

/-! # C95: from the calls of the user to the answers -/

set_option linter.unusedSectionVars false

namespace Spec
open BL
variable {K D : Type} [Field K] [LinearOrder K]

/-- A call that configures a study. -/
inductive UserCall (K D : Type)
  | load (data : List D) (ts : Option (List K))
  | om (m : OModel K D)
  | tm (m : TM K)

/-- perform a call -/
def UserCall.run (S : Cfg K D) : UserCall K D → Cfg K D × Option PyErr
  | .load data ts => S.loadData (.ndarray data) ts
  | .om m => S.setOM m
  | .tm m => S.setTM m

/-- `Session calls S`: a new study on which `calls` were performed without exception -/
inductive Session : List (UserCall K D) → Cfg K D → Prop
  | new : Session [] Cfg.init
  | call {calls : List (UserCall K D)} {S S' : Cfg K D} {c : UserCall K D} (h : Session calls S) (hc : c.run S = (S', none)) : Session (calls ++ [c]) S'

/-- the data and time stamps passed by the call (without time stamps: 0, 1, 2, …) -/
def UserCall.data? : UserCall K D → Option (List D × List K)
  | .load data (some ts) => some (data, ts)
  | .load data none => some (data, (List.range data.length).map fun i : ℕ => (i : K))
  | _ => none

/-- the observation model passed by the call -/
def UserCall.om? : UserCall K D → Option (OModel K D)
  | .om m => some m
  | _ => none

/-- the transition model passed by the call -/
def UserCall.tm? : UserCall K D → Option (TM K)
  | .tm m => some m
  | _ => none

/-- `Latest f calls v`: `v` was passed by the last call that passes such a value -/
def Latest {α : Type} (f : UserCall K D → Option α) (calls : List (UserCall K D)) (v : α) : Prop := (calls.filterMap f).getLast? = some v

/-- `Spacing v c`: the values `v` are evenly spaced with distance `c`; or clearly unevenly, then distances are counted in steps from one value to the next (`c = 1`). -/
inductive Spacing : List K → K → Prop
  | even (a s : K) (hs : s ≠ 0) (n : ℕ) (hn : 2 ≤ n) : Spacing ((List.range n).map fun i : ℕ => a + (i : K) * s) |s|
  | uneven (v : List K) (i : ℕ) (x y z : K) (hx : v[i]? = some x) (hy : v[i + 1]? = some y) (hz : v[i + 2]? = some z) (h : 1 / 10 ^ 10 < |(z - y) - (y - x)|) : Spacing v 1

end Spec

namespace BL
open Spec
variable {K D : Type} [Field K] [LinearOrder K]

theorem latest_concat {α : Type} (f : UserCall K D → Option α) (calls : List (UserCall K D)) (c : UserCall K D) (v : α) :
    Latest f (calls ++ [c]) v ↔ f c = some v ∨ f c = none ∧ Latest f calls v := by
  unfold Latest
  rw [List.filterMap_append]
  cases h : f c with
  | none => simp [h]
  | some w => simp [h]

theorem getD_of_lt {α : Type} {l : List α} {i : ℕ} {x : α} (h : i < l.length) : l.getD i x = l[i] := by
  rw [List.getD_eq_getElem?_getD, List.getElem?_eq_getElem h]; rfl

/-- sum over the paths, arranged by the value at one time -/
theorem paths_by_value {ι K : Type} [Fintype ι] [DecidableEq ι] [CommSemiring K] {n : ℕ} (k : Fin (n + 1)) (f : ι → K) (w : (Fin (n + 1) → ι) → K) :
    ∑ x, (∑ z with z k = x, w z) * f x = ∑ z, w z * f (z k) := by
  simp only [Finset.sum_filter, Finset.sum_mul, ite_mul, zero_mul]
  rw [Finset.sum_comm]
  simp

/-- the lattice constant of one parameter, core.py 158-166 -/
def latticeConst (v : List K) : K := if irregular v then 1 else |v.getD 0 0 - v.getD 1 0|

theorem gridLoop_given (est : String → List D → Option (List K)) (data : List D) : ∀ (vs : List (List K)) (names : List String) (mg : List (List K)) (lat : List K) (r : List (List K) × List K),
    names.length = vs.length → gridLoop est data ((vs.map some).zip names) mg lat = (r, none) → r = (mg ++ vs, lat ++ vs.map latticeConst)
  | [], _, mg, lat, r, _, h => by
      simp only [List.map_nil, List.zip_nil_left, gridLoop, Prod.mk.injEq, and_true] at h
      simp [h]
  | v :: vs, n :: names, mg, lat, r, hl, h => by
      simp only [List.map_cons, List.zip_cons_cons, gridLoop] at h
      match v, h with
      | x :: y :: l, h =>
          have := gridLoop_given est data vs names _ _ r (by simpa using hl) h
          rw [this]
          simp [latticeConst]
  | _ :: _, [], _, _, _, hl, _ => by simp at hl

/-- what a session leaves behind -/
theorem session_spec {calls : List (UserCall K D)} {S : Cfg K D} (h : Session calls S) :
    (∀ om, Latest UserCall.om? calls om → S.om = some om ∧ ∀ vs, om.values = vs.map some → om.names.length = vs.length → S.grid = vs ∧ S.lattice = vs.map latticeConst) ∧
    (∀ tm, Latest UserCall.tm? calls tm → S.tm = some (tm, S.lattice)) ∧
    (∀ p, Latest UserCall.data? calls p → p.2.length = p.1.length → S.rawData = p.1 ∧ S.rawTimestamps = some p.2) ∧ (∀ m, S.tm = some m → m.2 = S.lattice) := by
  induction h with
  | new => simp [Latest, Cfg.init]
  | @call calls S S' c h hc ih =>
      obtain ⟨ih1, ih2, ih3, ih4⟩ := ih
      cases c with
      | load data ts =>
          have hS : S'.om = S.om ∧ S'.grid = S.grid ∧ S'.lattice = S.lattice ∧ S'.tm = S.tm := by
            simp only [UserCall.run, Cfg.loadData, Prod.mk.injEq, and_true] at hc
            rw [← hc]
            cases ts with
            | none => simp
            | some ts => dsimp only; split <;> simp
          obtain ⟨e1, e2, e3, e4⟩ := hS
          rw [e1, e2, e3, e4]
          refine ⟨fun om hom => ih1 om ?_, fun tm htm => ih2 tm ?_, fun p hp hlen => ?_, ih4⟩
          · simpa [latest_concat, UserCall.om?] using hom
          · simpa [latest_concat, UserCall.tm?] using htm
          · simp only [UserCall.run, Cfg.loadData, Prod.mk.injEq, and_true] at hc
            rw [latest_concat] at hp
            cases ts with
            | none =>
                simp only [UserCall.data?, Option.some.injEq, reduceCtorEq, false_and, or_false] at hp
                rw [← hc, ← hp]
                exact ⟨rfl, rfl⟩
            | some ts =>
                simp only [UserCall.data?, Option.some.injEq, reduceCtorEq, false_and, or_false] at hp
                subst hp
                rw [← hc]
                dsimp only at hlen ⊢
                rw [if_pos hlen]
                exact ⟨rfl, rfl⟩
      | om m =>
          simp only [UserCall.run, Cfg.setOM] at hc
          generalize hr : gridLoop m.est S.rawData (m.values.zip m.names) [] [] = r at hc
          obtain ⟨r, e⟩ := r
          cases e with
          | some e => simp at hc
          | none =>
              simp only [Prod.mk.injEq, and_true] at hc
              subst hc
              refine ⟨fun om hom => ?_, fun tm htm => ?_, fun p hp hlen => ih3 p ?_ hlen, fun n hn => ?_⟩
              · simp only [latest_concat, UserCall.om?, Option.some.injEq, reduceCtorEq, false_and, or_false] at hom
                subst hom
                refine ⟨rfl, fun vs hvs hl => ?_⟩
                rw [hvs] at hr
                have := gridLoop_given _ _ vs m.names [] [] r hl hr
                rw [this]
                simp
              · have := ih2 tm (by simpa [latest_concat, UserCall.tm?] using htm)
                dsimp only
                rw [this]
                rfl
              · simpa [latest_concat, UserCall.data?] using hp
              · dsimp only at hn ⊢
                obtain ⟨m', hm', rfl⟩ := Option.map_eq_some_iff.1 hn
                rfl
      | tm m =>
          have hc' : S' = { S with tm := some (m, S.lattice) } := by
            simp only [UserCall.run] at hc
            unfold Cfg.setTM at hc
            split at hc
            · simp at hc
            · exact (Prod.mk.inj hc).1.symm
          subst hc'
          refine ⟨fun om hom => ih1 om ?_, fun tm htm => ?_, fun p hp hlen => ih3 p ?_ hlen, fun n hn => ?_⟩
          · simpa [latest_concat, UserCall.om?] using hom
          · simp only [latest_concat, UserCall.tm?, Option.some.injEq, reduceCtorEq, false_and, or_false] at htm
            subst htm
            rfl
          · simpa [latest_concat, UserCall.data?] using hp
          · simp only [Option.some.injEq] at hn
            subst hn
            rfl

end BL

namespace BL
open Spec
variable {K D : Type} [Field K] [LinearOrder K] [IsStrictOrderedRing K]

theorem diff_get : ∀ (v : List K) (i : ℕ) (x y : K), v[i]? = some x → v[i + 1]? = some y → (diff v)[i]? = some (y - x)
  | [], i, x, y, h, _ => by simp at h
  | [a], 0, x, y, _, h => by simp at h
  | [a], i + 1, x, y, h, _ => by simp at h
  | a :: b :: l, 0, x, y, h, h' => by
      simp only [List.getElem?_cons_zero, List.getElem?_cons_succ, Option.some.injEq, zero_add] at h h'
      rw [diff, h, h']; rfl
  | a :: b :: l, i + 1, x, y, h, h' => by
      rw [diff, List.getElem?_cons_succ]
      exact diff_get (b :: l) i x y (by simpa using h) (by simpa using h')

theorem spacing_const {v : List K} {c : K} (h : Spacing v c) : latticeConst v = c ∧ 0 < c ∧ 2 ≤ v.length := by
  cases h with
  | even a s hs n hn =>
      have h1 : irregular ((List.range n).map fun i : ℕ => a + (i : K) * s) = false := by
        rw [List.range_eq_range']
        exact Props.irregular_affine a s n 0
      refine ⟨?_, abs_pos.2 hs, by simpa using hn⟩
      rw [latticeConst, h1]
      obtain ⟨m, rfl⟩ : ∃ m, n = m + 2 := ⟨n - 2, by omega⟩
      simp [List.range_succ_eq_map]
  | uneven v i x y z hx hy hz h =>
      have h1 : irregular v = true := by
        have d1 := diff_get v i x y hx hy
        have d2 := diff_get v (i + 1) y z hy hz
        have d3 := diff_get (diff v) i _ _ d1 d2
        rw [irregular, List.any_eq_true]
        exact ⟨_, List.mem_of_getElem? d3, by simpa using h⟩
      refine ⟨by rw [latticeConst, h1]; rfl, one_pos, ?_⟩
      have := (List.getElem?_eq_some_iff.1 hy).1
      omega

end BL

namespace Spec
open BL
variable {K D : Type} [Field K] [LinearOrder K]

/-- the data points `k, …, k+seg-1` -/
def window (raw : List D) (seg k : ℕ) : List D := (raw.drop k).take seg

/-- What the calls of the user amount to: data with time stamps `τ 0, τ 1, …` (one per data point), an observation model with parameter values `vs`
that are spaced by `cs`, and a transition model. -/
structure Inputs (calls : List (UserCall K D)) (raw : List D) (τ : ℕ → K) (om : OModel K D) (vs : List (List K)) (cs : List K) (tm : TM K) : Prop where
  data : Latest UserCall.data? calls (raw, (List.range raw.length).map τ)
  obs : Latest UserCall.om? calls om
  values : om.values = vs.map some
  names : om.names.Nodup
  length : om.names.length = vs.length
  spacing : List.Forall₂ Spacing vs cs
  trans : Latest UserCall.tm? calls tm
  hyperNames : tm.flatNames.Nodup
  seg : 1 ≤ om.seg

end Spec

namespace BL
open Spec
variable {K D : Type} [Field K] [LinearOrder K] [IsStrictOrderedRing K]

section
variable {calls : List (UserCall K D)} {S : Cfg K D} {raw : List D} {τ : ℕ → K} {om : OModel K D} {vs : List (List K)} {cs : List K} {tm : TM K}

theorem _root_.Spec.Inputs.grid (h : Inputs calls raw τ om vs cs tm) (hS : Session calls S) : S.grid = vs ∧ S.lattice = cs := by
  obtain ⟨h1, h2⟩ := ((session_spec hS).1 om h.obs).2 vs h.values h.length
  refine ⟨h1, h2.trans ?_⟩
  have := h.spacing
  clear * - this
  induction this with
  | nil => rfl
  | cons h1 h2 ih => rw [List.map_cons, ih, (spacing_const h1).1]

theorem _root_.Spec.Inputs.shape (h : Inputs calls raw τ om vs cs tm) (hS : Session calls S) (a : Fin S.grid.length) : 2 ≤ S.shape a := by
  have h1 := (h.grid hS).1
  have : ∀ v ∈ vs, 2 ≤ v.length := by
    have := h.spacing
    clear * - this
    induction this with
    | nil => simp
    | cons h1 h2 ih => exact List.forall_mem_cons.2 ⟨(spacing_const h1).2.2, ih⟩
  exact this _ (h1 ▸ List.getElem_mem a.isLt)

theorem _root_.Spec.Inputs.lattice (h : Inputs calls raw τ om vs cs tm) (hS : Session calls S) (a : Fin S.grid.length) : 0 < S.lattice.getD a 1 := by
  obtain ⟨h1, h2⟩ := h.grid hS
  have hpos : ∀ c ∈ cs, 0 < c := by
    have := h.spacing
    clear * - this
    induction this with
    | nil => simp
    | cons h1 h2 ih => exact List.forall_mem_cons.2 ⟨(spacing_const h1).2.1, ih⟩
  have hlt : a.val < cs.length := by
    rw [← h.spacing.length_eq, ← h1]; exact a.isLt
  rw [h2, getD_of_lt hlt]
  exact hpos _ (List.getElem_mem hlt)

theorem _root_.Spec.Inputs.regular (h : Inputs calls raw τ om vs cs tm) (hS : Session calls S) (ext : Ext K S.shape) (hX : GaussOK ext) : Regular (S.env om.names ext) :=
  ⟨h.lattice hS, ⟨fun a => ⟨0, lt_of_lt_of_le two_pos (h.shape hS a)⟩⟩, hX⟩

theorem _root_.Spec.Inputs.injective (h : Inputs calls raw τ om vs cs tm) (hS : Session calls S) (ext : Ext K S.shape) : Function.Injective (S.env om.names ext).names := by
  have hlen : S.grid.length = om.names.length := by rw [(h.grid hS).1, h.length]
  intro a b hab
  have ha : a.val < om.names.length := hlen ▸ a.isLt
  have hb : b.val < om.names.length := hlen ▸ b.isLt
  have hab' : om.names.getD a "" = om.names.getD b "" := hab
  rw [getD_of_lt ha, getD_of_lt hb] at hab'
  exact Fin.ext ((List.Nodup.getElem_inj_iff h.names).1 hab')

/-- `fit()` after the calls of the user -/
theorem _root_.Spec.Inputs.fit (h : Inputs calls raw τ om vs cs tm) (hS : Session calls S) {n : ℕ} (hn : om.seg + n = raw.length) (ext : Ext K S.shape) (pdf : List D → Idx S.shape → K)
    (prior : PriorSpec K S.shape) (fo eo : Bool) :
    S.fit ext pdf prior fo eo = BL.fit (S.env om.names ext) S.axes tm (List.ofFn fun k : Fin (n + 1) => pdf (window raw om.seg k)) (List.ofFn fun k : Fin (n + 1) => τ (k + om.seg - 1)) fo eo
      (FitState.init prior) := by
  obtain ⟨s1, s2, s3, -⟩ := session_spec hS
  obtain ⟨d1, d2⟩ := s3 _ h.data (by simp)
  have hom := (s1 om h.obs).1
  have htm := s2 tm h.trans
  have hseg := h.seg
  have hchk : S.check = .ok () := by
    rw [Cfg.check, hom, htm]
    simp only
    rw [if_neg (by rw [d1]; simp only; omega), if_neg (by rw [(Props.duplicates_eq_nil _).2 h.hyperNames]; simp)]
  have hstart : S.fitStart = .ok (movingWindow raw om.seg, timestampsOf ((List.range raw.length).map τ) om.seg) := by
    rw [Cfg.fitStart, hchk, hom, d2, d1]; rfl
  have hts : timestampsOf ((List.range raw.length).map τ) om.seg = List.ofFn fun k : Fin (n + 1) => τ (k + om.seg - 1) := by
    rw [timestampsOf]
    refine List.ext_getElem (by simp; omega) fun i h1 h2 => ?_
    simp only [List.getElem_drop, List.getElem_map, List.getElem_range, List.getElem_ofFn]
    congr 1
    omega
  rw [Cfg.fit, hstart, hom, htm]
  simp only
  rw [movingWindow_ofFn _ _ _ hn, hts, List.map_ofFn]
  rfl

theorem _root_.Spec.Inputs.axis (h : Inputs calls raw τ om vs cs tm) (hS : Session calls S) (a : Fin S.grid.length) : some (List.ofFn (S.axes a)) = vs[a.val]? := by
  have h1 := (h.grid hS).1
  subst h1
  rw [List.getElem?_eq_getElem a.isLt]
  exact congrArg some (List.ofFn_getElem (xs := S.grid[a]))

end

end BL

namespace Props
open BL Spec
variable {K D : Type} [Field K] [LinearOrder K] [IsStrictOrderedRing K]

/-- the queries of a fitted study whose posterior distributions are known -/
theorem answers {S : Cfg K D} {om : OModel K D} {ext : Ext K S.shape} {tm : TM K} {n : ℕ} {L : Fin (n + 1) → Idx S.shape → K} {t : Fin (n + 1) → K} {fo : Bool} {S0 R : FitState K S.shape}
    (hfit : BL.fit (S.env om.names ext) S.axes tm (List.ofFn L) (List.ofFn t) fo false S0 = .ok R) (hfin : R.logEv ≠ LogV.ninf)
    (hnames : Function.Injective (S.env om.names ext).names) (hl : ∀ a, (S.env om.names ext).lattice a ≠ 0) (ht : Function.Injective t) (P : Fin (n + 1) → Idx S.shape → K)
    (hP : R.posts = List.ofFn fun k => .val (P k)) (k : Fin (n + 1)) (a : Fin S.grid.length) (name : String) (hname : om.names[a.val]? = some name) (v : List K) (hv : some (List.ofFn (S.axes a)) = some v) :
    let F := R.fitted (S.env om.names ext) S.axes (List.ofFn t)
    F.distribution (.at (t k)) name false = .ok (v, some (List.ofFn fun i => ∑ x with x a = i, P k x)) ∧
      ∃ m, F.meanValues name = .ok m ∧ m[k.val]? = some (∑ x, P k x * S.axes a (x a)) := by
  intro F
  have hn : (S.env om.names ext).names a = name := by
    change om.names.getD a "" = name
    rw [List.getD_eq_getElem?_getD, hname]; rfl
  obtain ⟨p, m, h1, h2, -, h4, h5, -⟩ := C55 (S.env om.names ext) S.axes tm _ _ fo S0 R hfit hfin hnames hl (List.nodup_ofFn.2 ht) (by simp) k (t k) (by rw [List.getElem?_ofFn, dif_pos k.isLt]) a
  rw [hP] at h1
  have hp : P k = p := by
    rw [List.getElem?_ofFn, dif_pos k.isLt] at h1
    exact Cell.val.inj (Option.some.inj h1)
  subst hp
  rw [hn] at h2 h4
  rw [Option.some.inj hv] at h2
  refine ⟨h2, m, h4, ?_⟩
  rw [h5, marginal_mean]
  rfl

/-- **C95.** After any sequence of successful calls of `loadData`, `setObservationModel` and `setTransitionModel` on a new study, in any order and number, `fit()` succeeds, and the
answers are those of exact inference for the data, the parameter values, the prior and the models passed last: `getParameterDistribution(t, name)` returns the
given values of the parameter with, for each, the probability of all parameter paths that have this value at time `t` (given the data, which are taken in windows of the
segment length that end at `t`), `getParameterMeanValues(name)` the expected values, and the evidence is the total weight of all paths.  For time stamps that increase by one. -/
theorem C95 {calls : List (UserCall K D)} {S : Cfg K D} (hS : Session calls S) {raw : List D} {t0 : K} {om : OModel K D} {vs : List (List K)} {cs : List K} {tm : TM K}
    (h : Inputs calls raw (fun i => t0 + (i : K)) om vs cs tm) {n : ℕ} (hn : om.seg + n = raw.length) (ext : Ext K S.shape) (hX : GaussOK ext) (hL : Linear (S.env om.names ext) tm)
    (pdf : List D → Idx S.shape → K) (hpdf : ∀ (k : Fin (n + 1)) x, 0 ≤ pdf (window raw om.seg k) x) (prior : PriorSpec K S.shape) (π : Idx S.shape → K) (hp : PriorMass (S.env om.names ext).cell prior π) (hR : ResetFree tm ∨ prior = .none) :
    let t : Fin (n + 1) → K := fun k => t0 + ((k + om.seg - 1 : ℕ) : K)
    let weight := pathWeight π (fun k : Fin n => kernel (S.env om.names ext) π tm (t k.castSucc)) fun k : Fin (n + 1) => pdf (window raw om.seg k)
    S.grid = vs ∧ S.lattice = cs ∧ (∑ z, weight z ≠ 0 →
      ∃ R, S.fit ext pdf prior false false = .ok R ∧ (ResetFree tm → R.logEv.exp = ∑ z, weight z) ∧
        ∀ (k : Fin (n + 1)) (a : Fin S.grid.length) (name : String) (v : List K), om.names[a.val]? = some name → vs[a.val]? = some v →
          let F := R.fitted (S.env om.names ext) S.axes (List.ofFn t)
          F.distribution (.at (t k)) name false = .ok (v, some (List.ofFn fun i => (∑ z with z k a = i, weight z) / ∑ z, weight z)) ∧
          ∃ m, F.meanValues name = .ok m ∧ m[k.val]? = some ((∑ z, weight z * S.axes a (z k a)) / ∑ z, weight z)) := by
  intro t weight
  refine ⟨(h.grid hS).1, (h.grid hS).2, fun hw => ?_⟩
  have hE := h.regular hS ext hX
  have := hE.nonempty
  have hU : ∀ i : Fin n, t i.succ = t i.castSucc + 1 := by
    intro i
    have hs := h.seg
    have : ((i.succ : ℕ) + om.seg - 1 : ℕ) = (i.castSucc : ℕ) + om.seg - 1 + 1 := by simp only [Fin.val_succ, Fin.val_castSucc]; omega
    simp only [t, this]
    push_cast; ring
  have hinj : Function.Injective t := by
    intro i j hij
    have hs := h.seg
    have : ((i + om.seg - 1 : ℕ) : K) = ((j + om.seg - 1 : ℕ) : K) := add_left_cancel hij
    have : (i + om.seg - 1 : ℕ) = (j + om.seg - 1 : ℕ) := by exact_mod_cast this
    exact Fin.ext (by omega)
  have hR' : ResetCond (S.env om.names ext) tm prior 1 π := by
    rcases hR with h | h
    · exact Or.inl h
    · exact Or.inr ⟨by rw [h]; rfl, resetOK_prior hp (Or.inl h)⟩
  have hu : ResetFree tm ∨ ∀ x, π x = 1 / (Fintype.card (Idx S.shape) : K) := by
    rcases hR with h | h
    · exact Or.inl h
    · subst h
      cases hp
      exact Or.inr fun x => rfl
  obtain ⟨R, h1, h2, h3, -⟩ := linear_posterior (S := FitState.init prior) (grid := S.axes) hE hL hp hR' hpdf (matched_of_unit hU) _ hu hw
  obtain ⟨R', h1', h4⟩ := linear_evidence (S := FitState.init prior) (R := 1) (ρ := π) (fo := false) (eo := false) (grid := S.axes) hE hL hp hR' hpdf (τ := t)
    (Or.inr (Or.inr ⟨matched_of_unit hU, _, hu⟩))
  obtain rfl : R = R' := by
    have := h1.symm.trans h1'
    exact Except.ok.inj this
  have hw0 : 0 < ∏ i : Fin n, massOut (S.env om.names ext) 1 tm (t i.castSucc) 1 := Finset.prod_pos fun i _ => massOut_pos hE.lattice_pos tm (Or.inr one_pos) _ _ one_pos
  have hfin : R.logEv ≠ LogV.ninf := by
    intro hc
    rw [hc] at h4
    exact mul_ne_zero hw hw0.ne' h4.symm
  refine ⟨R, (h.fit hS hn ext pdf prior false false).trans h1, fun hR => ?_, fun k a name v hname hv => ?_⟩
  · rw [h4]
    simp only [massOut_resetFree tm hR, Finset.prod_const_one, mul_one]
    rfl
  · have := answers h1 hfin (h.injective hS ext) (fun a => (hE.lattice_pos a).ne') hinj _ h2 k a name hname v ((h.axis hS a).trans hv)
    refine ⟨this.1.trans ?_, ?_⟩
    · congr 4
      funext i
      simp only [posterior, Spec.marginal]
      rw [← Finset.sum_div]
      congr 1
      have := paths_by_value k (fun x : Idx S.shape => if x a = i then (1 : K) else 0) weight
      simp only [mul_ite, mul_one, mul_zero, ← Finset.sum_filter] at this
      exact this
    · obtain ⟨m, hm1, hm2⟩ := this.2
      refine ⟨m, hm1, hm2.trans ?_⟩
      congr 1
      simp only [posterior, Spec.marginal, div_mul_eq_mul_div]
      rw [← Finset.sum_div, paths_by_value k (fun x : Idx S.shape => S.axes a (x a)) weight]
      rfl

/-- **C95, forward-only.** The same for `fit(forwardOnly=True)`, with any time stamps that are different from each other: `getParameterDistribution(t, name)` returns the
probabilities given the data up to time `t`.  Priors given as a function are allowed for models with resets, too. -/
theorem C95_filtering {calls : List (UserCall K D)} {S : Cfg K D} (hS : Session calls S) {raw : List D} {τ : ℕ → K} (hτ : Function.Injective τ) {om : OModel K D} {vs : List (List K)} {cs : List K} {tm : TM K}
    (h : Inputs calls raw τ om vs cs tm) {n : ℕ} (hn : om.seg + n = raw.length) (ext : Ext K S.shape) (hX : GaussOK ext) (hL : Linear (S.env om.names ext) tm)
    (pdf : List D → Idx S.shape → K) (hpdf : ∀ (k : Fin (n + 1)) x, 0 ≤ pdf (window raw om.seg k) x) (prior : PriorSpec K S.shape) (π : Idx S.shape → K) (hp : PriorMass (S.env om.names ext).cell prior π)
    (hR : ResetFree tm ∨ prior = .none ∨ ∃ v, prior = .func v) :
    let t : Fin (n + 1) → K := fun k => τ (k + om.seg - 1)
    let weight (k : ℕ) := pathWeight π (fun j : Fin k => kernel (S.env om.names ext) π tm (τ (j + om.seg - 1))) fun j : Fin (k + 1) => pdf (window raw om.seg j)
    S.grid = vs ∧ S.lattice = cs ∧ (∑ z, weight n z ≠ 0 →
      ∃ R, S.fit ext pdf prior true false = .ok R ∧ (ResetFree tm → R.logEv.exp = ∑ z, weight n z) ∧
        ∀ (k : Fin (n + 1)) (a : Fin S.grid.length) (name : String) (v : List K), om.names[a.val]? = some name → vs[a.val]? = some v →
          let F := R.fitted (S.env om.names ext) S.axes (List.ofFn t)
          F.distribution (.at (t k)) name false = .ok (v, some (List.ofFn fun i => (∑ z with z (Fin.last k) a = i, weight k z) / ∑ z, weight k z)) ∧
          ∃ m, F.meanValues name = .ok m ∧ m[k.val]? = some ((∑ z, weight k z * S.axes a (z (Fin.last k) a)) / ∑ z, weight k z)) := by
  intro t weight
  refine ⟨(h.grid hS).1, (h.grid hS).2, fun hw => ?_⟩
  have hE := h.regular hS ext hX
  have := hE.nonempty
  have hinj : Function.Injective t := by
    intro i j hij
    have hs := h.seg
    have := hτ hij
    exact Fin.ext (by omega)
  have hR' : ResetCond (S.env om.names ext) tm prior 1 π := by
    rcases hR with h | h
    · exact Or.inl h
    · refine Or.inr ⟨?_, resetOK_prior hp h⟩
      rcases h with h | ⟨v, h⟩ <;> rw [h] <;> rfl
  obtain ⟨R, h1, h2⟩ := C03_filtering (S.env om.names ext) S.axes tm hE hL (FitState.init prior) π hp hR (fun k : Fin (n + 1) => pdf (window raw om.seg k)) hpdf t hw
  obtain ⟨R', h1', h4⟩ := linear_evidence (S := FitState.init prior) (R := 1) (ρ := π) (fo := true) (eo := false) (grid := S.axes) hE hL hp hR' hpdf (τ := t) (Or.inr (Or.inl rfl))
  obtain rfl : R = R' := by
    have := h1.symm.trans h1'
    exact Except.ok.inj this
  have hw0 : 0 < ∏ i : Fin n, massOut (S.env om.names ext) 1 tm (t i.castSucc) 1 := Finset.prod_pos fun i _ => massOut_pos hE.lattice_pos tm (Or.inr one_pos) _ _ one_pos
  have hfin : R.logEv ≠ LogV.ninf := by
    intro hc
    rw [hc] at h4
    exact mul_ne_zero hw hw0.ne' h4.symm
  refine ⟨R, (h.fit hS hn ext pdf prior true false).trans h1, fun hR => ?_, fun k a name v hname hv => ?_⟩
  · rw [h4]
    simp only [massOut_resetFree tm hR, Finset.prod_const_one, mul_one]
    rfl
  · have := answers h1 hfin (h.injective hS ext) (fun a => (hE.lattice_pos a).ne') hinj _ h2 k a name hname v ((h.axis hS a).trans hv)
    refine ⟨this.1.trans ?_, ?_⟩
    · congr 4
      funext i
      simp only [filtering, posterior, Spec.marginal]
      rw [← Finset.sum_div]
      congr 1
      have := paths_by_value (Fin.last k.val) (fun x : Idx S.shape => if x a = i then (1 : K) else 0) (weight k)
      simp only [mul_ite, mul_one, mul_zero, ← Finset.sum_filter] at this
      exact this
    · obtain ⟨m, hm1, hm2⟩ := this.2
      refine ⟨m, hm1, hm2.trans ?_⟩
      congr 1
      simp only [filtering, posterior, Spec.marginal, div_mul_eq_mul_div]
      rw [← Finset.sum_div]
      congr 1
      exact paths_by_value (Fin.last k.val) (fun x : Idx S.shape => S.axes a (x a)) (weight k)

/-- **C95 for the built-in observation models** of real-valued data and for Poisson: with the textbook densities, for every sequence of data (missing values allowed) and parameter values for which the
densities are defined.  No data sequence is impossible, hence no condition about the total weight. -/
theorem C95_builtin {calls : List (UserCall ℝ (Option ℝ))} {S : Cfg ℝ (Option ℝ)} (hS : Session calls S) {raw : List (Option ℝ)} {t0 : ℝ} {om : OModel ℝ (Option ℝ)} {vs : List (List ℝ)} {cs : List ℝ} {tm : TM ℝ}
    (h : Inputs calls raw (fun i => t0 + (i : ℝ)) om vs cs tm) (m : OM) (hm : RealValued m ∨ m = .poisson ∧ ∀ x, some x ∈ raw → ∃ k : ℕ, x = k) (hseg : om.seg = m.segmentLength)
    (hint : ∀ θ : ℕ → ℝ, (∀ a v, vs[a]? = some v → θ a ∈ v) → Interior m θ) {n : ℕ} (hn : om.seg + n = raw.length) (ext : Ext ℝ S.shape) (hX : GaussOK ext) (hL : Linear (S.env om.names ext) tm)
    (prior : PriorSpec ℝ S.shape) (π : Idx S.shape → ℝ) (hp : PriorMass (S.env om.names ext).cell prior π) (hπ : 0 < ∑ x, π x) (hR : ResetFree tm ∨ prior = .none) :
    let t : Fin (n + 1) → ℝ := fun k => t0 + ((k + om.seg - 1 : ℕ) : ℝ)
    let weight := pathWeight π (fun k : Fin n => kernel (S.env om.names ext) π tm (t k.castSucc)) fun (k : Fin (n + 1)) x => observed m (gridPoint S.axes x) (window raw om.seg k)
    0 < ∑ z, weight z ∧ ∃ R, S.fit ext (fun s => m.likelihood S.axes (.flat s)) prior false false = .ok R ∧ (ResetFree tm → R.logEv.exp = ∑ z, weight z) ∧
      ∀ (k : Fin (n + 1)) (a : Fin S.grid.length) (name : String) (v : List ℝ), om.names[a.val]? = some name → vs[a.val]? = some v →
        let F := R.fitted (S.env om.names ext) S.axes (List.ofFn t)
        F.distribution (.at (t k)) name false = .ok (v, some (List.ofFn fun i => (∑ z with z k a = i, weight z) / ∑ z, weight z)) ∧
        ∃ m, F.meanValues name = .ok m ∧ m[k.val]? = some ((∑ z, weight z * S.axes a (z k a)) / ∑ z, weight z) := by
  intro t weight
  have hE := h.regular hS ext hX
  have := hE.nonempty
  have hin : ∀ x, Interior m (gridPoint S.axes x) := fun x => hint _ fun a v hv => gridPoint_axes S x a v (by rw [(h.grid hS).1]; exact hv)
  have hb : m ≠ .bernoulli := by
    rcases hm with hm | ⟨rfl, -⟩
    · rcases hm with rfl | rfl | rfl | rfl | rfl <;> simp
    · simp
  have hlik : ∀ (k : Fin (n + 1)) x, m.likelihood S.axes (.flat (window raw om.seg k)) x = observed m (gridPoint S.axes x) (window raw om.seg k) := by
    intro k x
    have := observed_eq hm S.axes x (hin x) k (by omega)
    rwa [← hseg] at this
  have hpos : ∀ (k : Fin (n + 1)) x, 0 < m.likelihood S.axes (.flat (window raw om.seg k)) x := by
    intro k x
    rw [OM.likelihood, processedPdf]
    refine pdfOrOnes_pos fun hmis => pdf_pos hb (hin x) _ fun hp => ?_
    subst hp
    rcases hm with hm | ⟨-, hm⟩
    · simp [RealValued] at hm
    have hl : k.val < raw.length := by
      rw [hseg] at hn
      simp only [OM.segmentLength] at hn
      omega
    have ht : window raw om.seg k = [raw[k.val]] := by
      rw [window, hseg, List.drop_eq_getElem_cons hl]; rfl
    rw [ht] at hmis ⊢
    match hy : raw[k.val] with
    | none => rw [hy] at hmis; simp [Seg.missing] at hmis
    | some y => exact hm y (hy ▸ List.getElem_mem hl)
  have hR' : ResetCond (S.env om.names ext) tm prior 1 π := by
    rcases hR with h | h
    · exact Or.inl h
    · exact Or.inr ⟨by rw [h]; rfl, resetOK_prior hp (Or.inl h)⟩
  have hst := kernel_stoch hE hL hR'
  have key := C95 hS h hn ext hX hL (fun s => m.likelihood S.axes (.flat s)) (fun k x => (hpos k x).le) prior π hp hR
  have hw : (fun (k : Fin (n + 1)) x => m.likelihood S.axes (.flat (window raw om.seg k)) x) = fun (k : Fin (n + 1)) x => observed m (gridPoint S.axes x) (window raw om.seg k) :=
    funext fun k => funext fun x => hlik k x
  have hev := evidence_pos (L := fun (k : Fin (n + 1)) x => m.likelihood S.axes (.flat (window raw om.seg k)) x) (T := fun k : Fin n => kernel (S.env om.names ext) π tm (t k.castSucc))
    (priorMass_nonneg (cell_pos hE.lattice_pos) hp) hπ (fun i => hst.nonneg _) (fun i => hst.sum _) hpos
  obtain ⟨R, h1, h2, h3⟩ := key.2.2 hev.ne'
  refine ⟨?_, R, h1, ?_, ?_⟩
  · simp only [weight, ← hw]
    exact hev
  · simp only [weight, ← hw]
    exact h2
  · simp only [weight, ← hw]
    exact h3

/-- The hypotheses are met: a transition model is set first and replaced later, data are loaded twice (the second time without time stamps), the observation model is set
in between, with unevenly spaced values of the first parameter. -/
example : ∃ (calls : List (UserCall ℝ (Option ℝ))) (S : Cfg ℝ (Option ℝ)), calls.length = 5 ∧ Session calls S ∧ S.lattice = [1, |2|] ∧
    ∃ R, S.fit (realExt 2 fun _ _ p => p) (fun s => OM.ar1.likelihood S.axes (.flat s)) .none false false = .ok R ∧ 0 < R.logEv.exp := by
  let om : OModel ℝ (Option ℝ) := ⟨["r", "s"], [some [0, 1, 3], some ((List.range 4).map fun i : ℕ => 1 + (i : ℝ) * 2)], fun _ _ => none, 2⟩
  let tm : TM ℝ := .leaf (.grw "r") ["sigma"] [.scalar 1] none
  let calls : List (UserCall ℝ (Option ℝ)) := [.tm (.leaf .static [] [] none), .load [some 7] (some [3]), .om om, .tm tm, .load [some 1, none, some 3, some 2] none]
  obtain ⟨S, hS⟩ : ∃ S, Session calls S := by
    have h1 := Session.call (K := ℝ) (D := Option ℝ) (c := .tm (.leaf .static [] [] none)) .new rfl
    have h2 := Session.call (c := .load [some 7] (some [3])) h1 rfl
    have h3 := Session.call (c := .om om) h2 rfl
    have h4 := Session.call (c := .tm tm) h3 rfl
    exact ⟨_, Session.call (c := .load [some 1, none, some 3, some 2] none) h4 rfl⟩
  have h : Inputs calls [some 1, none, some 3, some 2] (fun i => 0 + (i : ℝ)) om [[0, 1, 3], (List.range 4).map fun i : ℕ => 1 + (i : ℝ) * 2] [1, |2|] tm :=
    { data := by simp [Latest, calls, UserCall.data?], obs := rfl, values := rfl, names := by simp [om], length := rfl
      spacing := .cons (.uneven _ 0 0 1 3 rfl rfl rfl (by norm_num)) (.cons (.even 1 2 (by norm_num) 4 (by norm_num)) .nil)
      trans := rfl, hyperNames := List.nodup_singleton "sigma", seg := by simp [om] }
  have hg := h.grid hS
  have hs : ∀ a, 2 ≤ S.shape a := h.shape hS
  have hne : Nonempty (Idx S.shape) := ⟨fun a => ⟨0, lt_of_lt_of_le two_pos (hs a)⟩⟩
  have hint : ∀ θ : ℕ → ℝ, (∀ a v, ([[0, 1, 3], (List.range 4).map fun i : ℕ => 1 + (i : ℝ) * 2] : List (List ℝ))[a]? = some v → θ a ∈ v) → Interior .ar1 θ := by
    intro θ hθ
    obtain ⟨i, -, hi⟩ := List.mem_map.1 (hθ 1 _ rfl)
    change 0 < θ 1
    rw [← hi]
    positivity
  obtain ⟨h0, R, h1, h2, -⟩ := C95_builtin hS h .ar1 (Or.inl (by simp [RealValued])) rfl hint (n := 2) rfl (realExt 2 fun _ _ p => p) (realExt_gaussOK _ _)
    ⟨axis_of_name _ "r" ⟨0, by rw [hg.1]; simp⟩ rfl, 1, rfl⟩ .none _ .flat (Finset.sum_pos (fun _ _ => by positivity) Finset.univ_nonempty) (Or.inl (by simp [ResetFree, tm]))
  exact ⟨calls, S, rfl, hS, hg.2, R, h1, by rw [h2 (by simp [ResetFree, tm])]; exact h0⟩

end Props
