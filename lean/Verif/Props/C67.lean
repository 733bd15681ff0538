import Verif.Model.Custom
import Mathlib.Data.List.Nodup
import Mathlib.Data.List.Perm.Basic
import Mathlib.Data.Rat.Defs

/-! # C67, C68: user-defined observation models -/

set_option linter.unusedSectionVars false

namespace Spec
open BL
variable {K : Type}

/-- the successive arguments `'name1', values1, 'name2', values2, ...` -/
def nameValueArgs (l : List (String × List K)) : List (Arg K) := l.flatMap fun p => [.str p.1, .vals (some p.2)]

/-- parameters of a scipy.stats distribution -/
def IsParameter (rv : SciRV K) (n : String) : Prop := n ∈ rv.shapes ∨ n = "loc" ∨ rv.continuous = true ∧ n = "scale"

/-- `θ` assigns the given values to the given names -/
def Assigns {V : Type} (θ : String → V) (names : List String) (values : List V) : Prop := names.map θ = values

end Spec

namespace BL
open Spec
variable {K P : Type}

theorem evens_args (l : List (String × List K)) : evens (nameValueArgs l) = l.map fun p => Arg.str p.1 := by
  induction l with
  | nil => rfl
  | cons p l ih => change _ :: evens (nameValueArgs l) = _; rw [ih]; rfl

theorem odds_args (l : List (String × List K)) : odds (nameValueArgs l) = l.map fun p => Arg.vals (some p.2) := by
  induction l with
  | nil => rfl
  | cons p l ih => change _ :: odds (nameValueArgs l) = _; rw [ih]; rfl

theorem checkOptions_ok {names options : List String} (h : ∀ n ∈ names, n ∈ options) : checkOptions (names.map (Arg.str (K := K))) options = .ok () := by
  unfold checkOptions
  rw [if_neg, if_neg]
  · simp only [List.any_map, List.any_eq_true, not_exists, not_and, Function.comp]
    intro n hn
    simp [Arg.isName]
    exact h n hn
  · simp [Arg.unhashable]

theorem checkOptions_unknown {names options : List String} (h : ∃ n ∈ names, n ∉ options) : checkOptions (names.map (Arg.str (K := K))) options = .error .configuration := by
  obtain ⟨n, hn, hno⟩ := h
  unfold checkOptions
  rw [if_neg, if_pos]
  · simp only [List.any_map, List.any_eq_true, Function.comp]
    refine ⟨n, hn, ?_⟩
    simp only [Bool.not_eq_true', List.any_eq_false, Arg.isName, decide_eq_true_eq]
    intro o ho e
    exact hno (e ▸ ho)
  · simp [Arg.unhashable]

theorem mem_free {rv : SciRV K} {fixed : List (String × K)} {n : String} : n ∈ rv.free fixed ↔ IsParameter rv n ∧ n ∉ fixed.map (·.1) := by
  unfold SciRV.free IsParameter
  simp only [List.mem_filter, List.mem_append, List.mem_cons, Bool.not_eq_true', List.any_eq_false, decide_eq_true_eq, List.mem_map, not_exists, not_and]
  refine and_congr ?_ Iff.rfl
  cases rv.continuous <;> simp

theorem find_nodup {names : List String} (hn : names.Nodup) : ∀ {xs : List K}, xs.length = names.length → names.map (positional names xs) = xs.map some := by
  induction names with
  | nil => intro xs h; rw [List.length_eq_zero_iff.1 h]; rfl
  | cons n names ih =>
    intro xs h
    obtain ⟨x, xs, rfl⟩ : ∃ x l, xs = x :: l := by cases xs with | nil => simp at h | cons x l => exact ⟨x, l, rfl⟩
    rw [List.nodup_cons] at hn
    simp only [List.map_cons]
    congr 1
    · simp [positional]
    · rw [← ih hn.2 (by simpa using h)]
      refine List.map_congr_left fun m hm => ?_
      have hne : n ≠ m := fun e => hn.1 (e ▸ hm)
      simp [positional, List.find?_cons, hne]

theorem positional_none {names : List String} {n : String} (h : n ∉ names) (xs : List K) : positional names xs n = none := by
  unfold positional
  rw [Option.map_eq_none_iff, List.find?_eq_none]
  intro p hp
  simp only [decide_eq_true_eq]
  intro e
  exact h (e ▸ (List.of_mem_zip hp).1)

/-- without repeated names it makes no difference which entry for a name is taken -/
theorem freeDict_eq {names : List String} (hn : names.Nodup) (xs : List K) (n : String) : freeDict (names.map (Arg.str (K := K))) xs n = positional names xs n := by
  induction names generalizing xs with
  | nil => rfl
  | cons m names ih =>
    cases xs with
    | nil => rfl
    | cons x xs =>
      rw [List.nodup_cons] at hn
      have ih := ih hn.2 xs
      unfold freeDict positional at ih ⊢
      simp only [List.map_cons, List.zip_cons_cons, List.reverse_cons, List.find?_append, List.find?_cons, List.find?_nil]
      by_cases h : m = n
      · subst h
        have h0 : ((names.map (Arg.str (K := K))).zip xs).reverse.find? (fun p => p.1.isName m) = none := by
          rw [List.find?_eq_none]
          intro p hp
          rw [List.mem_reverse] at hp
          obtain ⟨k, hk, e⟩ := List.mem_map.1 (List.of_mem_zip hp).1
          rw [← e]
          simp only [Arg.isName, decide_eq_true_eq]
          rintro rfl
          exact hn.1 hk
        rw [h0]
        simp [Arg.isName]
      · have hi : (Arg.str (K := K) m).isName n = false := by simp [Arg.isName, h]
        simp only [hi, h, decide_false, Bool.false_eq_true, if_false, Option.or_none]
        exact ih

end BL

namespace Props
open BL Spec
variable {K P : Type}

/-- **C67 (SciPy).** Distinct names of parameters of the distribution, none of them fixed: the constructor accepts them in any order, stores names, values and prior as given, and
at every point of the grid the likelihood of every observation is the value of the distribution with each named parameter set to its own grid value, each fixed
parameter set to its given value, and no other argument. -/
theorem C67_scipy (rv : SciRV K) (hrv : rv.valid = true) (kw : Kwargs K P) (hkw : kw.unknown = false) (hfix : (kw.fixed.map (·.1)).Nodup) (l : List (String × List K)) (hl : l ≠ [])
    (hnd : (l.map (·.1)).Nodup) (hpar : ∀ p ∈ l, IsParameter rv p.1 ∧ p.1 ∉ kw.fixed.map (·.1)) :
    ∃ m, SciModel.mk? rv (nameValueArgs l) kw = .ok m ∧ m.names = l.map (fun p => .str p.1) ∧ m.values = l.map (fun p => .vals (some p.2)) ∧ m.prior = kw.prior ∧
      ∀ (point : List K) (x : K), point.length = l.length → ∃ θ : String → Option K, Assigns θ (l.map (·.1)) (point.map some) ∧ Assigns θ (kw.fixed.map (·.1)) (kw.fixed.map fun p => some p.2) ∧
        (∀ n, n ∉ l.map (·.1) → n ∉ kw.fixed.map (·.1) → θ n = none) ∧ m.pdf point x = if rv.continuous then rv.pdf x θ else rv.pmf x θ := by
  have hlen : (l.map fun p => Arg.str (K := K) p.1).length ≠ 0 := by
    rw [List.length_map]
    exact fun h => hl (List.length_eq_zero_iff.1 h)
  refine ⟨⟨rv, l.map fun p => .str p.1, l.map fun p => .vals (some p.2), kw.prior, kw.fixed⟩, ?_, rfl, rfl, rfl, ?_⟩
  · unfold SciModel.mk?
    have hc := checkOptions_ok (K := K) (names := l.map (·.1)) (options := rv.free kw.fixed) fun n hn => by
      obtain ⟨p, hp, rfl⟩ := List.mem_map.1 hn
      exact mem_free.2 (hpar p hp)
    rw [List.map_map] at hc
    simp only [hrv, Bool.true_eq_false, hkw, Bool.false_eq_true, if_false, evens_args, odds_args, hlen]
    rw [show (Arg.str ∘ fun p : String × List K => p.1) = fun p => Arg.str (K := K) p.1 from rfl] at hc
    rw [hc]
  · intro point x hp
    refine ⟨_, ?_, ?_, ?_, rfl⟩
    · unfold Assigns
      rw [← find_nodup hnd (by simpa using hp)]
      refine List.map_congr_left fun n hn => ?_
      have h0 : kw.fixed.find? (fun p => decide (p.1 = n)) = none := by
        rw [List.find?_eq_none]
        intro q hq
        simp only [decide_eq_true_eq]
        rintro rfl
        obtain ⟨p, hp, e⟩ := List.mem_map.1 hn
        exact (hpar p hp).2 (e ▸ List.mem_map.2 ⟨q, hq, rfl⟩)
      unfold SciModel.dict
      simp only [h0]
      rw [← freeDict_eq hnd, List.map_map]
      rfl
    · unfold Assigns
      rw [List.map_map]
      refine List.map_congr_left fun p hp => ?_
      have h0 : kw.fixed.find? (fun q => decide (q.1 = p.1)) = some p := by
        clear hpar
        generalize kw.fixed = fx at hfix hp
        induction fx with
        | nil => simp at hp
        | cons q fx ih =>
          rw [List.map_cons, List.nodup_cons] at hfix
          rcases List.mem_cons.1 hp with rfl | hp
          · simp
          · have : q.1 ≠ p.1 := fun e => hfix.1 (e ▸ List.mem_map.2 ⟨p, hp, rfl⟩)
            rw [List.find?_cons, decide_eq_false this]
            exact ih hfix.2 hp
      simp only [Function.comp, SciModel.dict, h0]
    · intro n hn hf
      have h0 : kw.fixed.find? (fun p => decide (p.1 = n)) = none := by
        rw [List.find?_eq_none]
        intro q hq
        simp only [decide_eq_true_eq]
        rintro rfl
        exact hf (List.mem_map.2 ⟨q, hq, rfl⟩)
      unfold SciModel.dict
      simp only [h0]
      have := freeDict_eq hnd point n
      rw [List.map_map] at this
      exact this.trans (positional_none hn point)

theorem sortedParams_eq {free : List String} {names : List String} (h : ∀ n ∈ names, n ∈ free) : sortedParams free (names.map (Arg.str (K := K))) = names := by
  unfold sortedParams
  induction names with
  | nil => rfl
  | cons n names ih =>
    rw [List.map_cons, List.flatMap_cons, ih fun m hm => h m (List.mem_cons_of_mem _ hm)]
    have : free.find? (fun m => (Arg.str (K := K) n).isName m) = some n := by
      have hm := h n List.mem_cons_self
      clear ih h
      induction free with
      | nil => simp at hm
      | cons m free ih =>
        rw [List.find?_cons]
        by_cases e : n = m
        · subst e; simp [Arg.isName]
        · have hf : (Arg.str (K := K) n).isName m = false := by simp [Arg.isName, e]
          rw [hf]
          exact ih ((List.mem_cons.1 hm).resolve_left e)
    rw [this]
    rfl

/-- what the constructor of SymPy models makes of distinct names of free symbols -/
theorem sympy_mk (jeffreys : SymRV K → Except PyErr P) (rv : SymRV K) (hrv : rv.valid = true) (kw : Kwargs K P) (hkw : kw.unknown = false) (l : List (String × List K)) (hl : l ≠ [])
    (hpar : ∀ p ∈ l, p.1 ∈ rv.free) : SymModel.mk? jeffreys rv (nameValueArgs l) kw =
      .ok ⟨l.map fun p => .str p.1, l.map fun p => .vals (some p.2), symPrior jeffreys kw, l.map (·.1), rv.density, rv.free⟩ := by
  have hlen : (l.map fun p => Arg.str (K := K) p.1).length ≠ 0 := by
    rw [List.length_map]
    exact fun h => hl (List.length_eq_zero_iff.1 h)
  have hin : ∀ n ∈ l.map (·.1), n ∈ rv.free := fun n hn => by
    obtain ⟨p, hp, rfl⟩ := List.mem_map.1 hn
    exact hpar p hp
  unfold SymModel.mk?
  have hc := checkOptions_ok (K := K) hin
  have hs := sortedParams_eq (K := K) hin
  rw [List.map_map] at hc hs
  rw [show (Arg.str ∘ fun p : String × List K => p.1) = fun p => Arg.str (K := K) p.1 from rfl] at hc hs
  simp only [hrv, Bool.true_eq_false, hkw, Bool.false_eq_true, if_false, evens_args, odds_args, hlen, hc, hs]

/-- **C67 (SymPy).** Distinct names, one for each free symbol of the random variable: the constructor accepts them in any order (whatever the order in which SymPy lists the symbols), and
at every point of the grid the likelihood of every observation is the density with each symbol set to the grid value of the parameter of its name. -/
theorem C67_sympy [Zero K] (jeffreys : SymRV K → Except PyErr P) (rv : SymRV K) (hrv : rv.valid = true) (kw : Kwargs K P) (hkw : kw.unknown = false) (l : List (String × List K)) (hl : l ≠ [])
    (hnd : (l.map (·.1)).Nodup) (hpar : ∀ n, n ∈ l.map (·.1) ↔ n ∈ rv.free) :
    ∃ m, SymModel.mk? jeffreys rv (nameValueArgs l) kw = .ok m ∧ m.names = l.map (fun p => .str p.1) ∧ m.values = l.map (fun p => .vals (some p.2)) ∧
      ∀ (point : List K) (x : K), point.length = l.length → ∃ θ : String → K, Assigns θ (l.map (·.1)) point ∧ m.pdf point x = .ok (rv.density x θ) := by
  refine ⟨_, sympy_mk jeffreys rv hrv kw hkw l hl fun p hp => (hpar p.1).1 (List.mem_map.2 ⟨p, hp, rfl⟩), rfl, rfl, fun point x hp => ?_⟩
  have hf := find_nodup (K := K) hnd (xs := point) (by simpa using hp)
  have hsome : ∀ n ∈ rv.free, (positional (l.map (·.1)) point n).isNone = false := by
    intro n hn
    have : positional (l.map (·.1)) point n ∈ (l.map (·.1)).map (positional (l.map (·.1)) point) := List.mem_map.2 ⟨n, (hpar n).2 hn, rfl⟩
    rw [hf] at this
    obtain ⟨y, -, e⟩ := List.mem_map.1 this
    rw [← e]; rfl
  refine ⟨fun n => (positional (l.map (·.1)) point n).getD 0, ?_, ?_⟩
  · unfold Assigns
    have := congrArg (List.map fun o : Option K => o.getD 0) hf
    simp only [List.map_map, Function.comp_def, Option.getD_some, List.map_id'] at this ⊢
    exact this
  · unfold SymModel.pdf
    rw [if_neg (by simpa using hp), if_neg]
    simp only [List.any_eq_true, not_exists, not_and]
    intro n hn
    rw [hsome n hn]
    exact Bool.false_ne_true

/-- a value found by position belongs to an entry of the list -/
theorem positional_some {names : List String} (hn : names.Nodup) : ∀ {xs : List K} {n : String} {y : K}, positional names xs n = some y ↔ (n, y) ∈ names.zip xs := by
  induction names with
  | nil => intro xs n y; simp [positional]
  | cons m names ih =>
    intro xs n y
    rw [List.nodup_cons] at hn
    cases xs with
    | nil => simp [positional]
    | cons x xs =>
      have ih := ih hn.2 (xs := xs) (n := n) (y := y)
      unfold positional at ih ⊢
      rw [List.zip_cons_cons, List.find?_cons, List.mem_cons]
      by_cases h : m = n
      · subst h
        have : (m, y) ∉ names.zip xs := fun hm => hn.1 (List.of_mem_zip hm).1
        simp [this, eq_comm]
      · have : (n, y) ≠ (m, x) := fun e => h (Prod.mk.inj e).1.symm
        simp only [h, decide_false, this, false_or]
        exact ih

theorem positional_perm {l l' : List ((String × List K) × K)} (h : l.Perm l') (hnd : (l.map (·.1.1)).Nodup) (n : String) :
    positional (l.map (·.1.1)) (l.map (·.2)) n = positional (l'.map (·.1.1)) (l'.map (·.2)) n := by
  have hnd' : (l'.map (·.1.1)).Nodup := (h.map _).nodup_iff.1 hnd
  refine Option.ext fun y => ?_
  rw [positional_some hnd, positional_some hnd', List.zip_map', List.zip_map']
  exact (h.map _).mem_iff

/-- **C67 (order).** Parameters may be listed in any order: if two SciPy models are built from the same names and values in different order, the likelihood at corresponding points of
the grid is the same; also for SymPy models. -/
theorem C67_order [Zero K] (jeffreys : SymRV K → Except PyErr P) (rv : SciRV K) (srv : SymRV K) (kw : Kwargs K P) {l l' : List ((String × List K) × K)} (h : l.Perm l') (hl : l ≠ [])
    (hnd : (l.map (·.1.1)).Nodup) :
    (∀ m m', SciModel.mk? rv (nameValueArgs (l.map (·.1))) kw = .ok m → SciModel.mk? rv (nameValueArgs (l'.map (·.1))) kw = .ok m' → ∀ x, m.pdf (l.map (·.2)) x = m'.pdf (l'.map (·.2)) x) ∧
    (∀ m m', SymModel.mk? jeffreys srv (nameValueArgs (l.map (·.1))) kw = .ok m → SymModel.mk? jeffreys srv (nameValueArgs (l'.map (·.1))) kw = .ok m' →
      ∀ x, m.pdf (l.map (·.2)) x = m'.pdf (l'.map (·.2)) x) := by
  have hl' : l' ≠ [] := by rintro rfl; exact hl h.eq_nil
  have hnd' : (l'.map (·.1.1)).Nodup := (h.map _).nodup_iff.1 hnd
  have key : ∀ {l : List ((String × List K) × K)} {m}, l ≠ [] → SciModel.mk? rv (nameValueArgs (l.map (·.1))) kw = .ok m →
      m = ⟨rv, (l.map (·.1.1)).map .str, (l.map (·.1)).map fun p => .vals (some p.2), kw.prior, kw.fixed⟩ := by
    intro l m hl hm
    have hlen : ((l.map (·.1)).map fun p => Arg.str (K := K) p.1).length ≠ 0 := by
      rw [List.length_map, List.length_map]
      exact fun h => hl (List.length_eq_zero_iff.1 h)
    unfold SciModel.mk? at hm
    simp only [evens_args, odds_args, hlen, if_false] at hm
    split at hm
    · simp at hm
    · split at hm
      · simp at hm
      · split at hm
        · simp at hm
        · rw [← Except.ok.inj hm]; simp only [List.map_map, Function.comp_def]
  have skey : ∀ {l : List ((String × List K) × K)} {m}, l ≠ [] → SymModel.mk? jeffreys srv (nameValueArgs (l.map (·.1))) kw = .ok m →
      m = ⟨(l.map (·.1)).map fun p => .str p.1, (l.map (·.1)).map fun p => .vals (some p.2), symPrior jeffreys kw, l.map (·.1.1), srv.density, srv.free⟩ := by
    intro l m hl hm
    have hlen : ((l.map (·.1)).map fun p => Arg.str (K := K) p.1).length ≠ 0 := by
      rw [List.length_map, List.length_map]
      exact fun h => hl (List.length_eq_zero_iff.1 h)
    have hin : ∀ n ∈ l.map (·.1.1), n ∈ srv.free := by
      by_contra hc
      push Not at hc
      have := checkOptions_unknown (K := K) hc
      rw [List.map_map] at this
      unfold SymModel.mk? at hm
      simp only [evens_args, odds_args, hlen, if_false] at hm
      rw [List.map_map] at hm
      rw [show (Arg.str ∘ fun p : (String × List K) × K => p.1.1) = ((fun p : String × List K => Arg.str (K := K) p.1) ∘ fun p => p.1) from rfl] at this
      rw [this] at hm
      split at hm <;> simp at hm
    have hs := sortedParams_eq (K := K) hin
    rw [List.map_map] at hs
    unfold SymModel.mk? at hm
    simp only [evens_args, odds_args, hlen, if_false] at hm
    split at hm
    · simp at hm
    · split at hm
      · simp at hm
      · split at hm
        · simp at hm
        · rw [← Except.ok.inj hm]
          simp only [List.map_map, Function.comp_def] at hs ⊢
          rw [hs]
  refine ⟨fun m m' hm hm' x => ?_, fun m m' hm hm' x => ?_⟩
  · rw [key hl hm, key hl' hm']
    have hd : ∀ n, freeDict ((l.map (·.1.1)).map (Arg.str (K := K))) (l.map (·.2)) n = freeDict ((l'.map (·.1.1)).map (Arg.str (K := K))) (l'.map (·.2)) n := fun n => by
      rw [freeDict_eq hnd, freeDict_eq hnd', positional_perm h hnd]
    have hdict : SciModel.dict (P := P) ⟨rv, (l.map (·.1.1)).map .str, (l.map (·.1)).map fun p => .vals (some p.2), kw.prior, kw.fixed⟩ (l.map (·.2)) =
        SciModel.dict (P := P) ⟨rv, (l'.map (·.1.1)).map .str, (l'.map (·.1)).map fun p => .vals (some p.2), kw.prior, kw.fixed⟩ (l'.map (·.2)) := by
      funext n
      unfold SciModel.dict
      simp only [hd]
    unfold SciModel.pdf
    rw [hdict]
  · rw [skey hl hm, skey hl' hm']
    unfold SymModel.pdf
    simp only [positional_perm h hnd, List.length_map, ne_eq, not_true_eq_false, if_false]

/-- **C67 (unknown names).** A name that is no parameter of the distribution, or a parameter that is fixed, is rejected. -/
theorem C67_unknown (jeffreys : SymRV K → Except PyErr P) (rv : SciRV K) (srv : SymRV K) (kw : Kwargs K P) (hkw : kw.unknown = false) (l : List (String × List K)) :
    ((∃ p ∈ l, ¬IsParameter rv p.1 ∨ p.1 ∈ kw.fixed.map (·.1)) → SciModel.mk? rv (nameValueArgs l) kw = .error .configuration) ∧
    ((∃ p ∈ l, p.1 ∉ srv.free) → SymModel.mk? jeffreys srv (nameValueArgs l) kw = .error .configuration) := by
  constructor
  · rintro ⟨p, hp, hbad⟩
    have hlen : (l.map fun p => Arg.str (K := K) p.1).length ≠ 0 := by
      rw [List.length_map]
      exact fun h => List.ne_nil_of_mem hp (List.length_eq_zero_iff.1 h)
    have hc := checkOptions_unknown (K := K) (names := l.map (·.1)) (options := rv.free kw.fixed) ⟨p.1, List.mem_map.2 ⟨p, hp, rfl⟩, fun hm => by
      have := mem_free.1 hm
      rcases hbad with h | h
      · exact h this.1
      · exact this.2 h⟩
    rw [List.map_map] at hc
    unfold SciModel.mk?
    simp only [evens_args, odds_args, hlen, if_false, hkw, Bool.false_eq_true]
    rw [show (Arg.str ∘ fun p : String × List K => p.1) = fun p => Arg.str (K := K) p.1 from rfl] at hc
    rw [hc]
    split <;> rfl
  · rintro ⟨p, hp, hbad⟩
    have hlen : (l.map fun p => Arg.str (K := K) p.1).length ≠ 0 := by
      rw [List.length_map]
      exact fun h => List.ne_nil_of_mem hp (List.length_eq_zero_iff.1 h)
    have hc := checkOptions_unknown (K := K) (names := l.map (·.1)) (options := srv.free) ⟨p.1, List.mem_map.2 ⟨p, hp, rfl⟩, hbad⟩
    rw [List.map_map] at hc
    unfold SymModel.mk?
    simp only [evens_args, odds_args, hlen, if_false]
    rw [show (Arg.str ∘ fun p : String × List K => p.1) = fun p => Arg.str (K := K) p.1 from rfl] at hc
    rw [hc]
    split <;> rfl

/-- **C67 (missing symbols).** A SymPy model that leaves out a free symbol is accepted by the constructor, but no likelihood can be computed: every evaluation raises an error. -/
theorem C67_missing [Zero K] (jeffreys : SymRV K → Except PyErr P) (rv : SymRV K) (hrv : rv.valid = true) (kw : Kwargs K P) (hkw : kw.unknown = false) (l : List (String × List K)) (hl : l ≠ [])
    (hpar : ∀ p ∈ l, p.1 ∈ rv.free) (n : String) (hn : n ∈ rv.free) (hmiss : n ∉ l.map (·.1)) :
    ∃ m, SymModel.mk? jeffreys rv (nameValueArgs l) kw = .ok m ∧ ∀ (point : List K) (x : K), ∃ e, m.pdf point x = .error e := by
  refine ⟨_, sympy_mk jeffreys rv hrv kw hkw l hl hpar, fun point x => ?_⟩
  unfold SymModel.pdf
  split
  · exact ⟨_, rfl⟩
  · rw [if_pos]
    · exact ⟨_, rfl⟩
    · rw [List.any_eq_true]
      exact ⟨n, hn, by rw [positional_none hmiss]; rfl⟩

/-- **C67 (NumPy).** A function is accepted exactly if it is callable, its first argument is called `data`, it has one further argument for each parameter, and all keywords are known;
its further arguments then receive the grid values in the order in which the parameters are listed, whatever their names. -/
theorem C67_numpy {D : Type} (f : Option (PyFun D K)) (l : List (String × List K)) (kw : Kwargs K P) :
    ((∃ m, NumModel.mk? f (nameValueArgs l) kw = .ok m) ↔ ∃ g, f = some g ∧ g.args.head? = some "data" ∧ g.args.length = l.length + 1 ∧ kw.unknown = false) ∧
    ∀ m, NumModel.mk? f (nameValueArgs l) kw = .ok m → m.names = l.map (fun p => .str p.1) ∧ m.values = l.map (fun p => .vals (some p.2)) ∧ m.prior = kw.prior ∧
      ∃ g, f = some g ∧ ∀ point x, m.pdf point x = g.call x point := by
  unfold NumModel.mk?
  simp only [evens_args, odds_args, List.length_map]
  cases f with
  | none => simp
  | some g =>
    simp only
    by_cases h1 : l.length + 1 = g.args.length
    · by_cases h2 : g.args.head? = some "data"
      · cases h3 : kw.unknown
        · simp only [h1, h2, ne_eq, not_true_eq_false, if_false, Bool.false_eq_true]
          refine ⟨⟨fun _ => ⟨g, rfl, h2, rfl, trivial⟩, fun _ => ⟨_, rfl⟩⟩, fun m hm => ?_⟩
          rw [← Except.ok.inj hm]
          exact ⟨rfl, rfl, rfl, g, rfl, fun _ _ => rfl⟩
        · simp [h1, h2]
      · simp [h1, h2]
    · have : g.args.length ≠ l.length + 1 := fun e => h1 e.symm
      simp [h1, this]

/-- **C68, partial.** The prior given by the user is used, and with `determineJeffreysPrior=False` and no prior, the prior is flat.  Missing: without a prior, the Jeffreys prior of the
random variable is used whenever it can be determined (refuted below). -/
theorem C68_partial (jeffreys : SymRV K → Except PyErr P) (rv : SymRV K) (args : List (Arg K)) (kw : Kwargs K P) (m : SymModel K P) (hm : SymModel.mk? jeffreys rv args kw = .ok m)
    (h : kw.prior ≠ none ∨ kw.determine = false) : m.prior = kw.prior := by
  have : m.prior = symPrior jeffreys kw := by
    unfold SymModel.mk? at hm
    simp only at hm
    split at hm
    · simp at hm
    · split at hm
      · simp at hm
      · split at hm
        · simp at hm
        · rw [← Except.ok.inj hm]
  rw [this]
  unfold symPrior
  cases hp : kw.prior with
  | some p => rfl
  | none =>
    rcases h with h | h
    · exact absurd hp h
    · simp [h]

/-- **C68, refuted.** Documented: "by default, the Jeffreys prior is determined".  But without a given prior every SymPy model has a flat prior, whatever `getJeffreysPrior` computes. -/
theorem C68_refuted : ¬∀ (jeffreys : SymRV ℚ → Except PyErr String) (rv : SymRV ℚ) (args : List (Arg ℚ)) (kw : Kwargs ℚ String) (m : SymModel ℚ String) (p : String),
    SymModel.mk? jeffreys rv args kw = .ok m → kw.prior = none → kw.determine = true → jeffreys rv = .ok p → m.prior = some p := by
  intro h
  have := h (fun _ => .ok "1/lambda") ⟨true, ["lambda"], fun x θ => x * θ "lambda"⟩ [.str "lambda", .vals (some [1, 2])] ⟨false, none, [], true⟩ _ "1/lambda" rfl rfl rfl rfl
  simp [symPrior, symSelfRv] at this

/-- the prior is flat for every random variable -/
theorem C68_flat (jeffreys : SymRV K → Except PyErr P) (rv : SymRV K) (args : List (Arg K)) (kw : Kwargs K P) (m : SymModel K P) (hm : SymModel.mk? jeffreys rv args kw = .ok m)
    (hp : kw.prior = none) : m.prior = none := by
  cases hd : kw.determine with
  | false => rw [C68_partial jeffreys rv args kw m hm (Or.inr hd), hp]
  | true =>
    unfold SymModel.mk? at hm
    simp only at hm
    split at hm
    · simp at hm
    · split at hm
      · simp at hm
      · split at hm
        · simp at hm
        · rw [← Except.ok.inj hm]
          simp [symPrior, hp, hd, symSelfRv]

/-! ## Concrete cases -/

/-- a gamma distribution: one shape parameter, location and scale; the `density` shows which values it received -/
def gammaRV : SciRV ℚ := ⟨true, ["a"], true, fun x θ => x + 10 * (θ "a").getD 0 + 100 * (θ "loc").getD 0 + 1000 * (θ "scale").getD 0, fun _ _ => 0⟩

/-- `SciPy(gamma, 'scale', [1, 2], 'a', [3], fixedParameters={'loc': 5})` is accepted and each parameter receives its own value -/
example : ∃ m, SciModel.mk? gammaRV (nameValueArgs [("scale", [1, 2]), ("a", [3])]) (⟨false, none, [("loc", 5)], true⟩ : Kwargs ℚ String) = .ok m ∧ m.pdf [2, 3] 7 = 7 + 10 * 3 + 100 * 5 + 1000 * 2 :=
  ⟨_, rfl, by decide +kernel⟩

example := C67_scipy gammaRV rfl (⟨false, none, [("loc", 5)], true⟩ : Kwargs ℚ String) rfl (by decide) [("scale", [1, 2]), ("a", [3])] (by simp) (by decide)
  (by intro p hp; simp at hp; rcases hp with rfl | rfl <;> simp [IsParameter, gammaRV])

/-- fixing a parameter that is also listed is an error -/
example : SciModel.mk? gammaRV (nameValueArgs [("loc", [1, 2])]) (⟨false, none, [("loc", 5)], true⟩ : Kwargs ℚ String) = .error .configuration :=
  (C67_unknown (fun _ => .error .valueError) gammaRV ⟨true, [], fun _ _ => 0⟩ _ rfl _).1 ⟨("loc", [1, 2]), by simp, Or.inr (by simp)⟩

/-- a random variable with two symbols, which SymPy lists in alphabetic order -/
def normalRV : SymRV ℚ := ⟨true, ["mu", "sigma"], fun x θ => x + 10 * θ "mu" + 100 * θ "sigma"⟩

example := C67_sympy (P := String) (fun _ => .error .valueError) normalRV rfl ⟨false, none, [], true⟩ rfl [("sigma", [1, 2]), ("mu", [3])] (by simp) (by decide) (by intro n; simp [normalRV, or_comm])

example : ∃ m, SymModel.mk? (P := String) (fun _ => .error .valueError) normalRV (nameValueArgs [("sigma", [1, 2]), ("mu", [3])]) ⟨false, none, [], true⟩ = .ok m ∧
    m.pdf [2, 3] 7 = .ok (7 + 10 * 3 + 100 * 2) := ⟨_, rfl, by decide +kernel⟩

example := C67_missing (P := String) (fun _ => .error .valueError) normalRV rfl ⟨false, none, [], true⟩ rfl [("mu", [3])] (by simp) (by simp [normalRV]) "sigma" (by simp [normalRV]) (by simp)

example := C67_order (P := String) (fun _ => .error .valueError) gammaRV normalRV ⟨false, none, [], true⟩ (l := [(("a", [1, 2]), 1), (("loc", [3]), 3)]) (l' := [(("loc", [3]), 3), (("a", [1, 2]), 1)])
  (List.Perm.swap _ _ _) (by simp) (by decide)

/-- arguments of a NumPy function are positional: swapped names are not noticed -/
example : ∃ m, NumModel.mk? (P := String) (some ⟨["data", "mu", "sigma"], fun (x : ℚ) p => x + 10 * p.getD 0 0 + 100 * p.getD 1 0⟩) (nameValueArgs [("sigma", [1]), ("mu", [3])]) ⟨false, none, [], true⟩ = .ok m ∧
    m.pdf [1, 3] 7 = 7 + 10 * 1 + 100 * 3 := ⟨_, rfl, by decide +kernel⟩

example : ∃ m, SymModel.mk? (fun _ => .ok "1/sigma") normalRV (nameValueArgs [("sigma", [1, 2]), ("mu", [3])]) ⟨false, some "mine", [], true⟩ = .ok m ∧ m.prior = some "mine" :=
  ⟨_, rfl, C68_partial (fun _ => .ok "1/sigma") normalRV (nameValueArgs [("sigma", [1, 2]), ("mu", [3])]) ⟨false, some "mine", [], true⟩ _ rfl (Or.inl (by simp))⟩

end Props
