import Verif.Props.C49
import Verif.Spec.Unanswerable

/-! # C118: queries which cannot be answered are rejected -/

set_option linter.unusedSectionVars false

namespace BL
open Spec
variable {K : Type} [Field K] [LinearOrder K]

theorem names_nodup {ss : List (PStudy K)} {ns : List String} (hn : parserNames ss = .ok ns) : (ss.flatMap fun s => s.names ++ s.hyper.names).Nodup := by
  unfold parserNames at hn
  split at hn
  · simp at hn
  · simp only at hn
    split at hn
    · assumption
    · simp at hn

theorem owner_unique {α β : Type} {f : α → List β} : ∀ {l : List α}, (l.flatMap f).Nodup → ∀ {a b : α} {x : β}, a ∈ l → b ∈ l → x ∈ f a → x ∈ f b → a = b
  | [], _, _, _, _, ha, _, _, _ => by simp at ha
  | c :: l, h, a, b, x, ha, hb, hxa, hxb => by
      rw [List.flatMap_cons, List.nodup_append] at h
      obtain ⟨-, h2, h3⟩ := h
      rcases List.mem_cons.1 ha with rfl | ha <;> rcases List.mem_cons.1 hb with rfl | hb
      · rfl
      · exact absurd rfl (h3 x hxa x (List.mem_flatMap.2 ⟨b, hb, hxb⟩))
      · exact absurd rfl (h3 x hxb x (List.mem_flatMap.2 ⟨a, (by assumption), hxa⟩))
      · exact owner_unique h2 ha hb hxa hxb

theorem indexOf?_mem {l : List K} {x : K} {i : ℕ} (h : indexOf? l x = some i) : x ∈ l := by
  unfold indexOf? at h
  split at h
  · assumption
  · cases h

theorem time_known {s : PStudy K} {ss : List (PStudy K)} {t : K} {l : List (PObj K)} (hl : loadAll (s :: ss) (some t) = .ok l) (ht : t ∉ s.ts) : False := by
  obtain ⟨ti, _, _, h1, -⟩ := loadAll_ok hl
  unfold timeIndex at h1
  simp only [List.head?_cons] at h1
  split at h1
  · cases h1
  · rename_i i hi
    exact ht (indexOf?_mem hi)

theorem isOnline_iff (s : PStudy K) : s.hyper.isOnline = true ↔ Moving s := by
  unfold Moving
  cases hs : s.hyper with
  | online ms hist cur => exact ⟨fun _ => ⟨ms, hist, cur, rfl⟩, fun _ => rfl⟩
  | none => exact ⟨fun h => by simp [PHyper.isOnline] at h, fun ⟨_, _, _, h⟩ => by simp at h⟩
  | static a b => exact ⟨fun h => by simp [PHyper.isOnline] at h, fun ⟨_, _, _, h⟩ => by simp at h⟩

/-- references without meaning have no value with time step -/
theorem unanswerable_ref {X : PExt K} {ss : List (PStudy K)} {t : Option K} {ns : List String} {l : List (PObj K)} (hn : parserNames ss = .ok ns) (hl : loadAll ss t = .ok l)
    {r : String × Option K} (hu : Unanswerable ss t r) {o : PObj K} (h : refValue (⟨X, ss.map PStudy.ts, l⟩ : PEnv K) r = .ok (.obj o)) (ht : needsTime (.obj o) = false) : False := by
  have hnd := names_nodup hn
  obtain ⟨o', ho', hname, hc⟩ := refValue_cases h
  obtain ⟨k, s', name', ha⟩ := loadAll_as hl o' ho'
  have e : name' = r.1 := Option.some.inj (ha.called.symm.trans hname)
  subst e
  have hs' : s' ∈ ss := List.mem_of_getElem? ha.study
  have mem : r.1 ∈ s'.names ++ s'.hyper.names := by
    cases hh : o'.hyper with
    | false => exact List.mem_append_left _ (ha.param hh).1
    | true => exact List.mem_append_right _ (ha.hyper hh).1
  have uniq : ∀ s ∈ ss, r.1 ∈ s.names ++ s.hyper.names → s = s' := fun s hs hm => owner_unique hnd hs hs' hm mem
  have disj : ¬ (r.1 ∈ s'.names ∧ r.1 ∈ s'.hyper.names) := by
    rintro ⟨h1, h2⟩
    have : (s'.names ++ s'.hyper.names).Nodup := (List.nodup_flatMap.1 hnd).1 s' hs'
    exact (List.nodup_append.1 this).2.2 _ h1 _ h2 rfl
  have par : r.1 ∈ s'.names → o'.hyper = false := by
    intro h1
    by_contra hc
    exact disj ⟨h1, (ha.hyper (by simpa using hc)).1⟩
  have hyp : r.1 ∈ s'.hyper.names → o'.hyper = true := by
    intro h1
    by_contra hc
    exact disj ⟨(ha.param (by simpa using hc)).1, h1⟩
  cases hu with
  | unknown hu => exact (List.mem_append.1 mem).elim (hu s' hs').1 (hu s' hs').2
  | noTime h1 h2 h3 h4 =>
      obtain rfl := uniq _ h2 (List.mem_append_left _ h4)
      obtain ⟨-, e⟩ | ⟨hc, -⟩ | ⟨τ, p, k, ts, i, hc, -⟩ := hc
      · cases e
        unfold needsTime at ht
        simp only [par h4, ha.called, ((ha.param (par h4)).2 h1 h3)] at ht
        simp at ht
      · exact hc rfl
      · cases hc
  | noTimeHyper h1 h2 h3 h4 h5 =>
      obtain rfl := uniq _ h2 (List.mem_append_right _ h5)
      obtain ⟨-, e⟩ | ⟨hc, -⟩ | ⟨τ, p, k, ts, i, hc, -⟩ := hc
      · cases e
        have hs := ((ha.hyper (hyp h5)).2).2 ⟨h1, h3, (isOnline_iff _).2 h4⟩
        have := ha.seqNeeds o rfl hs
        rw [ht] at this
        cases this
      · exact hc rfl
      · cases hc
  | wrongTime h1 h2 h3 =>
      obtain rfl := uniq _ h1 (by simpa using h2)
      obtain ⟨hc, -⟩ | ⟨-, hc⟩ | ⟨τ, p, k', ts, i, hc, -, hk, hts, hi, -⟩ := hc
      · cases hc
      · cases hc
      · cases hc
        rw [ha.index] at hk
        cases hk
        simp only [List.getElem?_map, ha.study, Option.map_some, Option.some.injEq] at hts
        rw [← hts] at hi
        exact h3 (indexOf?_mem hi)
  | fixed h1 h2 h3 =>
      obtain rfl := uniq _ h1 (List.mem_append_right _ h2)
      obtain ⟨hc, -⟩ | ⟨-, hc⟩ | ⟨τ, p, k', ts, i, hc, hor, -⟩ := hc
      · cases hc
      · cases hc
      · rcases hor with hor | hor
        · rw [hyp h2] at hor; cases hor
        · obtain ⟨q1, q2, q3⟩ := (ha.hyper (hyp h2)).2.1 hor
          rcases h3 with h3 | h3 | h3
          · exact h3 q1
          · rw [h3] at q2; cases q2
          · exact h3 ((isOnline_iff _).1 q3)

/-- lists with two elements are not evaluated -/
theorem dist_two [FloorRing K] (E : PEnv K) (n : ℕ) (a b : PTree K) (p : List K × List K) (h : distQuery E n (.list [a, b]) = .ok p) : False := by
  simp only [distQuery, bind_ok] at h
  obtain ⟨v, hv, -⟩ := h
  cases n with
  | zero => simp [evaluate] at hv
  | succ n =>
      simp only [evaluate, bind_ok] at hv
      obtain ⟨r, hr, hv⟩ := hv
      have hr : r.length = 2 := (mapE_len hr).trans (by simp [regroup])
      match r, hr with
      | [_, _], _ => simp at hv

end BL

namespace Props
open BL Spec
variable {K : Type} [Field K] [LinearOrder K] [IsStrictOrderedRing K]

/-- **C118 (partial).** A query with relational operator is not answered if one of its parameters has no meaning (`Unanswerable`): an unknown name, no time step where the study has
a distribution for each time step, a time step which is not among the time stamps of the study, a time step for a hyper-parameter with a single distribution.  The full claim covers the
time argument of the query as well; it is false for studies with different time stamps (`C118_refuted`). -/
theorem C118_partial (X : PExt K) (n : ℕ) (ss : List (PStudy K)) (t : Option K) (left : Side K) (rel : Rel) (right : Query K)
    (h : ∃ r ∈ left.refs ++ right.refs, Unanswerable ss t r) : ∃ e, ask X n ss t left rel right = .error e := by
  obtain ⟨r, hr, hu⟩ := h
  cases ha : ask X n ss t left rel right with
  | error e => exact ⟨e, rfl⟩
  | ok p =>
      exfalso
      unfold ask Parser.prob at ha
      simp only [bind_ok] at ha
      obtain ⟨ns, hn, l, hl, h⟩ := ha
      obtain ⟨o, h1, -⟩ := relQuery_ok _ _ _ _ _ _ h
      obtain ⟨o', h2, h3⟩ := chain_timed _ n _ _ h1 r (by rw [Query.refs, reducedChain_refs]; simpa [or_comm] using hr)
      exact unanswerable_ref hn hl hu h2 h3

/-- **C118, time argument.** A query whose time argument is not a time stamp of the first study is not answered. -/
theorem C118_time (X : PExt K) (n : ℕ) (s : PStudy K) (ss : List (PStudy K)) (t : K) (ht : t ∉ s.ts) (left : Side K) (rel : Rel) (right : Query K) :
    ∃ e, ask X n (s :: ss) (some t) left rel right = .error e := by
  cases ha : ask X n (s :: ss) (some t) left rel right with
  | error e => exact ⟨e, rfl⟩
  | ok p =>
      exfalso
      unfold ask Parser.prob at ha
      simp only [bind_ok] at ha
      obtain ⟨ns, hn, l, hl, h⟩ := ha
      exact time_known hl ht

/-- **C118, distributions.** The same for all queries without relational operator. -/
theorem C118_distribution [FloorRing K] (X : PExt K) (n : ℕ) (ss : List (PStudy K)) (t : Option K) (q : Query K) (h : ∃ r ∈ q.refs, Unanswerable ss t r) :
    ∃ e, Parser.dist X n ss t q.tree = .error e := by
  obtain ⟨r, hr, hu⟩ := h
  cases ha : Parser.dist X n ss t q.tree with
  | error e => exact ⟨e, rfl⟩
  | ok p =>
      exfalso
      unfold Parser.dist at ha
      simp only [bind_ok] at ha
      obtain ⟨ns, hn, l, hl, h⟩ := ha
      cases q with
      | num x => simp [Query.tree, distQuery] at h
      | par s => simp [Query.tree, distQuery] at h
      | neg e => exact dist_two _ n _ _ p h
      | pos e => exact dist_two _ n _ _ p h
      | fn s e => exact dist_two _ n _ _ p h
      | «at» s τ =>
          simp only [Query.tree, distQuery, bind_ok] at h
          obtain ⟨v, hv, h⟩ := h
          cases v with
          | obj o =>
              cases n with
              | zero => simp [evaluate] at hv
              | succ n =>
                  have hrun : run ⟨X, ss.map PStudy.ts, l⟩ (n + 1) (.at s τ) = .ok (.obj o) := by
                    rw [run, Query.tree, operandValue_list]
                    exact hv
                  obtain ⟨x, h1, h2⟩ := (run_at _ _ _ _ _).1 hrun
                  have href : refValue (⟨X, ss.map PStudy.ts, l⟩ : PEnv K) (s, some τ) = .ok (.obj o) := by rw [refValue, h1]; exact h2
                  simp only [Query.refs, List.mem_singleton] at hr
                  subst hr
                  refine unanswerable_ref hn hl hu href ?_
                  obtain ⟨o', -, -, ⟨hc, -⟩ | ⟨-, hc⟩ | ⟨τ', p', k, ts, i, hc, -, -, -, -, hp', e⟩⟩ := refValue_cases href
                  · cases hc
                  · cases hc
                  · cases e
                    unfold needsTime
                    simp
          | _ => simp at h
      | chain c =>
          simp only [Query.tree, distQuery, bind_ok] at h
          obtain ⟨v, hv, -⟩ := h
          have hrun : run ⟨X, ss.map PStudy.ts, l⟩ n (.chain c) = .ok v := by rw [run_chain]; exact hv
          obtain ⟨o', h2, h3⟩ := chain_timed _ n _ _ hrun r hr
          exact unanswerable_ref hn hl hu h2 h3

/-- **C118, time argument of distributions.** -/
theorem C118_distribution_time [FloorRing K] (X : PExt K) (n : ℕ) (s : PStudy K) (ss : List (PStudy K)) (t : K) (ht : t ∉ s.ts) (q : Query K) :
    ∃ e, Parser.dist X n (s :: ss) (some t) q.tree = .error e := by
  cases ha : Parser.dist X n (s :: ss) (some t) q.tree with
  | error e => exact ⟨e, rfl⟩
  | ok p =>
      exfalso
      unfold Parser.dist at ha
      simp only [bind_ok] at ha
      obtain ⟨ns, hn, l, hl, h⟩ := ha
      exact time_known hl ht

open _root_.Ex

/-- the hypotheses hold: no time step, unknown name, wrong time step, time step for a fixed hyper-parameter -/
example : Unanswerable [studyA, studyB] none ("x", none) ∧ Unanswerable [studyA, studyB] none ("w", none) ∧ Unanswerable [studyA, studyB] none ("z", some 3) ∧
    Unanswerable [studyA, studyB] none ("sigma", some 1) :=
  ⟨.noTime (s := studyA) rfl (by simp) rfl (by simp [studyA]), .unknown (by intro s hs; fin_cases hs <;> simp [studyA, studyB, PHyper.names]),
    .wrongTime (s := studyB) (by simp) (by simp [studyB]) (by simp [studyB]), .fixed (s := studyB) (by simp) (by simp [studyB, PHyper.names]) (.inr (.inr (by rintro ⟨_, _, _, h⟩; simp [studyB] at h)))⟩

/-- a query which is rejected without time step and answered with time step -/
example : (∃ e, ask pext 10 [studyA, studyB] none ⟨.par "x", [(true, .par "sigma")]⟩ .gt (.num 1) = .error e) ∧
    ask pext 10 [studyA, studyB] none ⟨.at "x" 1, [(true, .par "sigma")]⟩ .gt (.num 1) = .ok (some (13/16)) :=
  ⟨C118_partial pext 10 _ _ _ _ _ ⟨("x", none), by simp [Side.refs, Query.refs], .noTime (s := studyA) rfl (by simp) rfl (by simp [studyA])⟩, by decide +kernel⟩

/-- the hypotheses of the other theorems hold -/
example : (3 : ℚ) ∉ studyA.ts ∧ ∃ r ∈ (Query.fn "abs" (.par "x") : Query ℚ).refs, Unanswerable [studyA, studyB] none r :=
  ⟨by simp [studyA], ("x", none), by simp [Query.refs], .noTime (s := studyA) rfl (by simp) rfl (by simp [studyA])⟩

/-- A second study with other time stamps. -/
def studyLate : PStudy ℚ where
  names := ["v"]
  values := [[0, 1]]
  ts := [2, 3]
  store := true
  posts := [[1/4, 3/4], [1, 0]]
  current := []
  hyper := .none

/-- **C118 refuted for the time argument.** The study `studyLate` has the time stamps 2 and 3; a query about its parameter at time 1 is answered, with the distribution of time 2; a
query about time 2 is answered with the distribution of time 3. -/
theorem C118_refuted : (1 : ℚ) ∉ studyLate.ts ∧ ask pext 10 [studyA, studyLate] (some 1) ⟨.par "v", []⟩ .gt (.num 0) = .ok (some (3/4)) ∧
    ask pext 10 [studyA, studyLate] (some 2) ⟨.par "v", []⟩ .gt (.num 0) = .ok (some 0) ∧
    ask pext 10 [studyA, studyLate] none ⟨.at "v" 2, []⟩ .gt (.num 0) = .ok (some (3/4)) := by
  refine ⟨by simp [studyLate], by decide +kernel, by decide +kernel, by decide +kernel⟩

end Props
