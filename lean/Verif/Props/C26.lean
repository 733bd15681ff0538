import Verif.Props.C25

/-! # C26: names, values and priors of the hyper-parameters are listed in the same order -/

set_option linter.unusedSectionVars false

namespace Spec
open BL
variable {K : Type}

mutual
/-- Hyper-parameter names with their hyper-priors, in the order of `entries`: sub-models from left to right, then the model's own. -/
def priorsOf : TM K → List (String × HPrior K)
  | .leaf _ names _ (some pr) => names.zip pr.flat
  | .leaf _ _ _ none => []
  | .combined ms => priorsOfAll ms
  | .serial names _ pr _ ms => priorsOfAll ms ++ names.zip (flatten pr)
/-- all sub-models -/
def priorsOfAll : List (TM K) → List (String × HPrior K)
  | [] => []
  | m :: ms => priorsOf m ++ priorsOfAll ms
end

variable [Field K] [LinearOrder K]

/-- Break-points for the arguments of serial models. -/
def BuiltBreak (m : TM K) : Prop :=
  ∃ name value prior, m = mkBreakPoint name value prior ∧ Plain value.conv ∧ prior.flat.length = 1

/-- Transition models built with the constructors, one hyper-prior per hyper-parameter (a tuple for models with several).
Excluded: a list of priors for Deterministic, a list as third value of BivariateRandomWalk (see `C26_refuted`). -/
inductive Built : TM K → Prop
  | static : Built mkStatic
  | independent : Built mkIndependent
  | grw {name value target prior m} : mkGRW name value target prior = .ok m → Plain value.conv → prior.flat.length = 1 → Built m
  | alphaStable {n1 v1 n2 v2 target prior m} : mkAlphaStable n1 v1 n2 v2 target prior = .ok m → Plain v1.conv → Plain v2.conv →
      prior.flat.length = 2 → Built m
  | changePoint {name value prior} : Plain value.conv → prior.flat.length = 1 → Built (mkChangePoint name value prior)
  | regimeSwitch {name value prior} : Plain value.conv → prior.flat.length = 1 → Built (mkRegimeSwitch name value prior)
  | notEqual {name value prior} : Plain value.conv → prior.flat.length = 1 → Built (mkNotEqual name value prior)
  | bivariate {n1 v1 n2 v2 n3 v3 prior} : Plain v1.conv → Plain v2.conv → Plain v3 → prior.flat.length = 3 →
      Built (mkBivariate n1 v1 n2 v2 n3 (.val v3) prior)
  | deterministic {f args target m} : (∀ a ∈ args, Plain a.2.conv) → mkDeterministic f args target .none = .ok m → Built m
  | deterministicSingle {f a target p m} : Plain a.2.conv → mkDeterministic f [a] target (.single p) = .ok m → Built m
  | combined {ms m} : (∀ a ∈ ms, Built a) → mkCombined ms = .ok m → Built m
  | serial {args m} : (∀ a ∈ args, ¬ BuiltBreak a → Built a) → mkSerial args = .ok m → Built m

end Spec

namespace BL
open Spec
variable {K : Type} [Field K] [LinearOrder K]

mutual
/-- as many hyper-priors as names everywhere -/
def OnePrior : TM K → Prop
  | .leaf .breakPoint _ _ _ => False
  | .leaf _ names vals pr => names.length = vals.length ∧ (∀ v ∈ vals, Plain v) ∧
      ∃ p, pr = some p ∧ (names ≠ [] → p.flat.length = names.length)
  | .combined ms => OnePriorAll ms
  | .serial names vals pr _ ms => names.length = vals.length ∧ (∀ v ∈ vals, Plain v) ∧ (flatten pr).length = names.length ∧ OnePriorAll ms
/-- all sub-models -/
def OnePriorAll : List (TM K) → Prop
  | [] => True
  | m :: ms => OnePrior m ∧ OnePriorAll ms
end

theorem onePriorAll_iff : ∀ ms : List (TM K), OnePriorAll ms ↔ ∀ m ∈ ms, OnePrior m
  | [] => by simp [OnePriorAll]
  | m :: ms => by simp [OnePriorAll, onePriorAll_iff ms]

mutual
theorem OnePrior.proper : ∀ {tm : TM K}, OnePrior tm → Proper tm
  | .leaf k _ _ _, h => by
      cases k <;> first | exact ⟨h.1, h.2.1⟩ | exact absurd h (by simp [OnePrior])
  | .combined _, h => OnePriorAll.proper h
  | .serial _ _ _ _ _, h => ⟨h.1, h.2.1, OnePriorAll.proper h.2.2.2⟩
theorem OnePriorAll.proper : ∀ {ms : List (TM K)}, OnePriorAll ms → ProperAll ms
  | [], _ => trivial
  | _ :: _, h => ⟨OnePrior.proper h.1, OnePriorAll.proper h.2⟩
end

mutual
theorem OnePrior.priors : ∀ {tm : TM K}, OnePrior tm →
    tm.flatPriors = (priorsOf tm).map (·.2) ∧ (priorsOf tm).map (·.1) = tm.flatNames
  | .leaf k names vals pr, h => by
      have hp := OnePrior.proper h
      obtain ⟨p, hpr, hl⟩ : ∃ p, pr = some p ∧ (names ≠ [] → p.flat.length = names.length) := by
        cases k <;> first | exact h.2.2 | exact absurd h (by simp [OnePrior])
      subst hpr
      have h1 : (TM.leaf k names vals (some p)).priorTree = if names.length > 0 then [p] else [] := by
        cases k <;> first | rfl | exact absurd h (by simp [OnePrior])
      rw [TM.flatPriors, h1, TM.flatNames, nameTree_leaf hp, flatten_items, priorsOf]
      cases names with
      | nil => simp [flatten]
      | cons n ns =>
          have := hl (by simp)
          rw [if_pos (by simp), List.map_snd_zip (by rw [this]), List.map_fst_zip (by rw [this])]
          simp [flatten]
  | .combined ms, h => OnePriorAll.priors h
  | .serial names vals pr mask ms, h => by
      obtain ⟨_, _, h3, h4⟩ := h
      obtain ⟨e1, e2⟩ := OnePriorAll.priors h4
      rw [TM.flatPriors, TM.flatNames, TM.priorTree, TM.nameTree, priorsOf, flatten_append, flatten_append, flatten_items,
        List.map_append, List.map_append, e1, e2, List.map_fst_zip (by rw [h3]), List.map_snd_zip (by rw [h3])]
      refine ⟨?_, rfl⟩
      congr 1
      cases names with
      | nil => simpa [flatten] using h3
      | cons n ns => simp [flatten, Nest.flat]
theorem OnePriorAll.priors : ∀ {ms : List (TM K)}, OnePriorAll ms →
    flatten (TM.priorTrees ms) = (priorsOfAll ms).map (·.2) ∧ (priorsOfAll ms).map (·.1) = flatten (TM.nameTrees ms)
  | [], _ => ⟨rfl, rfl⟩
  | m :: ms, h => by
      obtain ⟨a1, a2⟩ := OnePrior.priors h.1
      obtain ⟨b1, b2⟩ := OnePriorAll.priors h.2
      rw [TM.priorTrees, TM.nameTrees, priorsOfAll, flatten, flatten, Nest.flat, Nest.flat, List.map_append, List.map_append,
        ← a1, ← b1, a2, b2]
      exact ⟨rfl, rfl⟩
end

theorem serialArgs_mem : ∀ {args : List (TM K)} {l : List (SerialArg K)}, serialArgs args = .ok l →
    ∀ a ∈ l, ∃ m ∈ args, serialArg m = .ok a
  | [], l, h, a, ha => by
      simp only [serialArgs, Except.ok.injEq] at h
      rw [← h] at ha; simp at ha
  | m :: args, l, h, a, ha => by
      simp only [serialArgs, Bind.bind, Except.bind] at h
      cases hm : serialArg m with
      | error e => rw [hm] at h; simp at h
      | ok b =>
          cases hr : serialArgs args with
          | error e => rw [hm, hr] at h; simp at h
          | ok l' =>
              rw [hm, hr] at h
              simp only [Except.ok.injEq] at h
              rw [← h, List.mem_cons] at ha
              rcases ha with rfl | ha
              · exact ⟨m, by simp, hm⟩
              · obtain ⟨m', h1, h2⟩ := serialArgs_mem hr a ha
                exact ⟨m', by simp [h1], h2⟩

theorem serialArg_model {m m' : TM K} (h : serialArg m = .ok (.model m')) : m' = m ∧ (∀ ns vs pr, m ≠ .leaf .breakPoint ns vs pr) := by
  unfold serialArg at h
  split at h <;> try (simp at h; done)
  rename_i h1 h2 h3 h4 h5
  simp only [Except.ok.injEq, SerialArg.model.injEq] at h
  refine ⟨h.symm, ?_⟩
  rintro ns vs pr rfl
  exact h2 _ _ _ rfl

theorem flatten_length_one : ∀ l : List (Nest (HPrior K)), (∀ p ∈ l, p.flat.length = 1) → (flatten l).length = l.length
  | [], _ => rfl
  | p :: l, h => by
      rw [flatten, List.length_append, h p (by simp), flatten_length_one l fun q hq => h q (by simp [hq]), List.length_cons,
        Nat.add_comm]

theorem Built.matched {tm : TM K} (h : Built tm) : OnePrior tm := by
  induction h with
  | static => exact ⟨rfl, by simp, _, rfl, by simp⟩
  | independent => exact ⟨rfl, by simp, _, rfl, by simp⟩
  | @grw name value target prior m hm hv hp =>
      cases target with
      | none => simp [mkGRW] at hm
      | some t =>
          simp only [mkGRW, Except.ok.injEq] at hm
          subst hm
          exact ⟨rfl, by simpa using hv, _, rfl, fun _ => hp⟩
  | @alphaStable n1 v1 n2 v2 target prior m hm hv1 hv2 hp =>
      cases target with
      | none => simp [mkAlphaStable] at hm
      | some t =>
          simp only [mkAlphaStable, Except.ok.injEq] at hm
          subst hm
          exact ⟨rfl, by simpa using ⟨hv1, hv2⟩, _, rfl, fun _ => hp⟩
  | changePoint hv hp => exact ⟨rfl, by simpa using hv, _, rfl, fun _ => hp⟩
  | regimeSwitch hv hp => exact ⟨rfl, by simpa using hv, _, rfl, fun _ => hp⟩
  | notEqual hv hp => exact ⟨rfl, by simpa using hv, _, rfl, fun _ => hp⟩
  | bivariate h1 h2 h3 hp => exact ⟨rfl, by simpa using ⟨h1, h2, h3⟩, _, rfl, fun _ => hp⟩
  | @deterministic f args target m hv hm =>
      cases target with
      | none => simp [mkDeterministic] at hm
      | some t =>
          simp only [mkDeterministic, Except.ok.injEq] at hm
          subst hm
          refine ⟨by simp, ?_, _, rfl, fun _ => ?_⟩
          · intro v hv'
            obtain ⟨a, ha, rfl⟩ := List.mem_map.1 hv'
            exact hv a ha
          · rw [Nest.flat, flatten_length_one]
            · simp
            · intro p hp; rw [(List.mem_replicate.1 hp).2]; rfl
  | @deterministicSingle f a target p m hv hm =>
      cases target with
      | none => simp [mkDeterministic] at hm
      | some t =>
          simp only [mkDeterministic, Except.ok.injEq] at hm
          subst hm
          exact ⟨by simp, by simpa using hv, _, rfl, fun _ => rfl⟩
  | @combined ms m _ hm ih =>
      unfold mkCombined at hm
      split at hm
      · simp at hm
      · simp only [Except.ok.injEq] at hm
        subst hm
        exact (onePriorAll_iff ms).2 ih
  | @serial args m hargs' hm ih =>
      have hargs : ∀ a ∈ args, (¬ BuiltBreak a ∧ Built a) ∨ BuiltBreak a := by
        intro a ha
        by_cases h : BuiltBreak a
        · exact .inr h
        · exact .inl ⟨h, hargs' a ha h⟩
      have hbrk : ∀ a ∈ args, ∀ n v pr c, serialArg a = .ok (.brk n v pr c) → Plain v ∧ pr.flat.length = 1 := by
        intro a ha n v pr c hs
        have hleaf : ∀ (k : Leaf K) ns vs p, a = .leaf k ns vs p → (k = .breakPoint ∨ k = .changePoint) →
            (∀ v ∈ vs, Plain v) ∧ ∃ q, p = some q ∧ (ns ≠ [] → q.flat.length = ns.length) ∧ (ns.length ≤ 1) := by
          rintro k ns vs p rfl hk
          rcases hargs _ ha with ⟨hnb, hb⟩ | ⟨name, value, prior, hb, h1, h2⟩
          · cases hb with
            | static => simp at hk
            | independent => simp at hk
            | @grw name value target prior m hm hv hp =>
                cases target with
                | none => simp [mkGRW] at hm
                | some t =>
                    simp only [mkGRW, Except.ok.injEq, TM.leaf.injEq] at hm
                    rcases hk with h | h <;> (rw [h] at hm; simp at hm)
            | @alphaStable n1 v1 n2 v2 target prior m hm hv1 hv2 hp =>
                cases target with
                | none => simp [mkAlphaStable] at hm
                | some t =>
                    simp only [mkAlphaStable, Except.ok.injEq, TM.leaf.injEq] at hm
                    rcases hk with h | h <;> (rw [h] at hm; simp at hm)
            | changePoint hv hp => exact ⟨by simpa using hv, _, rfl, fun _ => hp, by simp⟩
            | regimeSwitch hv hp => simp at hk
            | notEqual hv hp => simp at hk
            | bivariate h1 h2 h3 hp => simp at hk
            | @deterministic f args target m hv hm =>
                cases target with
                | none => simp [mkDeterministic] at hm
                | some t =>
                    simp only [mkDeterministic, Except.ok.injEq, TM.leaf.injEq] at hm
                    rcases hk with h | h <;> (rw [h] at hm; simp at hm)
            | @deterministicSingle f a target p m hv hm =>
                cases target with
                | none => simp [mkDeterministic] at hm
                | some t =>
                    simp only [mkDeterministic, Except.ok.injEq, TM.leaf.injEq] at hm
                    rcases hk with h | h <;> (rw [h] at hm; simp at hm)
            | combined _ hm =>
                unfold mkCombined at hm
                split at hm <;> simp at hm
            | serial _ hm =>
                simp only [mkSerial, Bind.bind, Except.bind] at hm
                repeat (split at hm <;> try (simp at hm; done))
          · simp only [mkBreakPoint, TM.leaf.injEq] at hb
            obtain ⟨_, rfl, rfl, rfl⟩ := hb
            exact ⟨by simpa using h1, _, rfl, fun _ => h2, by simp⟩
        unfold serialArg at hs
        split at hs <;> try (simp at hs; done)
        all_goals
          rename_i n' ns' v' vs' pr'
          simp only [Except.ok.injEq, SerialArg.brk.injEq] at hs
          obtain ⟨rfl, rfl, rfl, rfl⟩ := hs
          obtain ⟨h1, q, hq, h2, h3⟩ := hleaf _ _ _ _ rfl (by simp)
          simp only [Option.some.injEq] at hq
          subst hq
          refine ⟨h1 _ (by simp), ?_⟩
          rw [h2 (by simp)]
          simp only [List.length_cons] at h3 ⊢
          omega
      simp only [mkSerial, Bind.bind, Except.bind] at hm
      cases hl : serialArgs args with
      | error e => rw [hl] at hm; simp at hm
      | ok l =>
          rw [hl] at hm
          simp only at hm
          have hb : ∀ b ∈ l.filterMap SerialArg.brk?, Plain b.2.1 ∧ b.2.2.1.flat.length = 1 := by
            rintro ⟨n, v, pr, c⟩ hb
            obtain ⟨a, ha, hab⟩ := List.mem_filterMap.1 hb
            cases a with
            | model m => simp [SerialArg.brk?] at hab
            | brk n' v' pr' c' =>
                simp only [SerialArg.brk?, Option.some.injEq, Prod.mk.injEq] at hab
                obtain ⟨rfl, rfl, rfl, rfl⟩ := hab
                obtain ⟨m', hm', hs⟩ := serialArgs_mem hl _ ha
                exact hbrk m' hm' _ _ _ _ hs
          have hmods : ∀ m' ∈ l.filterMap SerialArg.model?, OnePrior m' := by
            intro m' hm'
            obtain ⟨a, ha, hab⟩ := List.mem_filterMap.1 hm'
            cases a with
            | brk _ _ _ _ => simp [SerialArg.model?] at hab
            | model m'' =>
                simp only [SerialArg.model?, Option.some.injEq] at hab
                subst hab
                obtain ⟨a', ha', hs⟩ := serialArgs_mem hl _ ha
                obtain ⟨rfl, hnb⟩ := serialArg_model hs
                rcases hargs _ ha' with ⟨hnb', hb'⟩ | ⟨name, value, prior, hb', _, _⟩
                · exact ih _ ha' hnb'
                · exact absurd hb' (hnb _ _ _)
          generalize hbs : l.filterMap SerialArg.brk? = bs at hm hb
          generalize hms : l.filterMap SerialArg.model? = mods at hm hmods
          split at hm
          · simp at hm
          · split at hm
            · simp at hm
            · split at hm
              · simp at hm
              · split at hm
                · simp at hm
                · simp only [Except.ok.injEq] at hm
                  subst hm
                  refine ⟨by simp, ?_, ?_, (onePriorAll_iff _).2 hmods⟩
                  · intro v hv
                    obtain ⟨b, hb', rfl⟩ := List.mem_map.1 hv
                    exact (hb b hb').1
                  · rw [flatten_length_one]
                    · simp
                    · intro p hp
                      obtain ⟨b, hb', rfl⟩ := List.mem_map.1 hp
                      exact (hb b hb').2

end BL

namespace Props
open BL Spec
variable {K : Type} [Field K] [LinearOrder K]

/-- The flat lists of names, values and hyper-priors which the code builds belong, entry by entry, to the same hyper-parameter of the same sub-model.
Partial: see `Built` for the two cases left out, `C26_refuted` shows that they fail. -/
theorem C26_partial (tm : TM K) (h : Built tm) :
    tm.flatNames = (entries tm).map (·.1) ∧ tm.flatValues = (entries tm).map (·.2) ∧
      tm.flatPriors = (priorsOf tm).map (·.2) ∧ (priorsOf tm).map (·.1) = (entries tm).map (·.1) := by
  have hm := Built.matched h
  have hp := hm.proper
  obtain ⟨h1, h2⟩ := hm.priors
  exact ⟨entries_names tm hp, entries_values tm hp, h1, by rw [h2, entries_names tm hp]⟩

/-- Models built with the constructors satisfy the hypothesis of the C25 theorems. -/
theorem C26_proper (tm : TM K) (h : Built tm) : Proper tm := (Built.matched h).proper

/-- Cases in which the lists do not correspond: (1) `Deterministic` with a list of hyper-priors of the right length loses them all, so that a second
model's prior is used for the first; (2) `BivariateRandomWalk` with a list as third value lists more values than names (and the second value is
replaced by the third); (3) a Python list of probabilities counts as several hyper-priors. -/
theorem C26_refuted :
    (∃ m tm : TM ℚ, mkDeterministic (fun t v => t + v.sum) [("a", .list [1, 2])] (some "x") (.iter [.item (.arr [1 / 3, 2 / 3])]) = .ok m ∧
      mkCombined [m, mkChangePoint "t" (.list [4, 5]) (.item (.arr [1, 0]))] = .ok tm ∧
      tm.flatNames = ["a", "t"] ∧ tm.flatPriors = [.arr [1, 0]]) ∧
    (let m : TM ℚ := mkBivariate "s1" (.list [1]) "s2" (.list [2]) "rho" (.list [0, 1 / 2]) (.list [.item .none, .item .none, .item .none]);
      (m.flatNames.length = 3 ∧ m.flatValues = [.array [1], .array [0, 1 / 2], .scalar 0, .scalar (1 / 2)])) ∧
    (let m : TM ℚ := mkChangePoint "t" (.list [4, 5]) (.list [.item (.num 1), .item (.num 0)]);
      (m.flatNames.length = 1 ∧ m.flatPriors.length = 2)) := by
  refine ⟨⟨_, _, rfl, rfl, rfl, rfl⟩, ?_, ?_⟩
  · exact ⟨rfl, rfl⟩
  · exact ⟨rfl, rfl⟩

/-- the model of the example: serial model with a change-point and a combined sub-model, all with hyper-priors -/
example : ∃ tm : TM ℚ, Built tm ∧ tm.flatNames = ["s", "c", "alpha", "tc"] ∧ tm.flatPriors.length = 4 := by
  refine ⟨.serial ["tc"] [.array [2, 3]] [.item (.arr [1, 1])] [true]
    [.leaf (.grw "x") ["s"] [.scalar 1] (some (.item .none)),
     .combined [.leaf (.alphaStable "x") ["c", "alpha"] [.array [1, 2], .scalar 1] (some (.list [.item (.arr [1, 2]), .item .none]))]],
    ?_, rfl, rfl⟩
  refine .serial (args := [.leaf (.grw "x") ["s"] [.scalar 1] (some (.item .none)), mkChangePoint "tc" (.list [2, 3]) (.item (.arr [1, 1])),
    .combined [.leaf (.alphaStable "x") ["c", "alpha"] [.array [1, 2], .scalar 1] (some (.list [.item (.arr [1, 2]), .item .none]))]]) ?_ rfl
  intro a ha _
  simp only [List.mem_cons, List.not_mem_nil, or_false] at ha
  rcases ha with rfl | rfl | rfl
  · exact .grw (name := "s") (value := .val (.scalar 1)) (target := some "x") (prior := .item .none) rfl trivial rfl
  · exact .changePoint trivial rfl
  · refine .combined (ms := [.leaf (.alphaStable "x") ["c", "alpha"] [.array [1, 2], .scalar 1] (some (.list [.item (.arr [1, 2]), .item .none]))]) ?_ rfl
    intro a ha
    simp only [List.mem_cons, List.not_mem_nil, or_false] at ha
    subst ha
    exact .alphaStable (n1 := "c") (v1 := .list [1, 2]) (n2 := "alpha") (v2 := .val (.scalar 1)) (target := some "x")
      (prior := .list [.item (.arr [1, 2]), .item .none]) rfl trivial trivial rfl

end Props
