import Verif.Spec.Order
import Verif.Lemmas.OnlineLive
import Verif.Props.C41
import Verif.Props.C64
import Mathlib.Data.List.FinRange

/-! # C114: the order in which transition models are added to an online study does not matter -/

set_option linter.unusedSectionVars false

namespace Props
open BL Spec Ex

variable {K D : Type} [Field K] [LinearOrder K] [IsStrictOrderedRing K] {d : ℕ} {gs : Fin d → ℕ}

section lists
variable {α β γ : Type} {n : ℕ} {σ : Equiv.Perm (Fin n)}

theorem _root_.Spec.Reorder.perm {l l' : List α} (h : Reorder σ l l') : l'.Perm l := by
  obtain ⟨f, rfl, rfl⟩ := h
  exact σ.ofFn_comp_perm f

theorem _root_.Spec.Reorder.length {l l' : List α} (h : Reorder σ l l') : l.length = n ∧ l'.length = n := by
  obtain ⟨f, rfl, rfl⟩ := h
  simp

theorem _root_.Spec.Reorder.map {l l' : List α} (h : Reorder σ l l') (g : α → β) : Reorder σ (l.map g) (l'.map g) := by
  obtain ⟨f, rfl, rfl⟩ := h
  exact ⟨g ∘ f, by rw [List.map_ofFn], by rw [List.map_ofFn]; rfl⟩

theorem _root_.Spec.Reorder.zipWith {l l' : List α} {k k' : List β} (h : Reorder σ l l') (h' : Reorder σ k k') (g : α → β → γ) : Reorder σ (List.zipWith g l k) (List.zipWith g l' k') := by
  obtain ⟨f, rfl, rfl⟩ := h
  obtain ⟨f', rfl, rfl⟩ := h'
  exact ⟨fun i => g (f i) (f' i), zipWith_ofFn g _ _, zipWith_ofFn g _ _⟩

theorem _root_.Spec.Reorder.sum {l l' : List K} (h : Reorder σ l l') : l'.sum = l.sum := h.perm.sum_eq

theorem allSome_none : ∀ {l : List (Option α)}, none ∈ l → allSome l = none
  | none :: _, _ => rfl
  | some a :: l, h => by
      have : none ∈ l := by simpa using h
      rw [allSome, allSome_none this]; rfl

theorem _root_.Spec.Reorder.allSome {l l' : List (Option α)} (h : Reorder σ l l') : OptRel (Reorder σ) (allSome l) (allSome l') := by
  by_cases hn : none ∈ l
  · rw [allSome_none hn, allSome_none (h.perm.mem_iff.2 hn)]; trivial
  · obtain ⟨f, rfl, rfl⟩ := h
    have : ∀ i, ∃ a, f i = some a := fun i => Option.ne_none_iff_exists'.1 fun e => hn (by rw [← e]; exact List.mem_ofFn.2 ⟨i, rfl⟩)
    choose g hg using this
    have e1 : f = fun i => some (g i) := funext hg
    subst e1
    change OptRel (Reorder σ) (BL.allSome (List.ofFn fun i => some (g i))) (BL.allSome (List.ofFn fun i => some ((g ∘ σ) i)))
    rw [allSome_ofFn, allSome_ofFn]
    exact ⟨g, rfl, rfl⟩

theorem _root_.Spec.OptRel.map {a b : Option (List α)} (h : OptRel (Reorder σ) a b) (g : α → β) : OptRel (Reorder σ) (a.map fun l => l.map g) (b.map fun l => l.map g) := by
  cases a <;> cases b
  · trivial
  · exact h
  · exact h
  · exact Reorder.map h g

theorem max_perm {l l' : List K} (h : l'.Perm l) : listMax l' = listMax l := by
  unfold listMax
  cases h1 : l.max? with
  | none =>
    rw [List.max?_eq_none_iff] at h1 ⊢
    subst h1
    exact h.eq_nil
  | some M =>
    rw [List.max?_eq_some_iff] at h1 ⊢
    exact ⟨h.mem_iff.2 h1.1, fun b hb => h1.2 b (h.mem_iff.1 hb)⟩

theorem _root_.Spec.Reorder.normWeights {l l' : List K} (h : Reorder σ l l') : OptRel (Reorder σ) (normWeights l) (normWeights l') := by
  unfold BL.normWeights
  rw [max_perm h.perm]
  cases listMax l with
  | none => trivial
  | some M =>
    simp only
    split_ifs
    · trivial
    · simp only [(h.map fun x => x / M).sum]
      exact (h.map _).map _

theorem _root_.Spec.OptRel.bind_norm {a b : Option (List K)} (h : OptRel (Reorder σ) a b) : OptRel (Reorder σ) (a.bind normWeights) (b.bind normWeights) := by
  cases a <;> cases b
  · trivial
  · exact h.elim
  · exact h.elim
  · exact Reorder.normWeights h

theorem mapE_get {f : α → Except PyErr β} : ∀ {l : List α} {r : List β}, mapE f l = .ok r → List.Forall₂ (fun a b => f a = .ok b) l r
  | [], r, h => by cases h; exact .nil
  | a :: l, r, h => by
      simp only [mapE, bind, Except.bind] at h
      split at h
      · cases h
      · rename_i b hb
        split at h
        · cases h
        · rename_i r' hr'
          cases h
          exact .cons hb (mapE_get hr')

theorem mapE_of {f : α → Except PyErr β} {l : List α} {r : List β} (h : List.Forall₂ (fun a b => f a = .ok b) l r) : mapE f l = .ok r := by
  induction h with
  | nil => rfl
  | cons h _ ih => simp only [mapE, bind, Except.bind, h, ih]

theorem _root_.Spec.Reorder.mapE {l l' : List α} (h : Reorder σ l l') {f : α → Except PyErr β} {r : List β} (hr : mapE f l = .ok r) : ∃ r', mapE f l' = .ok r' ∧ Reorder σ r r' := by
  obtain ⟨g, rfl, rfl⟩ := h
  have h2 := mapE_get hr
  obtain ⟨k, rfl⟩ := eq_ofFn (l := r) (n := n) (by rw [← h2.length_eq]; simp)
  have h3 : ∀ i, f (g i) = .ok (k i) := fun i => by
    have := (List.forall₂_iff_get.1 h2).2 i (by simp) (by simp)
    simpa using this
  refine ⟨_, mapE_of (List.forall₂_iff_get.2 ⟨by simp, fun i h1 h2 => ?_⟩), k, rfl, rfl⟩
  simpa using h3 (σ ⟨i, by simpa using h1⟩)

end lists

variable {n : ℕ} {σ : Equiv.Perm (Fin n)}

theorem mixture_reorder {ps ps' : List (Arr K gs)} {ws ws' : Option (List K)} (h : Reorder σ ps ps') (hw : OptRel (Reorder σ) ws ws') : BL.mixture ps' ws' = BL.mixture ps ws := by
  have h2 := h.allSome
  unfold BL.mixture
  generalize BL.allSome ps = a at h2 ⊢
  generalize BL.allSome ps' = b at h2 ⊢
  cases a <;> cases b
  · rfl
  · exact h2.elim
  · exact h2.elim
  · cases ws <;> cases ws'
    · rfl
    · exact hw.elim
    · exact hw.elim
    · simp only
      congr 1
      funext x
      exact (Reorder.zipWith h2 hw _).sum

theorem initialise_order {c : OConf K D gs} {S T : OState K D gs} (h : SameUpToOrder σ S T) {S1 : OState K D gs} {first : Option (Arr K gs)} (h1 : S.initialise c = .ok (S1, first)) :
    ∃ T1, T.initialise c = .ok (T1, first) ∧ SameUpToOrder σ S1 T1 := by
  unfold OState.initialise at h1 ⊢
  rw [h.firstStep, h.prior]
  split_ifs at h1 ⊢ with hf
  · simp only [bind, Except.bind] at h1 ⊢
    generalize computePrior { c.E with prior := S.prior } = y at h1 ⊢
    rcases y with e | y
    · cases h1
    · cases h1
      refine ⟨_, rfl, ?_⟩
      have hm := h.models
      refine { h with models := hm.map _, tmPrior := ?_, prior := rfl, firstStep := rfl }
      have ht := h.tmPrior
      change Reorder σ (match S.tmPrior with | some p => p | none => S.models.map fun _ => 1 / (S.models.length : K)) (match T.tmPrior with | some p => p | none => T.models.map fun _ => 1 / (T.models.length : K))
      generalize S.tmPrior = a at ht ⊢
      generalize T.tmPrior = b at ht ⊢
      cases a <;> cases b
      · simp only [hm.length.1, hm.length.2]
        exact hm.map _
      · exact ht.elim
      · exact ht.elim
      · exact ht
  · cases h1
    exact ⟨T, rfl, h⟩

theorem combine_order {S T : OState K D gs} (h : SameUpToOrder σ S T) {ps ps' : List K} (hp : Reorder σ ps ps') {ms ms' : List (OModelSt K gs)} (hm : Reorder σ ms ms') :
    SameUpToOrder σ (S.combine ps ms) (T.combine ps' ms') := by
  have hw : OptRel (Reorder σ) ((allSome (ms.map OModelSt.hyperEv)).map fun l => l.map LogV.exp) ((allSome (ms'.map OModelSt.hyperEv)).map fun l => l.map LogV.exp) := (hm.map _).allSome.map _
  have ht := hw.bind_norm
  refine { h with marg := mixture_reorder (hm.map _) ht, logEv := ?_, models := hm, tmd := ht, ltmd := ?_, firstStep := rfl }
  · change Option.map (fun l => (⟨(List.zipWith (· * ·) l ps').sum⟩ : LogV K)) ((allSome (ms'.map OModelSt.hyperEv)).map fun l => l.map LogV.exp) =
      Option.map (fun l => (⟨(List.zipWith (· * ·) l ps).sum⟩ : LogV K)) ((allSome (ms.map OModelSt.hyperEv)).map fun l => l.map LogV.exp)
    generalize ((allSome (ms.map OModelSt.hyperEv)).map fun l => l.map LogV.exp) = a at hw ⊢
    generalize ((allSome (ms'.map OModelSt.hyperEv)).map fun l => l.map LogV.exp) = b at hw ⊢
    cases a <;> cases b
    · rfl
    · exact hw.elim
    · exact hw.elim
    · simp only [Option.map_some]
      rw [(Reorder.zipWith hw hp _).sum]
  · exact ((h.models.zipWith hm Prod.mk).zipWith hp _).allSome.bind_norm

theorem analyse_order {c : OConf K D gs} {S T S' : OState K D gs} (h : SameUpToOrder σ S T) {L : Idx gs → K} (h1 : S.analyse c L = .ok S') :
    ∃ T', T.analyse c L = .ok T' ∧ SameUpToOrder σ S' T' := by
  obtain ⟨S1, first, Ms, i1, i2, i3, rfl⟩ := analyse_ok h1
  obtain ⟨T1, j1, j2⟩ := initialise_order h i1
  obtain ⟨Ms', k1, k2⟩ := j2.models.mapE i3
  have hp : Reorder σ (S1.tmPrior.getD []) (T1.tmPrior.getD []) := by
    have ht := j2.tmPrior
    have hn := j2.models.length.1
    generalize S1.tmPrior = a at ht i2 ⊢
    generalize T1.tmPrior = b at ht ⊢
    cases a <;> cases b
    · have : n = 0 := by
        rw [← hn]; simpa using i2
      subst this
      exact ⟨Fin.elim0, by simp, by simp⟩
    · exact ht.elim
    · exact ht.elim
    · exact ht
  refine ⟨_, analyse_of j1 (by rw [j2.models.length.2, hp.length.2]) (by rw [j2.prior]; exact k1), combine_order j2 hp k2⟩

theorem record_order {c : OConf K D gs} {S T S' : OState K D gs} (h : SameUpToOrder σ S T) (h1 : S.record c = (S', none)) : ∃ T', T.record c = (T', none) ∧ SameUpToOrder σ S' T' := by
  unfold OState.record at h1 ⊢
  rw [h.store, h.means, h.posts, h.marg]
  split_ifs at h1 ⊢ with hs
  · simp only at h1 ⊢
    generalize S.posts.append S.marg = y at h1 ⊢
    rcases y with e | y
    · cases h1
    · cases h1
      refine ⟨_, rfl, ?_⟩
      exact { h with store := rfl, marg := rfl, means := rfl, posts := rfl, hpds := List.rel_append h.hpds (.cons (h.models.map _) .nil), tmds := List.rel_append h.tmds (.cons h.tmd .nil), ltmds := List.rel_append h.ltmds (.cons h.ltmd .nil) }
  · cases h1
    exact ⟨T, rfl, h⟩

theorem proceed_order {c : OConf K D gs} {S T S' : OState K D gs} (h : SameUpToOrder σ S T) (h1 : S.proceed c = (S', none)) : ∃ T', T.proceed c = (T', none) ∧ SameUpToOrder σ S' T' := by
  rcases proceed_ok h1 with ⟨p1, rfl⟩ | ⟨p1, f, t, f', S2, p2, p3, p4, p5, p6⟩
  · exact ⟨T, by unfold OState.proceed; rw [if_pos (by rw [h.rawData]; exact p1)], h⟩
  · have h2 : SameUpToOrder σ ({ S with fts := some f' } : OState K D gs) { T with fts := some f' } := { h with fts := rfl }
    obtain ⟨T2, t1, t2⟩ := analyse_order h2 p5
    obtain ⟨T3, t3, t4⟩ := record_order t2 p6
    refine ⟨T3, ?_, t4⟩
    unfold OState.proceed
    have e1 : T.fts = some f := by rw [h.fts, p2]
    have e2 : T.rawTs.bind List.getLast? = some t := by rw [h.rawTs, p3]
    rw [← h.rawData] at t1
    rw [if_neg (by rw [h.rawData]; omega)]
    simp only [e1, e2, p4, t1]
    exact t3

/-- what happens with the next time stamps -/
def later (c : OConf K D gs) (S : OState K D gs) (x : D) : Option (List K) → OState K D gs × Option PyErr
  | none => ({ S with rawData := S.rawData ++ [x] }, some .typeError)
  | some ts => ({ S with rawData := S.rawData ++ [x], rawTs := some ts } : OState K D gs).proceed c

theorem stepAdded_later {c : OConf K D gs} {S : OState K D gs} {x : D} (h : ¬ S.rawData.length = 0) :
    S.stepAdded (some c) x = later c S x (S.rawTs.bind fun l => l.getLast?.map fun t => l ++ [t + 1]) := by
  unfold OState.stepAdded
  rw [if_neg h]
  dsimp only
  unfold later
  split <;> rename_i hy <;> simp only [hy]

theorem step_order {c : OConf K D gs} (hn : 0 < n) {S T S' : OState K D gs} {x : D} (h : SameUpToOrder σ S T) (h1 : S.step (some c) x = (S', none)) :
    ∃ T', T.step (some c) x = (T', none) ∧ SameUpToOrder σ S' T' := by
  have hl := h.models.length
  have e1 : S.models ≠ [] := by intro h0; rw [h0] at hl; simp at hl; omega
  have e2 : T.models ≠ [] := by intro h0; rw [h0] at hl; simp at hl; omega
  rw [step_eq e1] at h1
  rw [step_eq e2]
  have e3 : (T.models.flatMap fun m => m.grid.names).Nodup ↔ (S.models.flatMap fun m => m.grid.names).Nodup := (h.models.perm.flatMap_right _).nodup_iff
  by_cases g1 : S.rawData.length = 0
  · have g2 : T.rawData.length = 0 := by rw [h.rawData, g1]
    unfold OState.stepAdded at h1 ⊢
    rw [if_pos g1] at h1
    rw [if_pos g2]
    simp only [e3]
    by_cases g3 : (S.models.flatMap fun m => m.grid.names).Nodup
    swap
    · rw [if_pos g3] at h1
      cases h1
    rw [if_neg (not_not.2 g3)] at h1 ⊢
    have h2 : SameUpToOrder σ ({ S with rawData := [x], rawTs := some [0], fts := some (.list []) } : OState K D gs) { T with rawData := [x], rawTs := some [0], fts := some (.list []) } :=
      { h with rawData := rfl, rawTs := rfl, fts := rfl }
    exact proceed_order h2 h1
  · have g2 : ¬ T.rawData.length = 0 := by rw [h.rawData]; exact g1
    rw [stepAdded_later g1] at h1
    rw [stepAdded_later g2, h.rawTs]
    generalize (S.rawTs.bind fun l => l.getLast?.map fun t => l ++ [t + 1]) = y at h1 ⊢
    cases y with
    | none => cases h1
    | some y =>
      have h2 : SameUpToOrder σ ({ S with rawData := S.rawData ++ [x], rawTs := some y } : OState K D gs) { T with rawData := T.rawData ++ [x], rawTs := some y } := { h with rawData := by rw [h.rawData], rawTs := rfl }
      exact proceed_order h2 h1

theorem run_order {c : OConf K D gs} (hn : 0 < n) : ∀ (xs : List D) {S T S' : OState K D gs}, SameUpToOrder σ S T → runSteps c S xs = .ok S' → ∃ T', runSteps c T xs = .ok T' ∧ SameUpToOrder σ S' T'
  | [], S, T, S', h, h1 => by cases h1; exact ⟨T, rfl, h⟩
  | x :: xs, S, T, S', h, h1 => by
      rw [runSteps] at h1 ⊢
      split at h1
      · cases h1
      · rename_i S1 hS1
        obtain ⟨T1, t1, t2⟩ := step_order hn h hS1
        rw [t1]
        exact run_order hn xs t2 h1

/-- models refused by `setTransitionModel` -/
def isBreak : TM K → Bool
  | .leaf .breakPoint _ _ _ => true
  | _ => false

theorem setTM_break {S : OState K D gs} {tm : TM K} : S.setTM tm = if isBreak tm then (S, some .configuration) else ({ S with current := some tm }, none) := by
  unfold OState.setTM
  split
  · rfl
  · rename_i h
    have : isBreak tm = false := by
      unfold isBreak
      split
      · exact absurd rfl (h _ _ _)
      · rfl
    rw [this]
    rfl

/-- the value `'all'` -/
def isAll : HVal K → Bool
  | .all => true
  | _ => false

/-- the record of a model that has been added -/
def added (q : String × TM K) : Except PyErr (OModelSt K gs) :=
  if isBreak q.2 then .error .configuration
  else if q.2.flatValues.any isAll then .error .typeError
  else match createHyperGrid q.2 [] with
    | .error e => .error e
    | .ok g => .ok ⟨q.1, q.2, g, [], none, none, none⟩

theorem add_eq {S : OState K D gs} {name : String} {tm : TM K} (hr : S.rawTs = none) (hf : S.fts = none) : S.add name tm =
    if isBreak tm then (S, some .configuration)
    else if tm.flatValues.any isAll then ({ S with current := some tm }, some .typeError)
    else match createHyperGrid tm [] with
      | .error e => ({ S with current := some tm }, some e)
      | .ok g => ({ S with current := some tm, models := S.models ++ [⟨name, tm, g, [], none, none, none⟩] }, none) := by
  have e : (tm.flatValues.any fun v => match v with | .all => true | _ => false) = tm.flatValues.any isAll := rfl
  unfold OState.add
  rw [setTM_break]
  by_cases h1 : isBreak tm = true
  · rw [if_pos h1, if_pos h1]
  · rw [if_neg h1, if_neg h1]
    dsimp only
    rw [hr, hf]
    rfl

theorem add_added {S : OState K D gs} {q : String × TM K} (hr : S.rawTs = none) (hf : S.fts = none) {S' : OState K D gs} :
    S.add q.1 q.2 = (S', none) ↔ ∃ m, added q = .ok m ∧ S' = { S with current := some q.2, models := S.models ++ [m] } := by
  obtain ⟨name, tm⟩ := q
  rw [add_eq hr hf]
  unfold added
  split_ifs with h1 h2
  · simp
  · simp
  · simp only
    generalize createHyperGrid tm [] = y
    rcases y with e | y
    · simp
    · simp [eq_comm]

theorem addAll_added : ∀ (ms : List (String × TM K)) (S : OState K D gs), S.rawTs = none → S.fts = none → ∀ {Ms : List (OModelSt K gs)}, mapE added ms = .ok Ms → ∃ cur, addAll S ms = .ok { S with models := S.models ++ Ms, current := cur }
  | [], S, _, _, Ms, h => by cases h; exact ⟨S.current, by simp [addAll]⟩
  | q :: ms, S, hr, hf, Ms, h => by
      simp only [mapE, bind, Except.bind] at h
      split at h
      · cases h
      · rename_i m hm
        split at h
        · cases h
        · rename_i Ms' hMs
          cases h
          have h1 := (add_added (S := S) hr hf).2 ⟨m, hm, rfl⟩
          obtain ⟨cur, h2⟩ := addAll_added ms { S with current := some q.2, models := S.models ++ [m] } hr hf hMs
          refine ⟨cur, ?_⟩
          rw [addAll, h1]
          simp only [h2]
          simp

theorem added_addAll : ∀ (ms : List (String × TM K)) (S : OState K D gs), S.rawTs = none → S.fts = none → ∀ {S' : OState K D gs}, addAll S ms = .ok S' → ∃ Ms cur, mapE added ms = .ok Ms ∧ S' = { S with models := S.models ++ Ms, current := cur }
  | [], S, _, _, S', h => by cases h; exact ⟨[], S.current, rfl, by simp⟩
  | q :: ms, S, hr, hf, S', h => by
      rw [addAll] at h
      split at h
      · cases h
      · rename_i S1 hS1
        obtain ⟨m, hm, rfl⟩ := (add_added hr hf).1 hS1
        obtain ⟨Ms, cur, h1, rfl⟩ := added_addAll ms { S with current := some q.2, models := S.models ++ [m] } hr hf h
        refine ⟨m :: Ms, cur, ?_, by simp⟩
        simp only [mapE, bind, Except.bind, hm, h1]

theorem setTMPrior_order {S T S' : OState K D gs} (h : SameUpToOrder σ S T) {p p' : List K} (hp : Reorder σ p p') (h1 : S.setTMPrior p = (S', none)) :
    ∃ T', T.setTMPrior p' = (T', none) ∧ SameUpToOrder σ S' T' := by
  unfold OState.setTMPrior at h1 ⊢
  rw [if_neg (by rw [hp.length.1, h.models.length.1]; simp)] at h1
  rw [if_neg (by rw [hp.length.2, h.models.length.2]; simp), hp.sum]
  split_ifs at h1 ⊢
  · cases h1
    exact ⟨_, rfl, { h with tmPrior := hp }⟩
  · cases h1
    exact ⟨_, rfl, { h with tmPrior := trivial }⟩
  · cases h1
    exact ⟨_, rfl, { h with tmPrior := hp.map _ }⟩

theorem setup_order (σ : Equiv.Perm (Fin n)) {store : Bool} {prior : PriorSpec K gs} {ms : Fin n → String × TM K} {p : Option (Fin n → K)} {S : OState K D gs} (h : setup store prior (List.ofFn ms) (p.map List.ofFn) = .ok S) :
    ∃ T, setup store prior (List.ofFn (ms ∘ σ)) (p.map fun p => List.ofFn (p ∘ σ)) = .ok T ∧ SameUpToOrder σ S T := by
  unfold setup at h ⊢
  split at h
  · cases h
  · rename_i S1 hS1
    obtain ⟨Ms, cur, h1, rfl⟩ := added_addAll _ _ rfl rfl hS1
    obtain ⟨Ms', h2, h3⟩ := Reorder.mapE (σ := σ) ⟨ms, rfl, rfl⟩ h1
    obtain ⟨cur', h4⟩ := addAll_added (D := D) _ (OState.new store prior) rfl rfl h2
    rw [h4]
    have h3' : Reorder σ ([] ++ Ms) ([] ++ Ms') := h3
    have h5 : SameUpToOrder σ ({ OState.new store prior with models := [] ++ Ms, current := cur } : OState K D gs) { OState.new store prior with models := [] ++ Ms', current := cur' } :=
      ⟨rfl, rfl, rfl, rfl, h3', trivial, trivial, trivial, .nil, .nil, .nil, rfl, rfl, rfl, rfl, rfl, rfl⟩
    cases p with
    | none =>
      cases h
      exact ⟨_, rfl, h5⟩
    | some p =>
      simp only [Option.map_some] at h ⊢
      split at h
      · cases h
      · rename_i S' hS'
        cases h
        obtain ⟨T', t1, t2⟩ := setTMPrior_order h5 ⟨p, rfl, rfl⟩ hS'
        exact ⟨T', by erw [t1], t2⟩

/-- **C114**.  The order in which the transition models are added to an online study does not matter: if the study runs without exception for the models `ms 0, ms 1, …` (with prior probabilities `p 0, p 1, …`, if given), it
also runs without exception for any other order of the models (and of the prior probabilities), and all its results agree. -/
theorem C114 (hn : 0 < n) (σ : Equiv.Perm (Fin n)) (c : OConf K D gs) (store : Bool) (prior : PriorSpec K gs) (ms : Fin n → String × TM K) (p : Option (Fin n → K)) (xs : List D) {S0 S : OState K D gs}
    (h0 : setup store prior (List.ofFn ms) (p.map List.ofFn) = .ok S0) (h : runSteps c S0 xs = .ok S) :
    ∃ T0 T, setup store prior (List.ofFn (ms ∘ σ)) (p.map fun p => List.ofFn (p ∘ σ)) = .ok T0 ∧ runSteps c T0 xs = .ok T ∧ SameUpToOrder σ S T := by
  obtain ⟨T0, t1, t2⟩ := setup_order σ h0
  obtain ⟨T, t3, t4⟩ := run_order hn xs t2 h
  exact ⟨T0, T, t1, t3, t4⟩

theorem _root_.Spec.Reorder.get {α : Type} {l l' : List α} (h : Reorder σ l l') (i : Fin n) : l'[(i : ℕ)]? = l[(σ i : ℕ)]? := by
  obtain ⟨f, rfl, rfl⟩ := h
  simp

/-- the number of a transition model in the other study -/
theorem nameIndex_order {l l' : List String} (h : Reorder σ l l') (hd : l.Nodup) (name : String) : (∃ e, nameIndex l name = .error e ∧ nameIndex l' name = .error e) ∨
    ∃ i : Fin n, nameIndex l name = .ok (σ i : ℕ) ∧ nameIndex l' name = .ok (i : ℕ) := by
  unfold nameIndex
  by_cases hm : name ∈ l
  · right
    have hm' : name ∈ l' := h.perm.mem_iff.2 hm
    have hd' : l'.Nodup := h.perm.nodup_iff.2 hd
    have hl := List.idxOf_lt_length_of_mem hm'
    let i : Fin n := ⟨l'.idxOf name, by rw [h.length.2] at hl; exact hl⟩
    have hs : (σ i : ℕ) < l.length := by rw [h.length.1]; exact (σ i).2
    have hg := h.get i
    rw [List.getElem?_eq_getElem hl, List.getElem?_eq_getElem hs, List.getElem_idxOf hl] at hg
    refine ⟨i, ?_, by rw [if_pos hm']⟩
    rw [if_pos hm]
    have : name = l[(σ i : ℕ)] := by simpa using hg
    rw [this, hd.idxOf_getElem]
  · left
    exact ⟨_, by rw [if_neg hm], by rw [if_neg (fun h' => hm (h.perm.mem_iff.1 h'))]⟩

theorem findHyper_order {l l' : List (OModelSt K gs)} (h : Reorder σ l l') (name : String)
    (hu : ∀ (i j : ℕ) (m m' : OModelSt K gs) (a a' : ℕ), l[i]? = some m → l[j]? = some m' → m.tm.hyperIndex name = .ok a → m'.tm.hyperIndex name = .ok a' → i = j) :
    (findHyper l name = none ∧ findHyper l' name = none) ∨ ∃ (i : Fin n) (a : ℕ), findHyper l name = some ((σ i : ℕ), a) ∧ findHyper l' name = some ((i : ℕ), a) := by
  have key : ∀ (i : Fin n) (a : ℕ) m, l[(σ i : ℕ)]? = some m → m.tm.hyperIndex name = .ok a → findHyper l name = some ((σ i : ℕ), a) ∧ findHyper l' name = some ((i : ℕ), a) := fun i a m hm ha => by
    refine ⟨findHyper_some hm ha fun j m' hj hm' => ?_, findHyper_some (by rw [h.get]; exact hm) ha fun j m' hj hm' => ?_⟩
    · cases hx : m'.tm.hyperIndex name with
      | error e => exact ⟨e, rfl⟩
      | ok a' => exact absurd (hu _ _ _ _ _ _ hm' hm hx ha) hj
    · cases hx : m'.tm.hyperIndex name with
      | error e => exact ⟨e, rfl⟩
      | ok a' =>
        have hjn : j < n := by
          rw [← h.length.2]
          by_contra hc
          rw [List.getElem?_eq_none (by omega)] at hm'
          cases hm'
        have e1 := h.get ⟨j, hjn⟩
        simp only at e1
        rw [hm'] at e1
        have := hu _ _ _ _ _ _ e1.symm hm hx ha
        exact absurd (congrArg Fin.val (σ.injective (Fin.ext this))) hj
  cases h1 : findHyper l name with
  | some q =>
    right
    obtain ⟨i, a⟩ := q
    obtain ⟨m, hm, ha⟩ := findHyper_found h1
    have hin : i < n := by
      rw [← h.length.1]
      by_contra hc
      rw [List.getElem?_eq_none (by omega)] at hm
      cases hm
    have := key (σ.symm ⟨i, hin⟩) a m (by simpa using hm) ha
    refine ⟨σ.symm ⟨i, hin⟩, a, by simp, this.2⟩
  | none =>
    left
    refine ⟨rfl, ?_⟩
    cases h2 : findHyper l' name with
    | none => rfl
    | some q =>
      obtain ⟨i, a⟩ := q
      obtain ⟨m, hm, ha⟩ := findHyper_found h2
      have hin : i < n := by
        rw [← h.length.2]
        by_contra hc
        rw [List.getElem?_eq_none (by omega)] at hm
        cases hm
      have := key ⟨i, hin⟩ a m (by rw [← h.get]; exact hm) ha
      rw [this.1] at h1
      cases h1

theorem mapE_congr₂ {α β : Type} {f g : α → Except PyErr β} {R : α → α → Prop} {l l' : List α} (h : List.Forall₂ R l l') (hfg : ∀ x y, R x y → g y = f x) : mapE g l' = mapE f l := by
  induction h with
  | nil => rfl
  | cons h1 _ ih => simp only [mapE, hfg _ _ h1, ih]

/-- **C114**, queries for parameters: the answers do not depend on the order of the transition models. -/
theorem C114_parameters {S T : OState K D gs} (h : SameUpToOrder σ S T) (c : OConf K D gs) (name : String) (t : TimeArg K) (k : ℕ) (density : Bool) :
    (T.getParameterDistribution c t name density).2 = (S.getParameterDistribution c t name density).2 ∧ (T.getParameterDistributions c name density).2 = (S.getParameterDistributions c name density).2 ∧
      T.getCurrentParameterDistribution c name density = S.getCurrentParameterDistribution c name density ∧ T.getCurrentMean c name = S.getCurrentMean c name ∧ T.getMean c k name = S.getMean c k name ∧
      T.getMeans c name = S.getMeans c name := by
  have e : T.fitted c = S.fitted c := by unfold OState.fitted; rw [h.fts, h.posts]
  refine ⟨?_, ?_, ?_, ?_, ?_, ?_⟩
  · unfold OState.getParameterDistribution
    rw [h.store, e]
    split_ifs
    · rfl
    · split <;> rfl
  · unfold OState.getParameterDistributions
    rw [h.store, e]
    split_ifs
    · rfl
    · split <;> rfl
  · unfold OState.getCurrentParameterDistribution; rw [h.marg]
  · unfold OState.getCurrentMean; rw [h.marg]
  · unfold OState.getMean; rw [h.store, h.fts, h.posts]
  · unfold OState.getMeans; rw [h.store, h.means]

/-- **C114**, queries for the probabilities of transition models: for models with different names the answers do not depend on the order. -/
theorem C114_models {S T : OState K D gs} (h : SameUpToOrder σ S T) (hd : (S.models.map OModelSt.name).Nodup) (name : String) (loc : Bool) :
    T.getCurrentTMP name loc = S.getCurrentTMP name loc ∧ T.getTMPs name loc = S.getTMPs name loc := by
  have hN := nameIndex_order (h.models.map OModelSt.name) hd name
  constructor
  · unfold OState.getCurrentTMP
    rcases hN with ⟨e, e1, e2⟩ | ⟨i, e1, e2⟩
    · rw [e1, e2]; rfl
    · simp only [e1, e2, bind, Except.bind, h.firstStep]
      have hl : OptRel (Reorder σ) (if loc = true then S.ltmd else S.tmd) (if loc = true then T.ltmd else T.tmd) := by
        split_ifs
        · exact h.ltmd
        · exact h.tmd
      generalize (if loc = true then S.ltmd else S.tmd) = a at hl ⊢
      generalize (if loc = true then T.ltmd else T.tmd) = b at hl ⊢
      split_ifs
      · rfl
      · cases a <;> cases b
        · rfl
        · exact hl.elim
        · exact hl.elim
        · simp only [Reorder.get hl]
  · have hl : List.Forall₂ (OptRel (Reorder σ)) (if loc = true then S.ltmds else S.tmds) (if loc = true then T.ltmds else T.tmds) := by
      split_ifs
      · exact h.ltmds
      · exact h.tmds
    unfold OState.getTMPs
    rw [h.store]
    by_cases hs : S.store = false
    · rw [if_pos hs, if_pos hs]
    · rw [if_neg hs, if_neg hs]
      rcases hN with ⟨e, e1, e2⟩ | ⟨i, e1, e2⟩
      · rw [e1, e2]; rfl
      · simp only [e1, e2, bind, Except.bind]
        generalize (if loc = true then S.ltmds else S.tmds) = a at hl ⊢
        generalize (if loc = true then T.ltmds else T.tmds) = b at hl ⊢
        rw [hl.length_eq]
        split_ifs
        · rfl
        · exact mapE_congr₂ hl fun x y hxy => by
            cases x <;> cases y
            · rfl
            · exact hxy.elim
            · exact hxy.elim
            · simp only [Reorder.get hxy]

theorem hpdAt_order {S T : OState K D gs} (h : SameUpToOrder σ S T) (k : ℕ) (i : Fin n) : hpdAt T k i = hpdAt S k (σ i) := by
  unfold hpdAt
  have hl := h.hpds
  cases h1 : S.hpds[k]? with
  | none =>
    rw [List.getElem?_eq_none (by rw [← hl.length_eq]; exact List.getElem?_eq_none_iff.1 h1)]
  | some r =>
    obtain ⟨hk, rfl⟩ := List.getElem?_eq_some_iff.1 h1
    have hk' : k < T.hpds.length := by rw [← hl.length_eq]; exact hk
    rw [List.getElem?_eq_getElem hk']
    have h2 : Reorder σ (S.hpds[k]) (T.hpds[k]) := by
      have := (List.forall₂_iff_get.1 hl).2 k hk hk'
      simpa using this
    simp only [h2.get]

/-- **C114**, queries for hyper-parameters: the answers do not depend on the order of the transition models. -/
theorem C114_hyper {S T : OState K D gs} (h : SameUpToOrder σ S T) (t : K) (name : String) (hu : OneModel S name) :
    T.getHyperMean t name = S.getHyperMean t name ∧ T.getHyperMeans name = S.getHyperMeans name ∧ T.getHPD t name = S.getHPD t name ∧ (T.getCurrentHPD name).2 = (S.getCurrentHPD name).2 := by
  have hF := findHyper_order h.models name hu
  refine ⟨?_, ?_, ?_, ?_⟩
  · unfold OState.getHyperMean
    rw [h.store, h.fts]
    rcases hF with ⟨e1, e2⟩ | ⟨i, a, e1, e2⟩
    · rw [e1, e2]
    · simp only [e1, e2, h.models.get, hpdAt_order h]
  · unfold OState.getHyperMeans
    rw [h.store, h.hpds.length_eq]
    rcases hF with ⟨e1, e2⟩ | ⟨i, a, e1, e2⟩
    · rw [e1, e2]
    · simp only [e1, e2, h.models.get, hpdAt_order h]
  · unfold OState.getHPD
    rw [h.store, h.fts]
    rcases hF with ⟨e1, e2⟩ | ⟨i, a, e1, e2⟩
    · rw [e1, e2]
    · simp only [e1, e2, h.models.get, hpdAt_order h]
  · unfold OState.getCurrentHPD
    rcases hF with ⟨e1, e2⟩ | ⟨i, a, e1, e2⟩
    · rw [e1, e2]
    · simp only [e1, e2, h.models.get, h.firstStep]
      split
      · rfl
      · rename_i m x _
        split_ifs <;> first | rfl | (split <;> first | rfl | (split <;> rfl))

namespace Ex
/-- two models and their prior probabilities -/
def ordModels : Fin 2 → String × TM ℚ := ![("s", mkStatic), ("g", ogrw [0, 1 / 2])]
/-- prior probabilities -/
def ordPrior : Fin 2 → ℚ := ![1 / 4, 3 / 4]
/-- exactly two models with the names "s" and "g", of which only the second has the hyper-parameter; the probabilities of the models differ -/
def ordTest (S : OState ℚ (ℚ × ℚ) gs2) : Bool :=
  match S.models with
  | [m, m'] => decide (m.name = "s" ∧ m'.name = "g") && (match m.tm.hyperIndex "sigma" with | .error _ => true | .ok _ => false) && decide (S.tmd.bind (·[0]?) ≠ S.tmd.bind (·[1]?))
  | _ => false
end Ex
open Ex

/-- two models in both orders, with different prior probabilities: the hypotheses of all four theorems are met, and the probabilities of the models really change their places -/
example : ∃ S0 S : OState ℚ (ℚ × ℚ) gs2, setup true .none (List.ofFn ordModels) ((some ordPrior).map List.ofFn) = .ok S0 ∧ runSteps oc S0 [(1 / 4, 3 / 4), (1 / 2, 1 / 4)] = .ok S ∧
    (S.models.map OModelSt.name).Nodup ∧ OneModel S "sigma" ∧ S.tmd.bind (·[0]?) ≠ S.tmd.bind (·[1]?) ∧
    ∃ T0 T : OState ℚ (ℚ × ℚ) gs2, setup true .none (List.ofFn (ordModels ∘ Equiv.swap (0 : Fin 2) 1)) ((some ordPrior).map fun p => List.ofFn (p ∘ Equiv.swap (0 : Fin 2) 1)) = .ok T0 ∧
      runSteps oc T0 [(1 / 4, 3 / 4), (1 / 2, 1 / 4)] = .ok T ∧ SameUpToOrder (Equiv.swap (0 : Fin 2) 1) S T := by
  have h1 : holds (orun true .none (List.ofFn ordModels) ((some ordPrior).map List.ofFn) [(1 / 4, 3 / 4), (1 / 2, 1 / 4)]) ordTest = true := by decide +kernel
  obtain ⟨S, a1, a2⟩ := holds_iff.1 h1
  obtain ⟨S0, b1, b2⟩ := orun_ok a1
  unfold ordTest at a2
  split at a2
  · rename_i m m' hm
    simp only [Bool.and_eq_true, decide_eq_true_eq] at a2
    obtain ⟨⟨⟨a3, a4⟩, a5⟩, a6⟩ := a2
    refine ⟨S0, S, b1, b2, ?_, ?_, a6, C114 Nat.zero_lt_two _ oc true .none ordModels (some ordPrior) _ b1 b2⟩
    · rw [hm]
      simp [a3, a4]
    · intro i j q q' a a' hi hj ha ha'
      rw [hm] at hi hj
      have e : ∀ (k : ℕ) (q : OModelSt ℚ gs2) (a : ℕ), [m, m'][k]? = some q → q.tm.hyperIndex "sigma" = .ok a → k = 1
        | 0, q, a, h, h' => by
            have : m = q := by simpa using h
            subst this
            rw [h'] at a5
            cases a5
        | 1, _, _, _, _ => rfl
        | k + 2, q, a, h, h' => by simp at h
      rw [e i q a hi ha, e j q' a' hj ha']
  · cases a2

end Props
