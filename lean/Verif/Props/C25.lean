import Verif.Lemmas.HyperParams
import Verif.Props.Ex

/-!
# C25: setting hyper-parameters writes exactly the named values; C26: names, values and priors are listed in the same order

`Spec.entries tm` are the hyper-parameters with their names; `Spec.withValues g tm` is the same transition model with every value `v` of a
hyper-parameter named `n` replaced by `g n v`.
-/

set_option linter.unusedSectionVars false

namespace Props
open BL Spec
variable {K : Type} [Field K] [LinearOrder K]

/-- Setting all values: every hyper-parameter gets the value at the position of its name in the flat list of names; nothing else changes and
reading the values back gives the assigned list.  Partial: the name `' '` must not be used (see `C25_refuted`). -/
theorem C25_all_partial (tm : TM K) (xs : List (HVal K)) (hp : Proper tm) (hnd : ((entries tm).map (·.1)).Nodup)
    (hsp : " " ∉ (entries tm).map (·.1)) (hl : xs.length = (entries tm).length) (hx : ∀ x ∈ xs, Plain x) :
    ∃ tm', tm.setAll xs = .ok tm' ∧ tm' = withValues (assigned ((entries tm).map (·.1)) xs) tm ∧
      entries tm' = ((entries tm).map (·.1)).zip xs ∧ tm'.flatValues = xs ∧ tm'.flatNames = tm.flatNames := by
  have hn := entries_names tm hp
  have hloop := setLoop_ok (K := K) false tm.nameTree tm.flatNames xs tm id (by rw [hn]; exact hnd)
    (by rw [hn]; rintro n h rfl; exact hsp h) (by rw [hn, List.length_map]; exact hl) hp rfl
    (by change tm.flatNames.Nodup; rw [hn]; exact hnd) (fun n hn => hn) hx (fun n _ a => Iff.rfl)
  rw [mapN_id id _ (fun a _ => rfl)] at hloop
  refine ⟨_, hloop, by rw [hn], ?_⟩
  have hent : entries (withValues (assigned tm.flatNames xs) tm) = ((entries tm).map (·.1)).zip xs := by
    rw [entries_withValues, hn]
    -- a list of distinct names
    have key : ∀ (es : List (String × HVal K)) (xs : List (HVal K)), (es.map (·.1)).Nodup → xs.length = es.length →
        (es.map fun e => (e.1, assigned (es.map (·.1)) xs e.1 e.2)) = (es.map (·.1)).zip xs := by
      intro es
      induction es with
      | nil => intro xs _ _; rfl
      | cons e es ih =>
          intro xs hnd hl
          cases xs with
          | nil => simp at hl
          | cons x xs =>
              rw [List.map_cons, List.nodup_cons] at hnd
              rw [List.map_cons, List.map_cons, List.zip_cons_cons]
              congr 1
              · rw [← assigned_cons _ _ _ _ _ _ hnd.1]
                simp only [↓reduceIte]
                unfold assigned
                have : ((es.map (·.1)).zip xs).find? (fun p => p.1 = e.1) = none := by
                  rw [List.find?_eq_none]
                  intro p hp
                  simp only [decide_eq_true_eq]
                  intro h
                  exact hnd.1 (h ▸ (List.of_mem_zip hp).1)
                rw [this]
              · rw [← ih xs hnd.2 (by simpa using hl)]
                apply List.map_congr_left
                intro a ha
                rw [← assigned_cons _ _ _ _ _ _ hnd.1, if_neg]
                rintro h
                exact hnd.1 (h ▸ List.mem_map_of_mem ha)
    exact key _ xs hnd hl
  have hp' : Proper (withValues (assigned tm.flatNames xs) tm) := by
    refine proper_withValues _ ?_ tm hp
    intro n v hv
    unfold assigned
    split
    · rename_i p hpp; exact hx _ (List.of_mem_zip (List.mem_of_find?_eq_some hpp)).2
    · exact hv
  refine ⟨hent, ?_, ?_⟩
  · rw [entries_values _ hp', hent, List.map_snd_zip (by rw [List.length_map, hl])]
  · rw [entries_names _ hp', hent, List.map_fst_zip (by rw [List.length_map, hl]), ← hn]

/-- Setting selected hyper-parameters changes exactly these. -/
theorem C25_selected_partial (tm : TM K) (sel : List String) (xs : List (HVal K)) (hp : Proper tm)
    (hnd : ((entries tm).map (·.1)).Nodup) (hsel : sel.Nodup) (hne : sel ≠ []) (hsp : " " ∉ sel)
    (hin : ∀ n ∈ sel, n ∈ (entries tm).map (·.1)) (hl : xs.length = sel.length) (hx : ∀ x ∈ xs, Plain x) :
    ∃ tm', tm.setSelected sel xs = .ok tm' ∧ tm' = withValues (assigned sel xs) tm ∧
      (∀ p ∈ sel.zip xs, p ∈ entries tm') ∧ ∀ n v, n ∉ sel → ((n, v) ∈ entries tm' ↔ (n, v) ∈ entries tm) := by
  have hn := entries_names tm hp
  have hloop := setLoop_ok (K := K) true tm.nameTree sel xs tm id hsel
    (by rintro n h rfl; exact hsp h) hl hp rfl
    (by change tm.flatNames.Nodup; rw [hn]; exact hnd) (by change ∀ n ∈ sel, n ∈ tm.flatNames; rw [hn]; exact hin) hx (fun n _ a => Iff.rfl)
  rw [mapN_id id _ (fun a _ => rfl)] at hloop
  refine ⟨_, by rw [TM.setSelected, if_neg hne]; exact hloop, rfl, ?_, ?_⟩
  · rintro ⟨n, x⟩ hpx
    rw [entries_withValues]
    obtain ⟨e, he, hen⟩ := List.mem_map.1 (hin n (List.of_mem_zip hpx).1)
    refine List.mem_map.2 ⟨e, he, ?_⟩
    rw [hen]
    have : ∀ (sel : List String) (xs : List (HVal K)), sel.Nodup → (n, x) ∈ sel.zip xs → assigned sel xs n e.2 = x := by
      intro sel
      induction sel with
      | nil => intro xs _ h; simp at h
      | cons a sel ih =>
          intro xs hnd h
          cases xs with
          | nil => simp at h
          | cons y ys =>
              rw [List.nodup_cons] at hnd
              rw [List.zip_cons_cons, List.mem_cons] at h
              unfold assigned
              rw [List.zip_cons_cons, List.find?_cons]
              by_cases ha : a = n
              · subst ha
                simp only [decide_true]
                rcases h with h | h
                · exact (Prod.mk.inj h).2.symm
                · exact absurd (List.of_mem_zip h).1 hnd.1
              · simp only [ha, decide_false]
                refine ih ys hnd.2 ?_
                rcases h with h | h
                · exact absurd (Prod.mk.inj h).1.symm ha
                · exact h
    rw [this sel xs hsel hpx]
  · intro n v hns
    rw [entries_withValues]
    have hid : ∀ w : HVal K, assigned sel xs n w = w := by
      intro w
      unfold assigned
      have : (sel.zip xs).find? (fun p => p.1 = n) = none := by
        rw [List.find?_eq_none]
        intro p hp
        simp only [decide_eq_true_eq]
        rintro rfl
        exact hns (List.of_mem_zip hp).1
      rw [this]
    constructor
    · intro h
      obtain ⟨e, he, heq⟩ := List.mem_map.1 h
      obtain ⟨h1, h2⟩ := Prod.mk.inj heq
      rw [h1, hid] at h2
      rw [← h1, ← h2]; exact he
    · intro h
      exact List.mem_map.2 ⟨(n, v), h, by simp [hid]⟩

theorem flatten_mapN {α β : Type} (f : α → β) : ∀ l : List (Nest α), flatten (mapN f l) = (flatten l).map f := by
  have key : ∀ (k : ℕ) (l : List (Nest α)), sizeOf l ≤ k → flatten (mapN f l) = (flatten l).map f := by
    intro k
    induction k with
    | zero => intro l h; cases l <;> simp at h
    | succ k ih =>
        intro l h
        cases l with
        | nil => rfl
        | cons e r =>
            simp only [List.cons.sizeOf_spec] at h
            rw [mapN, flatten, flatten, List.map_append, ih r (by omega)]
            cases e with
            | item a => rfl
            | list l' =>
                simp only [Nest.list.sizeOf_spec] at h
                rw [Nest.map, Nest.flat, Nest.flat, ih l' (by omega)]
  exact fun l => key _ l le_rfl

theorem setLoop_error (tree : List (Nest String)) : ∀ (ns : List String) (xs : List (HVal K)) (tm : TM K) (f : String → String),
    (∀ n ∈ ns, n ≠ " ") → xs.length = ns.length → Proper tm → tm.nameTree = tree → (flatten tree).Nodup → (∀ x ∈ xs, Plain x) →
    (∀ n ∈ ns, ∀ a, f a = n → a = n) → (¬ ns.Nodup ∨ ∃ n ∈ ns, ∀ a ∈ flatten tree, f a ≠ n) →
    setLoop true ns (mapN f tree) xs tm = .error .configuration
  | [], _, _, _, _, _, _, _, _, _, _, h => by simp at h
  | n :: ns, [], _, _, _, hl, _, _, _, _, _, _ => by simp at hl
  | n :: ns, x :: xs, tm, f, hsp, hl, hp, ht, hnt, hpl, hf, hbad => by
      by_cases hin : n ∈ flatten (mapN f tree)
      · rw [flatten_mapN] at hin
        obtain ⟨a, ha, hfa⟩ := List.mem_map.1 hin
        have := hf n (by simp) a hfa
        subst this
        have hfm : recursiveIndex (mapN f tree) a = findFrom a 0 tree := by
          rw [recursiveIndex, findFrom_map f a]
          exact fun b => ⟨hf a (by simp) b, by rintro rfl; exact hfa⟩
        have hidx : findFrom a 0 tree = recursiveIndex tm.nameTree a := by rw [ht]; rfl
        have hset := setNamed_found a x _ tm hp (by rw [TM.flatNames, ht]; exact hnt) (by rw [TM.flatNames, ht]; exact ha) rfl
        rw [← hidx] at hset
        have has := assign_found f a " " _ tree hnt ha rfl
        have hne := findFrom_some a tree 0 ha
        rw [setLoop, hfm]
        rw [if_neg (by simp [hne])]
        simp only [has, hset, Bind.bind, Except.bind]
        refine setLoop_error tree ns xs _ _ (fun m hm => hsp m (by simp [hm])) (by simpa using hl)
          (proper_withValues _ (by intro a v hv; split; exact hpl x (by simp); exact hv) tm hp)
          (by rw [nameTree_withValues, ht]) hnt (fun y hy => hpl y (by simp [hy])) ?_ ?_
        · intro m hm b hb
          by_cases hba : b = a
          · simp only [hba, ↓reduceIte] at hb
            exact absurd hb.symm (hsp m (by simp [hm]))
          · simp only [hba, ↓reduceIte] at hb
            exact hf m (by simp [hm]) b hb
        · by_cases han : a ∈ ns
          · right
            refine ⟨a, han, fun b _ => ?_⟩
            by_cases hba : b = a
            · simp only [hba, ↓reduceIte]; exact fun h => hsp a (by simp) h.symm
            · simp only [hba, ↓reduceIte]; exact fun h => hba (hf a (by simp) b h)
          · rcases hbad with h | ⟨m, hm, hb⟩
            · left
              intro hns
              exact h (List.nodup_cons.2 ⟨han, hns⟩)
            · have hma : m ≠ a := by rintro rfl; exact hb m ha hfa
              have hm' : m ∈ ns := by simpa [hma] using hm
              right
              refine ⟨m, hm', fun b hbt => ?_⟩
              by_cases hba : b = a
              · simp only [hba, ↓reduceIte]; exact fun h => hsp m (by simp [hm']) h.symm
              · simp only [hba, ↓reduceIte]; exact hb b hbt
      · have : recursiveIndex (mapN f tree) n = [] := findFrom_none n _ 0 hin
        rw [setLoop, this]
        rfl

/-- Unknown names and names listed twice in the selection are rejected with `ConfigurationError`. -/
theorem C25_selected_error (tm : TM K) (sel : List String) (xs : List (HVal K)) (hp : Proper tm)
    (hnd : ((entries tm).map (·.1)).Nodup) (hsp : " " ∉ sel) (hl : xs.length = sel.length) (hx : ∀ x ∈ xs, Plain x)
    (hbad : ¬ sel.Nodup ∨ ∃ n ∈ sel, n ∉ (entries tm).map (·.1)) :
    tm.setSelected sel xs = .error .configuration := by
  have hne : sel ≠ [] := by rintro rfl; simp at hbad
  have hn := entries_names tm hp
  have := setLoop_error (K := K) tm.nameTree sel xs tm id (by rintro n h rfl; exact hsp h) hl hp rfl
    (by change tm.flatNames.Nodup; rw [hn]; exact hnd) hx (fun n _ a h => h) (by
      rcases hbad with h | ⟨n, hns, h⟩
      · exact .inl h
      · refine .inr ⟨n, hns, ?_⟩
        rintro a ha rfl
        apply h
        rw [← hn]; exact ha)
  rw [mapN_id id _ (fun a _ => rfl)] at this
  rw [TM.setSelected, if_neg hne, this]

theorem getElem_idxOf : ∀ (es : List (String × HVal K)) (n : String) (v : HVal K), (es.map (·.1)).Nodup →
    ((es.map (·.2))[(es.map (·.1)).idxOf n]? = some v ↔ (n, v) ∈ es)
  | [], _, _, _ => by simp
  | e :: es, n, v, h => by
      rw [List.map_cons, List.nodup_cons] at h
      rw [List.map_cons, List.map_cons, List.mem_cons]
      by_cases he : e.1 = n
      · subst he
        rw [List.idxOf_cons_self]
        simp only [List.getElem?_cons_zero, Option.some.injEq]
        constructor
        · rintro rfl; exact .inl rfl
        · rintro (h1 | h1)
          · exact (Prod.ext_iff.1 h1).2.symm
          · exact absurd (List.mem_map_of_mem (f := (·.1)) h1) h.1
      · rw [List.idxOf_cons_ne _ he, List.getElem?_cons_succ, getElem_idxOf es n v h.2]
        constructor
        · exact .inr
        · rintro (h1 | h1)
          · exact absurd (Prod.ext_iff.1 h1).1.symm he
          · exact h1

/-- `getHyperParameterValue(name)` returns the value of this hyper-parameter; unknown names raise `PostProcessingError`. -/
theorem C25_get (tm : TM K) (hp : Proper tm) (hnd : ((entries tm).map (·.1)).Nodup) (n : String) :
    (∀ v, tm.getValue n = .ok v ↔ (n, v) ∈ entries tm) ∧
      (n ∉ (entries tm).map (·.1) → tm.getValue n = .error .postProcessing) := by
  constructor
  · intro v
    rw [TM.getValue, TM.hyperIndex, entries_names tm hp, entries_values tm hp, ← getElem_idxOf _ n v hnd]
    by_cases hn : n ∈ (entries tm).map (·.1)
    · rw [if_pos hn]
      simp only [Bind.bind, Except.bind]
      generalize ((entries tm).map (·.2))[((entries tm).map (·.1)).idxOf n]? = o
      cases o <;> simp
    · rw [if_neg hn]
      simp only [Bind.bind, Except.bind]
      rw [List.getElem?_eq_none (by rw [List.idxOf_eq_length hn, List.length_map, List.length_map])]
      simp
  · intro h
    rw [TM.getValue, TM.hyperIndex, entries_names tm hp, if_neg h]
    rfl

/-! ### reading selected values -/

mutual
/-- names and values of the hyper-parameters, nested like the model -/
def entryTree : TM K → List (Nest (String × HVal K))
  | .leaf _ names vals _ => (names.zip vals).map .item
  | .combined ms => entryTrees ms
  | .serial names vals _ _ ms => entryTrees ms ++ (names.zip vals).map .item
/-- all sub-models -/
def entryTrees : List (TM K) → List (Nest (String × HVal K))
  | [] => []
  | m :: ms => .list (entryTree m) :: entryTrees ms
end

theorem mapN_append {α β : Type} (f : α → β) (l r : List (Nest α)) : mapN f (l ++ r) = mapN f l ++ mapN f r := by
  simp [mapN_eq]

theorem mapN_items {α β : Type} (f : α → β) (l : List α) : mapN f (l.map .item) = (l.map f).map .item := by
  simp [mapN_eq, Nest.map]

theorem map_nest : ∀ vs : List (HVal K), (∀ v ∈ vs, Plain v) → vs.map HVal.nest = vs.map .item
  | [], _ => rfl
  | v :: vs, h => by
      have hv := h v (by simp)
      have : v.nest = .item v := by cases v <;> first | rfl | exact absurd hv (by simp [Plain])
      rw [List.map_cons, List.map_cons, this, map_nest vs fun v hv => h v (by simp [hv])]

mutual
theorem entryTree_eq : ∀ tm : TM K, Proper tm → tm.nameTree = mapN (·.1) (entryTree tm) ∧ tm.valueTree = mapN (·.2) (entryTree tm) ∧
    flatten (entryTree tm) = entries tm
  | .leaf k names vals pr, hp => by
      obtain ⟨h1, h2⟩ := proper_leaf hp
      have hv : (TM.leaf k names vals pr).valueTree = vals.map HVal.nest := by
        cases k <;> first | rfl | exact absurd hp (by simp [Proper])
      rw [nameTree_leaf hp, hv, entryTree, mapN_items, mapN_items, List.map_fst_zip (by rw [h1]), List.map_snd_zip (by rw [h1]),
        map_nest vals h2, flatten_items]
      exact ⟨rfl, rfl, rfl⟩
  | .combined ms, hp => entryTrees_eq ms hp
  | .serial names vals pr mask ms, hp => by
      obtain ⟨h1, h2, h3⟩ := hp
      obtain ⟨e1, e2, e3⟩ := entryTrees_eq ms h3
      rw [TM.nameTree, TM.valueTree, entryTree, mapN_append, mapN_append, mapN_items, mapN_items, List.map_fst_zip (by rw [h1]),
        List.map_snd_zip (by rw [h1]), map_nest vals h2, flatten_append, flatten_items, e1, e2, e3]
      exact ⟨rfl, rfl, rfl⟩
theorem entryTrees_eq : ∀ ms : List (TM K), ProperAll ms → TM.nameTrees ms = mapN (·.1) (entryTrees ms) ∧
    TM.valueTrees ms = mapN (·.2) (entryTrees ms) ∧ flatten (entryTrees ms) = entriesAll ms
  | [], _ => ⟨rfl, rfl, rfl⟩
  | m :: ms, hp => by
      obtain ⟨a1, a2, a3⟩ := entryTree_eq m hp.1
      obtain ⟨b1, b2, b3⟩ := entryTrees_eq ms hp.2
      rw [TM.nameTrees, TM.valueTrees, entryTrees, mapN, mapN, flatten, a1, a2, b1, b2, b3, Nest.flat, a3]
      exact ⟨rfl, rfl, rfl⟩
end

theorem at_found {α β : Type} [DecidableEq α] (q : α) : ∀ (p : List ℕ) (l : List (Nest (α × β))), q ∈ flatten (mapN (·.1) l) →
    findFrom q 0 (mapN (·.1) l) = p → ∃ b, (q, b) ∈ flatten l ∧ (Nest.list (mapN (·.2) l)).at p = some (.item b) := by
  intro p
  induction p with
  | nil => intro l hq h; exact absurd h (findFrom_some q _ 0 hq)
  | cons i p ih =>
      intro l hq h
      obtain ⟨l₁, e, l₂, p', hl, h1, h2, h3, h4⟩ := findFrom_split q _ 0 hq
      rw [h] at h4
      simp only [Nat.zero_add, List.cons.injEq] at h4
      obtain ⟨rfl, rfl⟩ := h4
      rw [mapN_eq] at hl
      obtain ⟨k₁, r, rfl, hk1, hr⟩ := List.map_eq_append_iff.1 hl
      obtain ⟨e', k₂, rfl, he, hk2⟩ := List.map_eq_cons_iff.1 hr
      have hget : (mapN (·.2) (k₁ ++ e' :: k₂))[l₁.length]? = some (e'.map (·.2)) := by
        rw [mapN_eq, ← hk1]; simp
      rw [Nest.at, hget]
      cases e' with
      | item ab =>
          subst he
          rw [Nest.map] at h2 h3
          simp only [Nest.flat, List.mem_singleton] at h2
          simp only [Nest.find, ← h2, ↓reduceIte, Option.some.injEq] at h3
          subst h3
          refine ⟨ab.2, ?_, rfl⟩
          rw [flatten_append, flatten, Nest.flat, h2]
          simp
      | list l' =>
          subst he
          rw [Nest.map] at h2 h3
          obtain ⟨hf, _⟩ := Nest.find_list h3
          obtain ⟨b, hb, hat⟩ := ih l' (by simpa [Nest.flat] using h2) hf
          refine ⟨b, ?_, hat⟩
          rw [flatten_append, flatten, Nest.flat]
          simp [hb]

/-- Reading selected hyper-parameters gives their values in the order of the selection. -/
theorem C25_unpack_partial (tm : TM K) (sel : List String) (hp : Proper tm) (hnd : ((entries tm).map (·.1)).Nodup) (hsel : sel.Nodup)
    (hne : sel ≠ []) (hsp : " " ∉ sel) (hin : ∀ n ∈ sel, n ∈ (entries tm).map (·.1)) :
    ∃ vs, tm.unpackSelected sel = .ok vs ∧ List.Forall₂ (fun n v => (n, v) ∈ entries tm) sel vs := by
  obtain ⟨e1, e2, e3⟩ := entryTree_eq tm hp
  have hn := entries_names tm hp
  have key : ∀ (ns : List String) (f : String → String), ns.Nodup → " " ∉ ns → (∀ n ∈ ns, n ∈ tm.flatNames) →
      (∀ n ∈ ns, ∀ a, f a = n ↔ a = n) →
      ∃ vs, unpackLoop tm.valueTree ns (mapN f tm.nameTree) = .ok vs ∧ List.Forall₂ (fun n v => (n, v) ∈ entries tm) ns vs := by
    intro ns
    induction ns with
    | nil => intro f _ _ _ _; exact ⟨[], rfl, .nil⟩
    | cons n ns ih =>
        intro f hnd' hsp hin hf
        rw [List.nodup_cons] at hnd'
        have hnm := hin n (by simp)
        have hfm : recursiveIndex (mapN f tm.nameTree) n = findFrom n 0 tm.nameTree := by
          rw [recursiveIndex, findFrom_map f n (hf n (by simp))]
        have hne := findFrom_some n tm.nameTree 0 hnm
        have has := assign_found f n " " _ tm.nameTree (by change tm.flatNames.Nodup; rw [hn]; exact hnd) hnm rfl
        obtain ⟨b, hb, hat⟩ := at_found n _ (entryTree tm) (by rw [← e1]; exact hnm) rfl
        rw [← e1, ← e2] at hat
        rw [e3] at hb
        obtain ⟨vs, hvs, hall⟩ := ih (fun a => if a = n then " " else f a) hnd'.2 (fun h => hsp (by simp [h]))
          (fun m hm => hin m (by simp [hm])) (by
            intro m hm a
            have hmn : m ≠ n := by rintro rfl; exact hnd'.1 hm
            by_cases ha : a = n
            · subst ha
              simp only [↓reduceIte]
              exact ⟨fun h => absurd (h ▸ hm) (fun h => hsp (by simp [h])), fun h => absurd h.symm hmn⟩
            · simp only [ha, ↓reduceIte]
              exact hf m (by simp [hm]) a)
        refine ⟨b :: vs, ?_, .cons hb hall⟩
        rw [unpackLoop, hfm]
        rw [if_neg (by simp [hne]), hat]
        simp only [has, hvs, Bind.bind, Except.bind]
  obtain ⟨vs, h1, h2⟩ := key sel id hsel hsp (by rw [hn]; exact hin) (fun n _ a => Iff.rfl)
  rw [mapN_id id _ (fun a _ => rfl)] at h1
  exact ⟨vs, by rw [TM.unpackSelected, if_neg hne, h1], h2⟩

/-- The full claim (distinct names suffice) fails for the name `' '`, which the code uses as a mark for names already handled: setting a list of
three values raises `ValueError`. -/
theorem C25_refuted : ∃ (tm : TM ℚ) (xs : List (HVal ℚ)), Proper tm ∧ ((entries tm).map (·.1)).Nodup ∧
    xs.length = (entries tm).length ∧ tm.setAll xs = .error .valueError :=
  ⟨.combined [.leaf (.grw "x") ["sigma"] [.scalar 1] none, .leaf .changePoint [" "] [.scalar 1] none],
    [.scalar 2, .scalar 3], by simp [Proper, ProperAll, Plain], by decide, by decide, by rfl⟩

/-- a nested model for examples: serial model of a walk and a combination -/
def nestedEx : TM ℚ := .serial ["b"] [.scalar 5] [] [false] [.leaf (.grw "x") ["s1"] [.scalar 1] none,
  .combined [.leaf (.alphaStable "x") ["c", "alpha"] [.scalar 2, .scalar 3] none, .leaf .static [] [] none]]

example : Proper nestedEx ∧ ((entries nestedEx).map (·.1)).Nodup ∧ " " ∉ (entries nestedEx).map (·.1) ∧ (entries nestedEx).length = 4 :=
  ⟨by simp [nestedEx, Proper, ProperAll, Plain], by decide, by decide, by decide⟩
example : ∃ tm', nestedEx.setAll [.scalar 10, .scalar 20, .scalar 30, .scalar 40] = .ok tm' ∧ tm'.getValue "alpha" = .ok (.scalar 30) :=
  ⟨_, rfl, by rfl⟩
example : ∃ tm', nestedEx.setSelected ["b", "c"] [.scalar 10, .scalar 20] = .ok tm' ∧
    tm'.flatValues = [.scalar 1, .scalar 20, .scalar 3, .scalar 10] := ⟨_, rfl, by rfl⟩

end Props
