import Verif.Model.HyperParams
import Verif.Spec.HyperParams
import Mathlib.Data.List.Nodup

/-! # Lemmas on nested lists and on setting hyper-parameters -/

set_option linter.unusedSectionVars false

namespace BL
open Spec
variable {K : Type} [Field K] [LinearOrder K] {α β : Type}

mutual
/-- map over nested lists -/
def Nest.map (f : α → β) : Nest α → Nest β
  | .item a => .item (f a)
  | .list l => .list (mapN f l)
/-- map over nested lists -/
def mapN (f : α → β) : List (Nest α) → List (Nest β)
  | [] => []
  | e :: r => e.map f :: mapN f r
end

theorem mapN_eq (f : α → β) : ∀ l : List (Nest α), mapN f l = l.map (Nest.map f)
  | [] => rfl
  | e :: r => by rw [mapN, mapN_eq f r]; rfl

theorem flatten_eq : ∀ l : List (Nest α), flatten l = l.flatMap Nest.flat
  | [] => rfl
  | e :: r => by rw [flatten, flatten_eq r]; rfl

theorem flatten_append (l r : List (Nest α)) : flatten (l ++ r) = flatten l ++ flatten r := by
  simp [flatten_eq]

theorem flatten_items (l : List α) : flatten (l.map Nest.item) = l := by
  induction l with
  | nil => rfl
  | cons a l ih => simp [flatten, Nest.flat, ih]

mutual
theorem Nest.map_id (f : α → α) : ∀ e : Nest α, (∀ a ∈ e.flat, f a = a) → e.map f = e
  | .item a, h => by rw [Nest.map, h a (by simp [Nest.flat])]
  | .list l, h => by rw [Nest.map, mapN_id f l (by simpa [Nest.flat] using h)]
theorem mapN_id (f : α → α) : ∀ l : List (Nest α), (∀ a ∈ flatten l, f a = a) → mapN f l = l
  | [], _ => rfl
  | e :: r, h => by
      rw [mapN, Nest.map_id f e (fun a ha => h a (by simp [flatten, ha])),
        mapN_id f r (fun a ha => h a (by simp [flatten, ha]))]
end

mutual
theorem Nest.map_congr (f g : α → β) : ∀ e : Nest α, (∀ a ∈ e.flat, f a = g a) → e.map f = e.map g
  | .item a, h => by rw [Nest.map, Nest.map, h a (by simp [Nest.flat])]
  | .list l, h => by rw [Nest.map, Nest.map, mapN_congr f g l (by simpa [Nest.flat] using h)]
theorem mapN_congr (f g : α → β) : ∀ l : List (Nest α), (∀ a ∈ flatten l, f a = g a) → mapN f l = mapN g l
  | [], _ => rfl
  | e :: r, h => by
      rw [mapN, mapN, Nest.map_congr f g e (fun a ha => h a (by simp [flatten, ha])),
        mapN_congr f g r (fun a ha => h a (by simp [flatten, ha]))]
end

variable [DecidableEq α]

mutual
theorem Nest.find_map (f : α → α) (q : α) (hf : ∀ a, f a = q ↔ a = q) : ∀ e : Nest α, (e.map f).find q = e.find q
  | .item a => by simp [Nest.map, Nest.find, hf]
  | .list l => by rw [Nest.map, Nest.find, Nest.find, findFrom_map f q hf l 0]
theorem findFrom_map (f : α → α) (q : α) (hf : ∀ a, f a = q ↔ a = q) :
    ∀ (l : List (Nest α)) (i : ℕ), findFrom q i (mapN f l) = findFrom q i l
  | [], i => rfl
  | e :: r, i => by
      rw [mapN, findFrom, findFrom, Nest.find_map f q hf e, findFrom_map f q hf r (i + 1)]
end

mutual
theorem Nest.find_none (q : α) : ∀ e : Nest α, q ∉ e.flat → e.find q = none
  | .item a, h => by
      simp only [Nest.flat, List.mem_singleton] at h
      simp [Nest.find, Ne.symm h]
  | .list l, h => by rw [Nest.find, findFrom_none q l 0 (by simpa [Nest.flat] using h)]
theorem findFrom_none (q : α) : ∀ (l : List (Nest α)) (i : ℕ), q ∉ flatten l → findFrom q i l = []
  | [], _, _ => rfl
  | e :: r, i, h => by
      simp only [flatten, List.mem_append, not_or] at h
      rw [findFrom, Nest.find_none q e h.1]
      exact findFrom_none q r (i + 1) h.2
end

mutual
theorem Nest.find_some (q : α) : ∀ e : Nest α, q ∈ e.flat → ∃ p, e.find q = some p
  | .item a, h => by
      simp only [Nest.flat, List.mem_singleton] at h
      exact ⟨[], by simp [Nest.find, h]⟩
  | .list l, h => by
      have := findFrom_some q l 0 (by simpa [Nest.flat] using h)
      rw [Nest.find]
      cases hp : findFrom q 0 l with
      | nil => exact absurd hp this
      | cons i p => exact ⟨i :: p, rfl⟩
theorem findFrom_some (q : α) : ∀ (l : List (Nest α)) (i : ℕ), q ∈ flatten l → findFrom q i l ≠ []
  | [], _, h => by simp [flatten] at h
  | e :: r, i, h => by
      rw [findFrom]
      by_cases he : q ∈ e.flat
      · obtain ⟨p, hp⟩ := Nest.find_some q e he
        rw [hp]; simp
      · rw [Nest.find_none q e he]
        simp only [flatten, List.mem_append, he, false_or] at h
        exact findFrom_some q r (i + 1) h
end

theorem findFrom_split (q : α) : ∀ (l : List (Nest α)) (i : ℕ), q ∈ flatten l →
    ∃ l₁ e l₂ p, l = l₁ ++ e :: l₂ ∧ q ∉ flatten l₁ ∧ q ∈ e.flat ∧ e.find q = some p ∧ findFrom q i l = (i + l₁.length) :: p
  | [], _, h => by simp [flatten] at h
  | e :: r, i, h => by
      by_cases he : q ∈ e.flat
      · obtain ⟨p, hp⟩ := Nest.find_some q e he
        exact ⟨[], e, r, p, rfl, by simp [flatten], he, hp, by rw [findFrom, hp]; simp⟩
      · have h' : q ∈ flatten r := by simpa [flatten, he] using h
        obtain ⟨l₁, e', l₂, p, hl, h1, h2, h3, h4⟩ := findFrom_split q r (i + 1) h'
        refine ⟨e :: l₁, e', l₂, p, by rw [hl]; rfl, by simp [flatten, he, h1], h2, h3, ?_⟩
        rw [findFrom, Nest.find_none q e he]
        simp only [h4, List.length_cons]
        congr 1
        omega

theorem Nest.find_list {q : α} {l : List (Nest α)} {p : List ℕ} (h : (Nest.list l).find q = some p) :
    findFrom q 0 l = p ∧ p ≠ [] := by
  rw [Nest.find] at h
  cases hp : findFrom q 0 l with
  | nil => rw [hp] at h; simp at h
  | cons i p' => rw [hp] at h; simp only [Option.some.injEq] at h; simp [h.symm]

/-- Replacing the item at the position found by `recursiveIndex` replaces exactly the queried item. -/
theorem assign_found (f : α → α) (q w : α) : ∀ (p : List ℕ) (l : List (Nest α)), (flatten l).Nodup → q ∈ flatten l →
    findFrom q 0 l = p → assignNested (mapN f l) p w = .ok (mapN (fun a => if a = q then w else f a) l) := by
  intro p
  induction p with
  | nil => intro l _ hq h; exact absurd h (findFrom_some q l 0 hq)
  | cons i p ih =>
      intro l hnd hq h
      obtain ⟨l₁, e, l₂, p', hl, h1, h2, h3, h4⟩ := findFrom_split q l 0 hq
      rw [h] at h4
      simp only [Nat.zero_add, List.cons.injEq] at h4
      obtain ⟨rfl, rfl⟩ := h4
      subst hl
      rw [flatten_append, flatten] at hnd
      have hnd2 := (List.nodup_append.1 hnd).2.1
      have hq2 : q ∉ flatten l₂ := fun hq2 => (List.nodup_append.1 hnd2).2.2 q h2 q hq2 rfl
      have hm1 : l₁.map (Nest.map fun a => if a = q then w else f a) = l₁.map (Nest.map f) := by
        rw [← mapN_eq, ← mapN_eq]
        apply mapN_congr
        intro a ha
        rw [if_neg]; rintro rfl; exact h1 ha
      have hm2 : l₂.map (Nest.map fun a => if a = q then w else f a) = l₂.map (Nest.map f) := by
        rw [← mapN_eq, ← mapN_eq]
        apply mapN_congr
        intro a ha
        rw [if_neg]; rintro rfl; exact hq2 ha
      rw [mapN_eq, mapN_eq]
      cases e with
      | item a =>
          simp only [Nest.flat, List.mem_singleton] at h2
          subst h2
          simp only [Nest.find, ↓reduceIte, Option.some.injEq] at h3
          subst h3
          simp [assignNested, hm1, hm2, Nest.map, List.set_append]
      | list l' =>
          obtain ⟨hf, hne⟩ := Nest.find_list h3
          have hnd' : (flatten l').Nodup := (List.nodup_append.1 hnd2).1
          have := ih l' hnd' (by simpa [Nest.flat] using h2) hf
          cases p with
          | nil => exact absurd rfl hne
          | cons j p =>
              rw [List.map_append, List.map_append, List.map_cons, List.map_cons, hm1, hm2]
              rw [assignNested.eq_3 _ _ _ _ (by simp)]
              have hget : (l₁.map (Nest.map f) ++ Nest.map f (.list l') :: l₂.map (Nest.map f))[l₁.length]? =
                  some (.list (mapN f l')) := by
                simp [Nest.map]
              rw [hget]
              simp only [this]
              simp [Nest.map, List.set_append, Bind.bind, Except.bind]

/-! ## transition models -/

theorem nameTrees_eq : ∀ ms : List (TM K), TM.nameTrees ms = ms.map fun m => .list m.nameTree
  | [] => rfl
  | m :: ms => by rw [TM.nameTrees, nameTrees_eq ms]; rfl

theorem withValuesAll_eq (g : String → HVal K → HVal K) : ∀ ms : List (TM K), withValuesAll g ms = ms.map (withValues g)
  | [] => rfl
  | m :: ms => by rw [withValuesAll, withValuesAll_eq g ms]; rfl

theorem properAll_iff : ∀ ms : List (TM K), ProperAll ms ↔ ∀ m ∈ ms, Proper m
  | [] => by simp [ProperAll]
  | m :: ms => by simp [ProperAll, properAll_iff ms]

theorem nameTree_leaf {k : Leaf K} {names : List String} {vals : List (HVal K)} {pr} (h : Proper (.leaf k names vals pr)) :
    (TM.leaf k names vals pr).nameTree = names.map .item := by
  cases k <;> first | rfl | exact absurd h (by simp [Proper])

theorem proper_leaf {k : Leaf K} {names : List String} {vals : List (HVal K)} {pr} (h : Proper (.leaf k names vals pr)) :
    names.length = vals.length ∧ ∀ v ∈ vals, Plain v := by
  cases k <;> first | exact h | exact absurd h (by simp [Proper])

theorem zipWith_set (n : String) (v : HVal K) : ∀ (names : List String) (vals : List (HVal K)), names.Nodup →
    names.length = vals.length → n ∈ names →
    vals.set (names.idxOf n) v = List.zipWith (fun m w => if m = n then v else w) names vals
  | [], _, _, _, h => by simp at h
  | _ :: _, [], _, h, _ => by simp at h
  | a :: names, b :: vals, hnd, hl, hn => by
      rw [List.nodup_cons] at hnd
      by_cases ha : a = n
      · subst ha
        simp only [List.idxOf_cons_self, List.set_cons_zero, List.zipWith_cons_cons, ↓reduceIte, List.cons.injEq, true_and]
        have : ∀ (names : List String) (vals : List (HVal K)), names.length = vals.length → a ∉ names →
            vals = List.zipWith (fun m w => if m = a then v else w) names vals := by
          intro names
          induction names with
          | nil => intro vals hl _; cases vals <;> simp_all
          | cons c names ih =>
              intro vals hl hna
              cases vals with
              | nil => simp at hl
              | cons w vals =>
                  simp only [List.mem_cons, not_or] at hna
                  simp only [List.zipWith_cons_cons, List.cons.injEq]
                  exact ⟨by rw [if_neg (Ne.symm hna.1)], ih vals (by simpa using hl) hna.2⟩
        exact this names vals (by simpa using hl) hnd.1
      · rw [List.idxOf_cons_ne _ ha]
        simp only [List.set_cons_succ, List.zipWith_cons_cons, ha, ↓reduceIte, List.cons.injEq, true_and]
        exact zipWith_set n v names vals hnd.2 (by simpa using hl) (by simpa [Ne.symm ha] using hn)

theorem zipWith_right (g : String → HVal K → HVal K) : ∀ (names : List String) (vals : List (HVal K)),
    names.length = vals.length → (∀ n ∈ names, ∀ v, g n v = v) → List.zipWith g names vals = vals
  | [], [], _, _ => rfl
  | [], _ :: _, h, _ => by simp at h
  | _ :: _, [], h, _ => by simp at h
  | a :: names, b :: vals, h, hg => by
      simp only [List.zipWith_cons_cons, List.cons.injEq]
      exact ⟨hg a (by simp) b, zipWith_right g names vals (by simpa using h) fun n hn => hg n (by simp [hn])⟩

mutual
theorem withValues_id (g : String → HVal K → HVal K) : ∀ tm : TM K, Proper tm → (∀ n ∈ tm.flatNames, ∀ v, g n v = v) →
    withValues g tm = tm
  | .leaf k names vals pr, hp, h => by
      rw [TM.flatNames, nameTree_leaf hp, flatten_items] at h
      rw [withValues, zipWith_right g names vals (proper_leaf hp).1 h]
  | .combined ms, hp, h => by
      rw [withValues, withValuesAll_id g ms hp (by simpa [TM.flatNames, TM.nameTree] using h)]
  | .serial names vals pr mask ms, hp, h => by
      simp only [TM.flatNames, TM.nameTree, flatten_append, flatten_items, List.mem_append] at h
      rw [withValues, withValuesAll_id g ms hp.2.2 (fun n hn => h n (.inl hn)),
        zipWith_right g names vals hp.1 fun n hn => h n (.inr hn)]
theorem withValuesAll_id (g : String → HVal K → HVal K) : ∀ ms : List (TM K), ProperAll ms →
    (∀ n ∈ flatten (TM.nameTrees ms), ∀ v, g n v = v) → withValuesAll g ms = ms
  | [], _, _ => rfl
  | m :: ms, hp, h => by
      simp only [TM.nameTrees, flatten, Nest.flat, List.mem_append] at h
      rw [withValuesAll, withValues_id g m hp.1 (fun n hn => h n (.inl hn)), withValuesAll_id g ms hp.2 fun n hn => h n (.inr hn)]
end

mutual
theorem nameTree_withValues (g : String → HVal K → HVal K) : ∀ tm : TM K, (withValues g tm).nameTree = tm.nameTree
  | .leaf k names vals pr => by cases k <;> rfl
  | .combined ms => by rw [withValues, TM.nameTree, TM.nameTree, nameTrees_withValues g ms]
  | .serial names vals pr mask ms => by rw [withValues, TM.nameTree, TM.nameTree, nameTrees_withValues g ms]
theorem nameTrees_withValues (g : String → HVal K → HVal K) : ∀ ms : List (TM K),
    TM.nameTrees (withValuesAll g ms) = TM.nameTrees ms
  | [] => rfl
  | m :: ms => by rw [withValuesAll, TM.nameTrees, TM.nameTrees, nameTree_withValues g m, nameTrees_withValues g ms]
end

theorem zipWith_zipWith (g g' : String → HVal K → HVal K) : ∀ (names : List String) (vals : List (HVal K)),
    List.zipWith g' names (List.zipWith g names vals) = List.zipWith (fun n v => g' n (g n v)) names vals
  | [], _ => rfl
  | _ :: _, [] => rfl
  | a :: names, b :: vals => by simp [zipWith_zipWith g g' names vals]

mutual
theorem withValues_comp (g g' : String → HVal K → HVal K) : ∀ tm : TM K,
    withValues g' (withValues g tm) = withValues (fun n v => g' n (g n v)) tm
  | .leaf k names vals pr => by simp only [withValues, zipWith_zipWith]
  | .combined ms => by rw [withValues, withValues, withValues, withValuesAll_comp g g' ms]
  | .serial names vals pr mask ms => by rw [withValues, withValues, withValues, withValuesAll_comp g g' ms, zipWith_zipWith]
theorem withValuesAll_comp (g g' : String → HVal K → HVal K) : ∀ ms : List (TM K),
    withValuesAll g' (withValuesAll g ms) = withValuesAll (fun n v => g' n (g n v)) ms
  | [] => rfl
  | m :: ms => by rw [withValuesAll, withValuesAll, withValuesAll, withValues_comp g g' m, withValuesAll_comp g g' ms]
end

theorem plain_zipWith (g : String → HVal K → HVal K) (hg : ∀ n v, Plain v → Plain (g n v)) :
    ∀ (names : List String) (vals : List (HVal K)), (∀ v ∈ vals, Plain v) → ∀ v ∈ List.zipWith g names vals, Plain v
  | [], _, _, v, hv => by simp at hv
  | _ :: _, [], _, v, hv => by simp at hv
  | a :: names, b :: vals, h, v, hv => by
      simp only [List.zipWith_cons_cons, List.mem_cons] at hv
      rcases hv with rfl | hv
      · exact hg a b (h b (by simp))
      · exact plain_zipWith g hg names vals (fun v hv => h v (by simp [hv])) v hv

mutual
theorem proper_withValues (g : String → HVal K → HVal K) (hg : ∀ n v, Plain v → Plain (g n v)) : ∀ tm : TM K, Proper tm →
    Proper (withValues g tm)
  | .leaf k names vals pr, hp => by
      obtain ⟨h1, h2⟩ := proper_leaf hp
      have : names.length = (List.zipWith g names vals).length ∧ ∀ v ∈ List.zipWith g names vals, Plain v :=
        ⟨by simp [h1], plain_zipWith g hg names vals h2⟩
      cases k <;> first | exact this | exact hp
  | .combined ms, hp => by
      rw [withValues, Proper]; exact properAll_withValues g hg ms hp
  | .serial names vals pr mask ms, hp => by
      rw [withValues, Proper]
      exact ⟨by simp [hp.1], plain_zipWith g hg names vals hp.2.1, properAll_withValues g hg ms hp.2.2⟩
theorem properAll_withValues (g : String → HVal K → HVal K) (hg : ∀ n v, Plain v → Plain (g n v)) : ∀ ms : List (TM K),
    ProperAll ms → ProperAll (withValuesAll g ms)
  | [], h => h
  | m :: ms, h => ⟨proper_withValues g hg m h.1, properAll_withValues g hg ms h.2⟩
end

theorem setOwn_ok {names : List String} {vals : List (HVal K)} {n : String} {v : HVal K} (hnd : names.Nodup)
    (hl : names.length = vals.length) (hn : n ∈ names) :
    setOwn names vals n v = .ok (List.zipWith (fun m w => if m = n then v else w) names vals) := by
  rw [setOwn, if_pos hn, if_pos (by rw [← hl]; exact List.idxOf_lt_length_iff.2 hn), zipWith_set n v names vals hnd hl hn]

/-- in a list of sub-models with distinct names, only the one which contains the name changes -/
theorem withValuesAll_set (n : String) (v : HVal K) (ms₁ ms₂ : List (TM K)) (m : TM K) (hp : ProperAll (ms₁ ++ m :: ms₂))
    (hnd : (flatten (TM.nameTrees (ms₁ ++ m :: ms₂))).Nodup) (hn : n ∈ m.flatNames) :
    (ms₁ ++ m :: ms₂).set ms₁.length (withValues (fun a w => if a = n then v else w) m) =
      withValuesAll (fun a w => if a = n then v else w) (ms₁ ++ m :: ms₂) := by
  rw [nameTrees_eq, List.map_append, List.map_cons, flatten_append, flatten, ← nameTrees_eq, ← nameTrees_eq] at hnd
  simp only [Nest.flat] at hnd
  have hnd2 := (List.nodup_append.1 hnd).2.1
  have h1 : n ∉ flatten (TM.nameTrees ms₁) := fun h =>
    (List.nodup_append.1 hnd).2.2 n h n (by rw [List.mem_append]; exact .inl hn) rfl
  have h2 : n ∉ flatten (TM.nameTrees ms₂) := fun h => (List.nodup_append.1 hnd2).2.2 n hn n h rfl
  rw [properAll_iff] at hp
  rw [withValuesAll_eq, List.map_append, List.map_cons, ← withValuesAll_eq, ← withValuesAll_eq,
    withValuesAll_id _ ms₁ ((properAll_iff _).2 fun m hm => hp m (by simp [hm])) (by
      intro a ha w; rw [if_neg]; rintro rfl; exact h1 ha),
    withValuesAll_id _ ms₂ ((properAll_iff _).2 fun m hm => hp m (by simp [hm])) (by
      intro a ha w; rw [if_neg]; rintro rfl; exact h2 ha)]
  simp [List.set_append]

/-- Setting the hyper-parameter found by `recursiveIndex` replaces exactly the value of this name. -/
theorem setNamed_found (n : String) (v : HVal K) : ∀ (p : List ℕ) (tm : TM K), Proper tm → tm.flatNames.Nodup →
    n ∈ tm.flatNames → recursiveIndex tm.nameTree n = p →
    tm.setNamed p.dropLast n v = .ok (withValues (fun a w => if a = n then v else w) tm) := by
  intro p
  induction p with
  | nil => intro tm _ _ hn h; exact absurd h (findFrom_some n _ 0 hn)
  | cons i p ih =>
      intro tm hp hnd hn h
      obtain ⟨l₁, e, l₂, p', hl, h1, h2, h3, h4⟩ := findFrom_split n tm.nameTree 0 hn
      rw [recursiveIndex] at h
      rw [h] at h4
      simp only [Nat.zero_add, List.cons.injEq] at h4
      obtain ⟨rfl, rfl⟩ := h4
      -- the case of the model's own hyper-parameter
      have own : ∀ a, e = .item a → p = [] := by
        rintro a rfl
        simp only [Nest.find] at h3
        split at h3 <;> simp at h3; exact h3
      -- descent into a list of sub-models
      have sub : ∀ (ms : List (TM K)) (r : List (Nest String)), ProperAll ms → (flatten (TM.nameTrees ms)).Nodup →
          TM.nameTrees ms ++ r = l₁ ++ e :: l₂ → l₁.length < ms.length →
          ∃ m ms₁ ms₂, ms = ms₁ ++ m :: ms₂ ∧ ms₁.length = l₁.length ∧ p ≠ [] ∧ n ∈ m.flatNames ∧
            m.setNamed p.dropLast n v = .ok (withValues (fun a w => if a = n then v else w) m) := by
        intro ms r hpm hndm hsplit hlt
        have hms : ms = ms.take l₁.length ++ ms[l₁.length] :: ms.drop (l₁.length + 1) := by simp
        have he : e = .list (ms[l₁.length]).nameTree := by
          have h5 : (TM.nameTrees ms ++ r)[l₁.length]? = some e := by rw [hsplit]; simp
          rw [nameTrees_eq] at h5
          rw [List.getElem?_append_left (by simpa using hlt)] at h5
          simp only [List.getElem?_map, List.getElem?_eq_getElem hlt, Option.map_some, Option.some.injEq] at h5
          exact h5.symm
        refine ⟨ms[l₁.length], ms.take l₁.length, ms.drop (l₁.length + 1), hms, by simp [Nat.le_of_lt hlt], ?_, ?_, ?_⟩
        · rw [he] at h3; exact (Nest.find_list h3).2
        · rw [he] at h2; exact h2
        · rw [he] at h3 h2
          refine ih _ ((properAll_iff ms).1 hpm _ (List.getElem_mem hlt)) ?_ h2 (Nest.find_list h3).1
          rw [hms, nameTrees_eq, List.map_append, List.map_cons, flatten_append, flatten] at hndm
          exact (List.nodup_append.1 (List.nodup_append.1 hndm).2.1).1
      cases tm with
      | leaf k names vals pr =>
          rw [TM.flatNames, nameTree_leaf hp, flatten_items] at hnd hn
          rw [nameTree_leaf hp] at hl
          have hei : ∃ a, e = .item a := by
            have : e ∈ names.map Nest.item := by rw [hl]; simp
            obtain ⟨a, _, ha⟩ := List.mem_map.1 this
            exact ⟨a, ha.symm⟩
          obtain ⟨a, ha⟩ := hei
          rw [own a ha, List.dropLast_singleton]
          have hk : TM.setNamed (.leaf k names vals pr) [] n v =
              (do let vals' ← setOwn names vals n v; .ok (.leaf k names vals' pr)) := by
            cases k <;> first | rfl | exact absurd hp (by simp [Proper])
          rw [hk, setOwn_ok hnd (proper_leaf hp).1 hn]
          rfl
      | combined ms =>
          rw [TM.flatNames, TM.nameTree] at hnd hn
          rw [TM.nameTree] at hl
          have hlt : l₁.length < ms.length := by
            have := congrArg List.length hl
            rw [nameTrees_eq] at this
            simp at this
            omega
          obtain ⟨m, ms₁, ms₂, hms, hlen, hpne, hnm, hset⟩ := sub ms [] hp hnd (by rw [List.append_nil]; exact hl) hlt
          have hd : (l₁.length :: p).dropLast = l₁.length :: p.dropLast := by cases p <;> simp_all
          subst hms
          have hget : (ms₁ ++ m :: ms₂)[l₁.length]? = some m := by rw [← hlen]; simp
          rw [hd, TM.setNamed, hget]
          simp only [hset]
          rw [withValues, ← withValuesAll_set n v ms₁ ms₂ m hp hnd hnm, hlen]
          rfl
      | serial names vals pr mask ms =>
          rw [TM.flatNames, TM.nameTree, flatten_append, flatten_items] at hnd hn
          rw [TM.nameTree] at hl
          obtain ⟨hnd1, hnd2, hdis⟩ := List.nodup_append.1 hnd
          by_cases hlt : l₁.length < ms.length
          · obtain ⟨m, ms₁, ms₂, hms, hlen, hpne, hnm, hset⟩ := sub ms _ hp.2.2 hnd1 hl hlt
            have hd : (l₁.length :: p).dropLast = l₁.length :: p.dropLast := by cases p <;> simp_all
            subst hms
            have hget : (ms₁ ++ m :: ms₂)[l₁.length]? = some m := by rw [← hlen]; simp
            rw [hd, TM.setNamed, hget]
            simp only [hset]
            have hnn : n ∉ names := by
              intro hnn
              refine hdis n ?_ n hnn rfl
              rw [nameTrees_eq, List.map_append, List.map_cons, flatten_append, flatten]
              simp only [Nest.flat, List.mem_append]
              exact .inr (.inl hnm)
            rw [withValues, ← withValuesAll_set n v ms₁ ms₂ m hp.2.2 hnd1 hnm, hlen,
              zipWith_right _ names vals hp.1 (by intro a ha w; rw [if_neg]; rintro rfl; exact hnn ha)]
            rfl
          · have hei : e ∈ names.map Nest.item := by
              have h5 : (TM.nameTrees ms ++ names.map Nest.item)[l₁.length]? = some e := by rw [hl]; simp
              rw [nameTrees_eq, List.getElem?_append_right (by simpa using Nat.le_of_not_lt hlt)] at h5
              exact List.mem_of_getElem? h5
            obtain ⟨a, _, ha⟩ := List.mem_map.1 hei
            have hnm : n ∉ flatten (TM.nameTrees ms) := by
              intro h
              have hsub : TM.nameTrees ms = (l₁ ++ e :: l₂).take ms.length := by
                rw [← hl, List.take_left' (by rw [nameTrees_eq]; simp)]
              rw [hsub, List.take_append_of_le_length (Nat.le_of_not_lt hlt)] at h
              apply h1
              have : l₁ = l₁.take ms.length ++ l₁.drop ms.length := by simp
              rw [this, flatten_append]
              exact List.mem_append_left _ h
            have hnn : n ∈ names := by
              rcases List.mem_append.1 hn with h | h
              · exact absurd h hnm
              · exact h
            rw [own a ha.symm, List.dropLast_singleton, TM.setNamed, setOwn_ok hnd2 hp.1 hnn, withValues,
              withValuesAll_id _ ms hp.2.2 (by intro a ha w; rw [if_neg]; rintro rfl; exact hnm ha)]
            rfl

theorem assigned_cons (n : String) (x : HVal K) (ns : List String) (xs : List (HVal K)) (a : String) (v : HVal K) (hn : n ∉ ns) :
    assigned ns xs a (if a = n then x else v) = assigned (n :: ns) (x :: xs) a v := by
  unfold assigned
  rw [List.zip_cons_cons, List.find?_cons]
  by_cases h : a = n
  · subst h
    have : (ns.zip xs).find? (fun p => p.1 = a) = none := by
      rw [List.find?_eq_none]
      intro p hp
      have := (List.of_mem_zip hp).1
      simp only [decide_eq_true_eq]
      rintro rfl
      exact hn this
    simp [this]
  · simp [h, Ne.symm h]

theorem setLoop_ok (sel : Bool) (tree : List (Nest String)) : ∀ (ns : List String) (xs : List (HVal K)) (tm : TM K)
    (f : String → String), ns.Nodup → (∀ n ∈ ns, n ≠ " ") → xs.length = ns.length → Proper tm → tm.nameTree = tree →
    (flatten tree).Nodup → (∀ n ∈ ns, n ∈ flatten tree) → (∀ x ∈ xs, Plain x) → (∀ n ∈ ns, ∀ a, f a = n ↔ a = n) →
    setLoop sel ns (mapN f tree) xs tm = .ok (withValues (assigned ns xs) tm)
  | [], xs, tm, f, _, _, _, hp, _, _, _, _, _ => by
      rw [setLoop, withValues_id _ tm hp]
      intro n _ v; rfl
  | n :: ns, [], _, _, _, _, hl, _, _, _, _, _, _ => by simp at hl
  | n :: ns, x :: xs, tm, f, hnd, hsp, hl, hp, ht, hnt, hin, hpl, hf => by
      have hn := hin n (by simp)
      have hne := findFrom_some n tree 0 hn
      rw [List.nodup_cons] at hnd
      have hfm : recursiveIndex (mapN f tree) n = recursiveIndex tm.nameTree n := by
        rw [recursiveIndex, recursiveIndex, findFrom_map f n (hf n (by simp)), ht]
      rw [setLoop, hfm]
      have hset := setNamed_found n x _ tm hp (by rw [TM.flatNames, ht]; exact hnt) (by rw [TM.flatNames, ht]; exact hn) rfl
      have hidx : recursiveIndex tm.nameTree n = findFrom n 0 tree := by rw [ht]; rfl
      have has := assign_found f n " " _ tree hnt hn rfl
      rw [hidx] at hset
      simp only [hidx]
      rw [if_neg (by simp [hne])]
      simp only [has, hset, Bind.bind, Except.bind]
      have := setLoop_ok sel tree ns xs (withValues (fun a w => if a = n then x else w) tm) (fun a => if a = n then " " else f a)
        hnd.2 (fun m hm => hsp m (by simp [hm])) (by simpa using hl)
        (proper_withValues _ (by intro a v hv; split; exact hpl x (by simp); exact hv) tm hp)
        (by rw [nameTree_withValues, ht]) hnt (fun m hm => hin m (by simp [hm])) (fun y hy => hpl y (by simp [hy]))
        (by
          intro m hm a
          have hmn : m ≠ n := by rintro rfl; exact hnd.1 hm
          by_cases ha : a = n
          · subst ha
            simp only [↓reduceIte]
            exact ⟨fun h => absurd h.symm (hsp m (by simp [hm])), fun h => absurd h.symm hmn⟩
          · simp only [ha, ↓reduceIte]
            exact hf m (by simp [hm]) a)
      rw [this, withValues_comp]
      congr 2
      funext a v
      exact assigned_cons n x ns xs a v hnd.1

/-! ### names and values as entries -/

theorem flatten_nest : ∀ vs : List (HVal K), (∀ v ∈ vs, Plain v) → flatten (vs.map HVal.nest) = vs
  | [], _ => rfl
  | v :: vs, h => by
      have hv := h v (by simp)
      have : v.nest = .item v := by cases v <;> first | rfl | exact absurd hv (by simp [Plain])
      rw [List.map_cons, this, flatten, Nest.flat, flatten_nest vs fun v hv => h v (by simp [hv])]
      rfl

mutual
theorem entries_names : ∀ tm : TM K, Proper tm → tm.flatNames = (entries tm).map (·.1)
  | .leaf k names vals pr, hp => by
      rw [TM.flatNames, nameTree_leaf hp, flatten_items, entries, List.map_fst_zip (by rw [(proper_leaf hp).1])]
  | .combined ms, hp => by rw [TM.flatNames, TM.nameTree, entries, entriesAll_names ms hp]
  | .serial names vals pr mask ms, hp => by
      rw [TM.flatNames, TM.nameTree, entries, flatten_append, flatten_items, List.map_append, entriesAll_names ms hp.2.2,
        List.map_fst_zip (by rw [hp.1])]
theorem entriesAll_names : ∀ ms : List (TM K), ProperAll ms → flatten (TM.nameTrees ms) = (entriesAll ms).map (·.1)
  | [], _ => rfl
  | m :: ms, hp => by
      rw [TM.nameTrees, flatten, Nest.flat, entriesAll, List.map_append, ← entriesAll_names ms hp.2, ← entries_names m hp.1]
      rfl
end

mutual
theorem entries_values : ∀ tm : TM K, Proper tm → tm.flatValues = (entries tm).map (·.2)
  | .leaf k names vals pr, hp => by
      have : (TM.leaf k names vals pr).valueTree = vals.map HVal.nest := by
        cases k <;> first | rfl | exact absurd hp (by simp [Proper])
      rw [TM.flatValues, this, flatten_nest vals (proper_leaf hp).2, entries, List.map_snd_zip (by rw [(proper_leaf hp).1])]
  | .combined ms, hp => by rw [TM.flatValues, TM.valueTree, entries, entriesAll_values ms hp]
  | .serial names vals pr mask ms, hp => by
      rw [TM.flatValues, TM.valueTree, entries, flatten_append, flatten_nest vals hp.2.1, List.map_append, entriesAll_values ms hp.2.2,
        List.map_snd_zip (by rw [hp.1])]
theorem entriesAll_values : ∀ ms : List (TM K), ProperAll ms → flatten (TM.valueTrees ms) = (entriesAll ms).map (·.2)
  | [], _ => rfl
  | m :: ms, hp => by
      rw [TM.valueTrees, flatten, Nest.flat, entriesAll, List.map_append, ← entriesAll_values ms hp.2, ← entries_values m hp.1]
      rfl
end

theorem zip_zipWith (g : String → HVal K → HVal K) : ∀ (names : List String) (vals : List (HVal K)),
    names.zip (List.zipWith g names vals) = (names.zip vals).map fun e => (e.1, g e.1 e.2)
  | [], _ => rfl
  | _ :: _, [] => rfl
  | a :: names, b :: vals => by simp [zip_zipWith g names vals]

mutual
theorem entries_withValues (g : String → HVal K → HVal K) : ∀ tm : TM K,
    entries (withValues g tm) = (entries tm).map fun e => (e.1, g e.1 e.2)
  | .leaf k names vals pr => by rw [withValues, entries, entries, zip_zipWith]
  | .combined ms => by rw [withValues, entries, entries, entriesAll_withValues g ms]
  | .serial names vals pr mask ms => by
      rw [withValues, entries, entries, entriesAll_withValues g ms, List.map_append, zip_zipWith]
theorem entriesAll_withValues (g : String → HVal K → HVal K) : ∀ ms : List (TM K),
    entriesAll (withValuesAll g ms) = (entriesAll ms).map fun e => (e.1, g e.1 e.2)
  | [] => rfl
  | m :: ms => by rw [withValuesAll, entriesAll, entriesAll, entries_withValues g m, entriesAll_withValues g ms, List.map_append]
end

end BL
