import Verif.Lemmas.ParserTotal
import Verif.Props.C30
import Mathlib.Data.List.Nodup

/-! # Loading the parameters of the studies -/

set_option linter.unusedSectionVars false

namespace BL
open Spec
variable {K : Type} [Field K] [LinearOrder K]

theorem mapE_get {α β : Type} {f : α → Except PyErr β} {l : List α} {r : List β} (h : mapE f l = .ok r) {k : ℕ} {x : α} (hx : l[k]? = some x) :
    ∃ y, f x = .ok y ∧ r[k]? = some y := by
  induction l generalizing r k with
  | nil => simp at hx
  | cons a l ih =>
      simp only [mapE, bind_ok] at h
      obtain ⟨y, h1, r', h2, h3⟩ := h
      injection h3 with h3; subst h3
      cases k with
      | zero => simp only [List.getElem?_cons_zero, Option.some.injEq] at hx; subst hx; exact ⟨y, h1, rfl⟩
      | succ k => simpa using ih h2 (by simpa using hx)

theorem mapE_len {α β : Type} {f : α → Except PyErr β} {l : List α} {r : List β} (h : mapE f l = .ok r) : r.length = l.length := by
  induction l generalizing r with
  | nil => simp [mapE] at h; subst h; rfl
  | cons a l ih =>
      simp only [mapE, bind_ok] at h
      obtain ⟨y, h1, r', h2, h3⟩ := h
      injection h3 with h3; subst h3
      simp [ih h2]

/-- names of what is loaded -/
theorem mapE_names {α : Type} {f : α → Except PyErr (List (PObj K))} {g : α → List String} {l : List α} {r : List (List (PObj K))} (h : mapE f l = .ok r)
    (hf : ∀ x ∈ l, ∀ y, f x = .ok y → (y.map PObj.name).Sublist ((g x).map some)) :
    (r.flatten.map PObj.name).Sublist ((l.flatMap g).map some) := by
  induction l generalizing r with
  | nil => simp [mapE] at h; subst h; simp
  | cons a l ih =>
      simp only [mapE, bind_ok] at h
      obtain ⟨y, h1, r', h2, h3⟩ := h
      injection h3 with h3; subst h3
      simp only [List.flatten_cons, List.map_append, List.flatMap_cons]
      exact (hf a (by simp) y h1).append (ih h2 fun x hx => hf x (by simp [hx]))

theorem zipWith_names (names : List String) (vals : List (List K)) (g : List K → PObj K) : 
    ((List.zipWith (fun n v => { g v with name := some n }) names vals).map PObj.name).Sublist (names.map some) := by
  induction names generalizing vals with
  | nil => simp
  | cons n names ih =>
      cases vals with
      | nil => simp
      | cons v vals => simpa using ih vals

theorem loadParams_names (k : ℕ) (s : PStudy K) (t : Option (K × ℕ)) (y : List (PObj K)) (h : loadParams k s t = .ok y) :
    (y.map PObj.name).Sublist (s.names.map some) := by
  unfold loadParams at h
  split at h
  · split at h
    · injection h with h; subst h
      exact zipWith_names s.names s.values fun v => ⟨false, v.map .fin, .seq s.posts, none, none, some k⟩
    · split at h
      · simp at h
      · rename_i tl _
        injection h with h; subst h
        exact zipWith_names s.names s.values fun v => ⟨false, v.map .fin, .dist s.current, none, some tl, some k⟩
  · rename_i t i
    split at h
    · simp at h
    · rename_i p _
      injection h with h; subst h
      exact zipWith_names s.names s.values fun v => ⟨false, v.map .fin, .dist p, none, some t, some k⟩

theorem loadOnline_names (k : ℕ) (s : PStudy K) (hist : List (List (List K))) (cur : List (List K)) (t : Option (K × ℕ)) (j : ℕ) (m : List (String × List K))
    (y : List (PObj K)) (h : loadOnline k s hist cur t j m = .ok y) : (y.map PObj.name).Sublist ((m.map (·.1)).map some) := by
  have key : ∀ g : String × List K → PObj K, (∀ q, (g q).name = some q.1) → ((m.map g).map PObj.name).Sublist ((m.map (·.1)).map some) := by
    intro g hg
    rw [List.map_map, List.map_map]
    have : (PObj.name ∘ g) = (some ∘ fun x : String × List K => x.1) := by funext q; simp [hg]
    rw [this]
  unfold loadOnline at h
  split at h
  · split at h
    · split at h
      · simp at h
      · injection h with h; subst h; exact key _ fun q => rfl
    · split at h
      · injection h with h; subst h; exact key _ fun q => rfl
      · simp at h
  · split at h
    · split at h
      · simp at h
      · injection h with h; subst h; exact key _ fun q => rfl
    · split at h
      · injection h with h; subst h; simp
      · simp at h

theorem loadHyper_names (k : ℕ) (s : PStudy K) (t : Option (K × ℕ)) (y : List (PObj K)) (h : loadHyper k s t = .ok y) :
    (y.map PObj.name).Sublist (s.hyper.names.map some) := by
  unfold loadHyper at h
  split at h
  · injection h with h; subst h; simp
  · rename_i cols dist hs
    injection h with h; subst h
    rw [hs, PHyper.names, List.map_map, List.map_map]
    exact List.Sublist.refl _
  · rename_i ms hist cur hs
    rw [map_ok] at h
    obtain ⟨r, h1, rfl⟩ := h
    have := mapE_names (g := fun q : List (String × List K) × ℕ => q.1.map (·.1)) h1 fun x _ y hy => loadOnline_names k s hist cur t x.2 x.1 y hy
    rw [hs, PHyper.names]
    have e : ms.zipIdx.flatMap (fun q => q.1.map (·.1)) = ms.flatMap fun m => m.map (·.1) := by
      have : ms.flatMap (fun m => m.map (·.1)) = (ms.zipIdx.map Prod.fst).flatMap fun m => m.map (·.1) := by rw [List.zipIdx_map_fst]
      rw [this, List.flatMap_map]
    rw [e] at this
    exact this

theorem zipIdx_flatMap {α β : Type} (l : List α) (f : α → List β) : (l.zipIdx.flatMap fun q => f q.1) = l.flatMap f := by
  have : l.flatMap f = (l.zipIdx.map Prod.fst).flatMap f := by rw [List.zipIdx_map_fst]
  rw [this, List.flatMap_map]

theorem loadAll_ok {ss : List (PStudy K)} {t : Option K} {l : List (PObj K)} (h : loadAll ss t = .ok l) : ∃ ti ps hs, timeIndex ss t = .ok ti ∧
    mapE (fun q => loadParams q.2 q.1 ti) ss.zipIdx = .ok ps ∧ mapE (fun q => loadHyper q.2 q.1 ti) ss.zipIdx = .ok hs ∧ l = ps.flatten ++ hs.flatten := by
  unfold loadAll at h
  simp only [bind_ok] at h
  obtain ⟨ti, h1, ps, h2, hs, h3, h4⟩ := h
  injection h4 with h4
  exact ⟨ti, ps, hs, h1, h2, h3, h4.symm⟩

theorem loaded_nodup {ss : List (PStudy K)} {t : Option K} {l : List (PObj K)} {ns : List String} (hn : parserNames ss = .ok ns) (h : loadAll ss t = .ok l) :
    (l.map PObj.name).Nodup := by
  obtain ⟨ti, ps, hs, -, h2, h3, rfl⟩ := loadAll_ok h
  have hnd : (ss.flatMap fun s => s.names ++ s.hyper.names).Nodup := by
    unfold parserNames at hn
    split at hn
    · simp at hn
    · simp only at hn
      split at hn
      · assumption
      · simp at hn
  have h1 := mapE_names (g := fun q : PStudy K × ℕ => q.1.names) h2 fun x _ y hy => loadParams_names x.2 x.1 ti y hy
  have h4 := mapE_names (g := fun q : PStudy K × ℕ => q.1.hyper.names) h3 fun x _ y hy => loadHyper_names x.2 x.1 ti y hy
  rw [zipIdx_flatMap ss fun s => s.names] at h1
  rw [zipIdx_flatMap ss fun s => s.hyper.names] at h4
  rw [List.map_append]
  refine (h1.append h4).nodup ?_
  rw [← List.map_append]
  refine List.Nodup.map (Option.some_injective _) ?_
  exact (List.flatMap_append_perm ss _ _).nodup_iff.2 hnd

theorem find_of_nodup {l : List (PObj K)} (h : (l.map PObj.name).Nodup) {o : PObj K} (ho : o ∈ l) {s : String} (hs : o.name = some s) :
    l.find? (fun o => o.name = some s) = some o := by
  induction l with
  | nil => simp at ho
  | cons a l ih =>
      simp only [List.map_cons, List.nodup_cons] at h
      rw [List.find?_cons]
      rcases List.mem_cons.1 ho with rfl | ho
      · simp [hs]
      · have : a.name ≠ some s := fun he => h.1 (List.mem_map.2 ⟨o, ho, by rw [hs, he]⟩)
        simp only [this, decide_false]
        exact ih h.2 ho

theorem zipIdx_get {α : Type} {l : List α} {k : ℕ} {s : α} (h : l[k]? = some s) : l.zipIdx[k]? = some (s, k) := by
  rw [List.getElem?_zipIdx, h]; simp

theorem mem_flatten_get {α : Type} {l : List (List α)} {k : ℕ} {x : List α} {a : α} (h : l[k]? = some x) (ha : a ∈ x) : a ∈ l.flatten :=
  List.mem_flatten.2 ⟨x, List.mem_of_getElem? h, ha⟩

theorem indexOf_nodup {l : List K} (h : l.Nodup) {i : ℕ} {t : K} (hi : l[i]? = some t) : indexOf? l t = some i := by
  obtain ⟨hlt, rfl⟩ := List.getElem?_eq_some_iff.1 hi
  rw [indexOf?, if_pos (List.getElem_mem hlt), h.idxOf_getElem i hlt]

theorem mem_zipWith_get {names : List String} {vals : List (List K)} (g : String → List K → PObj K) {a : ℕ} {n : String} {v : List K} (hn : names[a]? = some n)
    (hv : vals[a]? = some v) : g n v ∈ List.zipWith g names vals := by
  apply List.mem_of_getElem? (i := a)
  rw [List.getElem?_zipWith, hn, hv]

theorem share_eq (l : List K) : share l = normed l := rfl

theorem allSome_get {α β : Type} {l : List α} {f : α → Option β} {r : List β} (h : allSome (l.map f) = some r) {i : ℕ} {x : α} (hx : l[i]? = some x) :
    ∃ y, f x = some y ∧ r[i]? = some y := by
  induction l generalizing r i with
  | nil => simp at hx
  | cons a l ih =>
      simp only [List.map_cons] at h
      cases hf : f a with
      | none => rw [hf] at h; simp [allSome] at h
      | some y =>
          rw [hf] at h
          simp only [allSome, Option.map_eq_some_iff] at h
          obtain ⟨r', h1, rfl⟩ := h
          cases i with
          | zero => simp only [List.getElem?_cons_zero, Option.some.injEq] at hx; subst hx; exact ⟨y, hf, rfl⟩
          | succ i => simpa using ih h1 (by simpa using hx)

/-- the value of a parameter in a query -/
theorem reads_ref (X : PExt K) {ss : List (PStudy K)} {t : Option K} {l : List (PObj K)} {ns : List String} (hn : parserNames ss = .ok ns) (h : loadAll ss t = .ok l)
    (hS : Stamps ss t) {r : String × Option K} {k : ℕ} {hy : Bool} {τ : Option K} {vals probs : List K} (hr : Reads ss t r k hy τ vals probs) :
    refValue ⟨X, ss.map PStudy.ts, l⟩ r = .ok (.obj ⟨hy, vals.map .fin, .dist probs, some r.1, τ, some k⟩) := by
  have hnd := loaded_nodup hn h
  obtain ⟨ti, ps, hs, hti, h2, h3, rfl⟩ := loadAll_ok h
  have conv : ∀ (o : PObj K) (s : String), o ∈ ps.flatten ++ hs.flatten → o.name = some s →
      convert ⟨X, ss.map PStudy.ts, ps.flatten ++ hs.flatten⟩ (.name s) = .ok (.obj o) := by
    intro o s ho hs
    simp only [convert, find_of_nodup hnd ho hs]
  have glob : ∀ (k : ℕ) (s : PStudy K) (τ : K) (i : ℕ), t = some τ → ss[k]? = some s → s.ts[i]? = some τ → ti = some (τ, i) := by
    intro k s τ i ht hk hi
    subst ht
    have hmem : s ∈ ss := List.mem_of_getElem? hk
    have he : (ss.head?.map PStudy.ts).getD [] = s.ts := by
      cases ss with
      | nil => simp at hmem
      | cons s0 ss => simpa using hS.same rfl s0 (by simp) s hmem
    simp only [timeIndex, he, indexOf_nodup (hS.nodup s hmem) hi] at hti
    injection hti with hti; exact hti.symm
  have stampk : ∀ (k : ℕ) (s : PStudy K), ss[k]? = some s → (ss.map PStudy.ts)[k]? = some s.ts := by
    intro k s hk; rw [List.getElem?_map, hk]; rfl
  cases hr with
  | «at» ht hk hst hna hva hi hp =>
      rename_i s a name τ i
      subst ht
      have : ti = none := by simp only [timeIndex] at hti; injection hti with hti; exact hti.symm
      subst this
      obtain ⟨y, hy1, hy2⟩ := mapE_get h2 (zipIdx_get hk)
      simp only [loadParams, hst, ↓reduceIte] at hy1
      injection hy1 with hy1
      have hm : (⟨false, vals.map .fin, .seq s.posts, some name, none, some k⟩ : PObj K) ∈ ps.flatten ++ hs.flatten := by
        apply List.mem_append_left
        refine mem_flatten_get hy2 ?_
        rw [← hy1]
        exact mem_zipWith_get (fun n v => ⟨false, v.map .fin, .seq s.posts, some n, none, some k⟩) hna hva
      simp only [refValue, conv _ name hm rfl]
      have hmem : s ∈ ss := List.mem_of_getElem? hk
      simp only [bind, Except.bind, atOp, true_or, ↓reduceIte, Option.bind_some, stampk k s hk, indexOf_nodup (hS.nodup s hmem) hi, Prob.index, hp]
  | global ht hk hna hva hi hp =>
      rename_i s a name τ i
      have := glob k s τ i ht hk hi
      subst this
      obtain ⟨y, hy1, hy2⟩ := mapE_get h2 (zipIdx_get hk)
      simp only [loadParams, hp] at hy1
      injection hy1 with hy1
      have hm : (⟨false, vals.map .fin, .dist probs, some name, some τ, some k⟩ : PObj K) ∈ ps.flatten ++ hs.flatten := by
        apply List.mem_append_left
        refine mem_flatten_get hy2 ?_
        rw [← hy1]
        exact mem_zipWith_get (fun n v => ⟨false, v.map .fin, .dist probs, some n, some τ, some k⟩) hna hva
      simp only [refValue, conv _ name hm rfl]; rfl
  | latest ht hk hst hna hva hl =>
      rename_i s a name τ
      subst ht
      have : ti = none := by simp only [timeIndex] at hti; injection hti with hti; exact hti.symm
      subst this
      obtain ⟨y, hy1, hy2⟩ := mapE_get h2 (zipIdx_get hk)
      simp only [loadParams, hst, Bool.false_eq_true, ↓reduceIte, hl] at hy1
      injection hy1 with hy1
      have hm : (⟨false, vals.map .fin, .dist s.current, some name, some τ, some k⟩ : PObj K) ∈ ps.flatten ++ hs.flatten := by
        apply List.mem_append_left
        refine mem_flatten_get hy2 ?_
        rw [← hy1]
        exact mem_zipWith_get (fun n v => ⟨false, v.map .fin, .dist s.current, some n, some τ, some k⟩) hna hva
      simp only [refValue, conv _ name hm rfl]; rfl
  | hyper hk hst hc =>
      rename_i s cols dist name
      obtain ⟨y, hy1, hy2⟩ := mapE_get h3 (zipIdx_get hk)
      simp only [loadHyper, hst] at hy1
      injection hy1 with hy1
      have hm : (⟨true, vals.map .fin, .dist (normed dist), some name, none, some k⟩ : PObj K) ∈ ps.flatten ++ hs.flatten := by
        apply List.mem_append_right
        refine mem_flatten_get hy2 ?_
        rw [← hy1]
        exact List.mem_map.2 ⟨_, hc, rfl⟩
      simp only [refValue, conv _ name hm rfl]; rfl
  | onlineAt ht hk hst hh hj hc hi hrow hd =>
      rename_i s ms hist cur j m name i τ row dist
      subst ht
      have : ti = none := by simp only [timeIndex] at hti; injection hti with hti; exact hti.symm
      subst this
      obtain ⟨y, hy1, hy2⟩ := mapE_get h3 (zipIdx_get hk)
      simp only [loadHyper, hh, map_ok] at hy1
      obtain ⟨y', hy1, rfl⟩ := hy1
      obtain ⟨z, hz1, hz2⟩ := mapE_get hy1 (zipIdx_get hj)
      simp only [loadOnline, hst, ↓reduceIte] at hz1
      split at hz1
      · simp at hz1
      · rename_i ds hds
        injection hz1 with hz1
        have hm : (⟨true, vals.map .fin, .seq (ds.map normed), some name, none, some k⟩ : PObj K) ∈ ps.flatten ++ hs.flatten := by
          apply List.mem_append_right
          refine mem_flatten_get hy2 (mem_flatten_get hz2 ?_)
          rw [← hz1]
          exact List.mem_map.2 ⟨_, hc, rfl⟩
        obtain ⟨y2, hd1, hd2⟩ := allSome_get hds hrow
        rw [hd] at hd1; injection hd1 with hd1; subst hd1
        simp only [refValue, conv _ name hm rfl]
        have hmem : s ∈ ss := List.mem_of_getElem? hk
        simp only [bind, Except.bind, atOp, Prob.isSeq, or_true, ↓reduceIte, Option.bind_some, stampk k s hk, indexOf_nodup (hS.nodup s hmem) hi, Prob.index]
        simp only [List.getElem?_map, hd2, Option.map_some]
        rfl
  | onlineGlobal ht hk hst hh hj hc hi hrow hd =>
      rename_i s ms hist cur j m name i τ row dist
      have := glob k s τ i ht hk hi
      subst this
      obtain ⟨y, hy1, hy2⟩ := mapE_get h3 (zipIdx_get hk)
      simp only [loadHyper, hh, map_ok] at hy1
      obtain ⟨y', hy1, rfl⟩ := hy1
      obtain ⟨z, hz1, hz2⟩ := mapE_get hy1 (zipIdx_get hj)
      simp only [loadOnline, hst, ↓reduceIte, hrow, Option.bind_some, hd] at hz1
      injection hz1 with hz1
      have hm : (⟨true, vals.map .fin, .dist (normed dist), some name, some τ, some k⟩ : PObj K) ∈ ps.flatten ++ hs.flatten := by
        apply List.mem_append_right
        refine mem_flatten_get hy2 (mem_flatten_get hz2 ?_)
        rw [← hz1]
        exact List.mem_map.2 ⟨_, hc, rfl⟩
      simp only [refValue, conv _ name hm rfl]; rfl
  | onlineLatest ht hk hst hh hj hc hd hl =>
      rename_i s ms hist cur j m name τ dist
      subst ht
      have : ti = none := by simp only [timeIndex] at hti; injection hti with hti; exact hti.symm
      subst this
      obtain ⟨y, hy1, hy2⟩ := mapE_get h3 (zipIdx_get hk)
      simp only [loadHyper, hh, map_ok] at hy1
      obtain ⟨y', hy1, rfl⟩ := hy1
      obtain ⟨z, hz1, hz2⟩ := mapE_get hy1 (zipIdx_get hj)
      simp only [loadOnline, hst, Bool.false_eq_true, ↓reduceIte, hd, hl] at hz1
      injection hz1 with hz1
      have hm : (⟨true, vals.map .fin, .dist (normed dist), some name, some τ, some k⟩ : PObj K) ∈ ps.flatten ++ hs.flatten := by
        apply List.mem_append_right
        refine mem_flatten_get hy2 (mem_flatten_get hz2 ?_)
        rw [← hz1]
        exact List.mem_map.2 ⟨_, hc, rfl⟩
      simp only [refValue, conv _ name hm rfl]; rfl

end BL
