import Verif.Lemmas.ParserLoad

/-! # Queries and time steps -/

set_option linter.unusedSectionVars false

namespace BL
open Spec
variable {K : Type} [Field K] [LinearOrder K]

/-- several transition models, as in an online study -/
def PHyper.isOnline : PHyper K → Bool
  | .online _ _ _ => true
  | _ => false

/-- what a loaded parameter stands for -/
structure LoadedAs (ss : List (PStudy K)) (t : Option K) (o : PObj K) (k : ℕ) (s : PStudy K) (name : String) : Prop where
  study : ss[k]? = some s
  index : o.study = some k
  called : o.name = some name
  seqTime : o.prob.isSeq = true → o.time = none
  param : o.hyper = false → name ∈ s.names ∧ (t = none → s.store = true → o.time = none)
  hyper : o.hyper = true → name ∈ s.hyper.names ∧ (o.prob.isSeq = true ↔ t = none ∧ s.store = true ∧ s.hyper.isOnline = true)

theorem mapE_mem' {α β : Type} {f : α → Except PyErr β} {l : List α} {r : List β} (h : mapE f l = .ok r) {y : β} (hy : y ∈ r) : ∃ x ∈ l, f x = .ok y := by
  induction l generalizing r with
  | nil => simp [mapE] at h; subst h; simp at hy
  | cons a l ih =>
      simp only [mapE, bind_ok] at h
      obtain ⟨z, h1, r', h2, h3⟩ := h
      injection h3 with h3; subst h3
      rcases List.mem_cons.1 hy with rfl | hy
      · exact ⟨a, by simp, h1⟩
      · obtain ⟨x, hx, h⟩ := ih h2 hy
        exact ⟨x, by simp [hx], h⟩

theorem mem_zipWith' {α β γ : Type} {f : α → β → γ} {a : List α} {b : List β} {y : γ} (h : y ∈ List.zipWith f a b) : ∃ x ∈ a, ∃ z, y = f x z := by
  induction a generalizing b with
  | nil => simp at h
  | cons x a ih =>
      cases b with
      | nil => simp at h
      | cons z b =>
          simp only [List.zipWith_cons_cons, List.mem_cons] at h
          rcases h with rfl | h
          · exact ⟨x, by simp, z, rfl⟩
          · obtain ⟨x, hx, z, rfl⟩ := ih h
            exact ⟨x, by simp [hx], z, rfl⟩

theorem timeIndex_none {ss : List (PStudy K)} {t : Option K} {ti : Option (K × ℕ)} (h : timeIndex ss t = .ok ti) : ti = none ↔ t = none := by
  cases t with
  | none =>
      simp only [timeIndex] at h
      cases h
      simp
  | some t =>
      simp only [timeIndex] at h
      split at h
      · cases h
      · cases h
        simp

theorem loadParams_as {ss : List (PStudy K)} {t : Option K} {ti : Option (K × ℕ)} (ht : ti = none ↔ t = none) {k : ℕ} {s : PStudy K} (hs : ss[k]? = some s) {y : List (PObj K)}
    (h : loadParams k s ti = .ok y) : ∀ o ∈ y, ∃ name, LoadedAs ss t o k s name := by
  unfold loadParams at h
  intro o ho
  split at h
  · split at h
    · injection h with h; subst h
      obtain ⟨x, hx, z, rfl⟩ := mem_zipWith' ho
      exact ⟨x, hs, rfl, rfl, fun _ => rfl, fun _ => ⟨hx, fun _ _ => rfl⟩, fun h => by simp at h⟩
    · rename_i hst
      split at h
      · simp at h
      · injection h with h; subst h
        obtain ⟨x, hx, z, rfl⟩ := mem_zipWith' ho
        exact ⟨x, hs, rfl, rfl, fun h => by simp [Prob.isSeq] at h, fun _ => ⟨hx, fun _ h => absurd h hst⟩, fun h => by simp at h⟩
  · rename_i t' i
    split at h
    · simp at h
    · injection h with h; subst h
      obtain ⟨x, hx, z, rfl⟩ := mem_zipWith' ho
      exact ⟨x, hs, rfl, rfl, fun h => by simp [Prob.isSeq] at h, fun _ => ⟨hx, fun h _ => by simpa using ht.2 h⟩, fun h => by simp at h⟩

theorem loadOnline_as {ss : List (PStudy K)} {t : Option K} {ti : Option (K × ℕ)} (ht : ti = none ↔ t = none) {k : ℕ} {s : PStudy K} (hs : ss[k]? = some s) {ms : List (List (String × List K))}
    {hist : List (List (List K))} {cur : List (List K)} (hh : s.hyper = .online ms hist cur) {j : ℕ} {m : List (String × List K)} (hm : m ∈ ms) {y : List (PObj K)}
    (h : loadOnline k s hist cur ti j m = .ok y) : ∀ o ∈ y, ∃ name, LoadedAs ss t o k s name := by
  have hname : ∀ q ∈ m, q.1 ∈ s.hyper.names := by
    intro q hq
    rw [hh, PHyper.names, List.mem_flatMap]
    exact ⟨m, hm, List.mem_map_of_mem hq⟩
  have hon : s.hyper.isOnline = true := by rw [hh]; rfl
  unfold loadOnline at h
  intro o ho
  split at h
  · have ht := ht.1 rfl
    split at h
    · rename_i hst
      split at h
      · simp at h
      · injection h with h; subst h
        obtain ⟨q, hq, rfl⟩ := List.mem_map.1 ho
        exact ⟨q.1, hs, rfl, rfl, fun _ => rfl, fun h => by simp at h, fun _ => ⟨hname q hq, fun _ => ⟨ht, hst, hon⟩, fun _ => rfl⟩⟩
    · rename_i hst
      split at h
      · injection h with h; subst h
        obtain ⟨q, hq, rfl⟩ := List.mem_map.1 ho
        exact ⟨q.1, hs, rfl, rfl, fun h => by simp [Prob.isSeq] at h, fun h => by simp at h, fun _ => ⟨hname q hq, fun h => by simp [Prob.isSeq] at h, fun h => absurd h.2.1 hst⟩⟩
      · simp at h
  · rename_i t' i
    have ht : t ≠ none := fun h => by simpa using ht.2 h
    split at h
    · split at h
      · simp at h
      · injection h with h; subst h
        obtain ⟨q, hq, rfl⟩ := List.mem_map.1 ho
        exact ⟨q.1, hs, rfl, rfl, fun h => by simp [Prob.isSeq] at h, fun h => by simp at h, fun _ => ⟨hname q hq, fun h => by simp [Prob.isSeq] at h, fun h => absurd h.1 ht⟩⟩
    · split at h
      · injection h with h; subst h
        simp at ho
      · simp at h

theorem loadHyper_as {ss : List (PStudy K)} {t : Option K} {ti : Option (K × ℕ)} (ht : ti = none ↔ t = none) {k : ℕ} {s : PStudy K} (hs : ss[k]? = some s) {y : List (PObj K)}
    (h : loadHyper k s ti = .ok y) : ∀ o ∈ y, ∃ name, LoadedAs ss t o k s name := by
  unfold loadHyper at h
  intro o ho
  split at h
  · injection h with h; subst h; simp at ho
  · rename_i cols dist hd
    injection h with h; subst h
    obtain ⟨q, hq, rfl⟩ := List.mem_map.1 ho
    refine ⟨q.1, hs, rfl, rfl, fun h => by simp [Prob.isSeq] at h, fun h => by simp at h, fun _ => ⟨?_, fun h => by simp [Prob.isSeq] at h, fun h => ?_⟩⟩
    · rw [hd, PHyper.names]
      exact List.mem_map_of_mem hq
    · rw [hd] at h
      simp [PHyper.isOnline] at h
  · rename_i ms hist cur hd
    rw [map_ok] at h
    obtain ⟨r, h1, rfl⟩ := h
    obtain ⟨y, hy, ho⟩ := List.mem_flatten.1 ho
    obtain ⟨q, hq, hq'⟩ := mapE_mem' h1 hy
    exact loadOnline_as ht hs hd (by obtain ⟨-, -, hh⟩ := List.mem_zipIdx hq; rw [hh]; simp) hq' o ho

theorem loadAll_as {ss : List (PStudy K)} {t : Option K} {l : List (PObj K)} (h : loadAll ss t = .ok l) : ∀ o ∈ l, ∃ k s name, LoadedAs ss t o k s name := by
  obtain ⟨ti, ps, qs, h1, h2, h3, rfl⟩ := loadAll_ok h
  have ht := timeIndex_none h1
  have hz : ∀ q ∈ ss.zipIdx, ss[q.2]? = some q.1 := fun q hq => List.mem_zipIdx_iff_getElem?.1 hq
  intro o ho
  rcases List.mem_append.1 ho with ho | ho
  · obtain ⟨y, hy, ho⟩ := List.mem_flatten.1 ho
    obtain ⟨q, hq, hq'⟩ := mapE_mem' h2 hy
    exact ⟨q.2, q.1, loadParams_as ht (hz q hq) hq' o ho⟩
  · obtain ⟨y, hy, ho⟩ := List.mem_flatten.1 ho
    obtain ⟨q, hq, hq'⟩ := mapE_mem' h3 hy
    exact ⟨q.2, q.1, loadHyper_as ht (hz q hq) hq' o ho⟩

/-- a sequence of distributions needs a time step -/
def SeqNeeds (v : PVal K) : Prop := ∀ o, v = .obj o → o.prob.isSeq = true → needsTime v = true

theorem LoadedAs.seqNeeds {ss : List (PStudy K)} {t : Option K} {o : PObj K} {k : ℕ} {s : PStudy K} {name : String} (h : LoadedAs ss t o k s name) : SeqNeeds (.obj o) := by
  intro o' e hs
  cases e
  unfold needsTime
  simp only [hs, h.seqTime hs, h.called]
  cases o.hyper <;> rfl

theorem loadAll_seqNeeds {ss : List (PStudy K)} {t : Option K} {l : List (PObj K)} (h : loadAll ss t = .ok l) : ∀ o ∈ l, SeqNeeds (.obj o) := by
  intro o ho
  obtain ⟨k, s, name, ha⟩ := loadAll_as h o ho
  exact ha.seqNeeds

theorem index_notSeq {p p' : Prob K} {i : ℕ} (hi : p.index i = .ok p') : p'.isSeq = false := by
  unfold Prob.index at hi
  split at hi
  · split at hi
    · injection hi with hi; subst hi; rfl
    · simp at hi
  · split at hi
    · injection hi with hi; subst hi; rfl
    · simp at hi
  · simp at hi
  · injection hi with hi; subst hi; rfl

/-- values of references -/
theorem refValue_cases {E : PEnv K} {r : String × Option K} {v : PVal K} (h : refValue E r = .ok v) : ∃ o ∈ E.params, o.name = some r.1 ∧
    (r.2 = none ∧ v = .obj o ∨ (r.2 ≠ none ∧ v = .none) ∨
      ∃ τ p k ts i, r.2 = some τ ∧ (o.hyper = false ∨ o.prob.isSeq = true) ∧ o.study = some k ∧ E.stamps[k]? = some ts ∧ indexOf? ts τ = some i ∧ p.isSeq = false ∧ v = .obj { o with prob := p, time := some τ }) := by
  rw [refValue, bind_ok] at h
  obtain ⟨x, h1, h2⟩ := h
  simp only [convert] at h1
  split at h1
  swap
  · simp at h1
  rename_i o ho
  injection h1 with h1; subst h1
  refine ⟨o, List.mem_of_find?_eq_some ho, by simpa using List.find?_some ho, ?_⟩
  split at h2
  · rename_i hr
    injection h2 with h2; exact .inl ⟨hr, h2.symm⟩
  · rename_i τ hr
    simp only [atOp] at h2
    split at h2
    · rename_i hty
      split at h2
      · simp at h2
      · rename_i ts hts
        split at h2
        · simp at h2
        · rename_i i hi
          split at h2
          · simp at h2
          · rename_i p hp
            injection h2 with h2
            obtain ⟨k, hk, hts⟩ := Option.bind_eq_some_iff.1 hts
            exact .inr (.inr ⟨τ, p, k, ts, i, hr, hty, hk, hts, hi, index_notSeq hp, h2.symm⟩)
    · injection h2 with h2; exact .inr (.inl ⟨by rw [hr]; simp, h2.symm⟩)

theorem refValue_seqNeeds {E : PEnv K} (hE : ∀ o ∈ E.params, SeqNeeds (.obj o)) {r : String × Option K} {v : PVal K} (h : refValue E r = .ok v) : SeqNeeds v := by
  obtain ⟨o, ho, -, ⟨-, rfl⟩ | ⟨-, rfl⟩ | ⟨τ, p, k, ts, i, -, -, -, -, -, hp, rfl⟩⟩ := refValue_cases h
  · exact hE o ho
  · intro o' e; cases e
  · intro o' e hs
    cases e
    rw [hp] at hs
    cases hs

theorem arith_time {f : FV K → FV K → FV K} {o : Op} {x y v : PVal K} (h : arithOp f o x y = .ok v) : needsTime x = false ∧ needsTime y = false := by
  unfold arithOp at h
  split at h
  · simp at h
  · rename_i hc
    simpa using hc

theorem arith_notSeq {E : PEnv K} {o : Arith} {x y v : PVal K} (hx : SeqNeeds x) (hy : SeqNeeds y) (h : operate E o.op x y = .ok v) :
    ∀ o, v = .obj o → o.prob.isSeq = false := by
  rw [operate_arith] at h
  obtain ⟨tx, ty⟩ := arith_time h
  have key : ∀ a : PObj K, SeqNeeds (.obj a) → needsTime (.obj a) = false → a.prob.isSeq = false := by
    intro a ha ht
    by_contra hc
    have := ha a rfl (by simpa using hc)
    rw [ht] at this
    cases this
  obtain ⟨⟨a, n, rfl⟩ | ⟨a, rfl⟩, ⟨b, m, rfl⟩ | ⟨b, rfl⟩⟩ := arithOp_cases h
  · rw [arithOp_num_num h]; simp
  · rw [arithOp_num_obj h]; rintro o ho; injection ho with ho; subst ho; exact key b hy ty
  · rw [arithOp_obj_num h]; rintro o ho; injection ho with ho; subst ho; exact key a hx tx
  · rcases arithOp_obj_obj h with ⟨-, rfl⟩ | ⟨-, l, -, rfl⟩
    · rintro o ho; injection ho with ho; subst ho
      simp only [compoundOp, productProb]
      split
      · split <;> rfl
      · rfl
    · rintro o ho; injection ho with ho; subst ho; exact key a hx tx

theorem arith_seqNeeds {E : PEnv K} {o : Arith} {x y v : PVal K} (hx : SeqNeeds x) (hy : SeqNeeds y) (h : operate E o.op x y = .ok v) : SeqNeeds v := by
  intro a ha hs
  rw [arith_notSeq hx hy h a ha] at hs
  cases hs

theorem run_seqNeeds {E : PEnv K} (hE : ∀ o ∈ E.params, SeqNeeds (.obj o)) (n : ℕ) (q : Query K) (v : PVal K) (h : run E n q = .ok v) : SeqNeeds v := by
  refine run_induct E (fun q v => SeqNeeds v) ?_ ?_ ?_ ?_ ?_ ?_ ?_ ?_ n q v h
  · intro x o e; cases e
  · intro s v h; exact refValue_seqNeeds hE h
  · intro s t v h; exact refValue_seqNeeds hE h
  · intro e y v ih h; exact arith_seqNeeds (o := .mul) (by intro o e; cases e) ih h
  · intro e y v ih h; exact arith_seqNeeds (o := .mul) (by intro o e; cases e) ih h
  · intro s f e y v hf ih h
    rcases funcOp_cases h with ⟨a, n, rfl⟩ | ⟨a, rfl⟩
    · rw [funcOp_num hf h]; intro o e; cases e
    · rw [funcOp_obj hf h]
      intro o e hs
      cases e
      exact ih a rfl hs
  · intro a o b x y v iha ihb h; exact arith_seqNeeds iha ihb h
  · intro c o b x y v iha ihb h; exact arith_seqNeeds iha ihb h

/-- the value of a chain of operators has one distribution -/
theorem chain_notSeq {E : PEnv K} (hE : ∀ o ∈ E.params, SeqNeeds (.obj o)) (n : ℕ) (c : Chain K) (o : PObj K) (h : run E n (.chain c) = .ok (.obj o)) : o.prob.isSeq = false := by
  cases n with
  | zero =>
      rcases run_zero E _ _ h with ⟨x, hx⟩ | ⟨s, hs⟩
      · cases hx
      · cases hs
  | succ n =>
      cases c with
      | two a op b =>
          rw [run_two] at h
          obtain ⟨x, y, h1, h2, h3⟩ := h
          exact arith_notSeq (run_seqNeeds hE n a x h1) (run_seqNeeds hE n b y h2) h3 o rfl
      | more c op b =>
          rw [run_more] at h
          obtain ⟨x, y, h1, h2, h3⟩ := h
          exact arith_notSeq (run_seqNeeds hE n _ x h1) (run_seqNeeds hE n b y h2) h3 o rfl

/-- all references of an evaluated query have a value with time step -/
theorem run_timed (E : PEnv K) (n : ℕ) (q : Query K) (v : PVal K) (h : run E n q = .ok v) (hv : v ≠ .none) (ht : needsTime v = false) :
    ∀ r ∈ q.refs, ∃ o, refValue E r = .ok (.obj o) ∧ needsTime (.obj o) = false := by
  revert hv ht
  have key : ∀ (r : String × Option K) v, refValue E r = .ok v → v ≠ .none → needsTime v = false → ∃ o, refValue E r = .ok (.obj o) ∧ needsTime (.obj o) = false := by
    intro r v h hv ht
    obtain ⟨o, ho, -, ⟨-, rfl⟩ | ⟨-, rfl⟩ | ⟨τ, p, k, ts, i, -, -, -, -, -, hp, rfl⟩⟩ := refValue_cases h
    · exact ⟨_, h, ht⟩
    · exact absurd rfl hv
    · exact ⟨_, h, ht⟩
  have bin : ∀ {o : Arith} {x y v : PVal K}, operate E o.op x y = .ok v → (x ≠ .none ∧ needsTime x = false) ∧ y ≠ .none ∧ needsTime y = false := by
    intro o x y v h
    rw [operate_arith] at h
    obtain ⟨tx, ty⟩ := arith_time h
    obtain ⟨hx, hy⟩ := arithOp_cases h
    refine ⟨⟨?_, tx⟩, ?_, ty⟩
    · rcases hx with ⟨a, n, rfl⟩ | ⟨a, rfl⟩ <;> simp
    · rcases hy with ⟨a, n, rfl⟩ | ⟨a, rfl⟩ <;> simp
  refine run_induct E (fun q v => v ≠ .none → needsTime v = false → ∀ r ∈ q.refs, ∃ o, refValue E r = .ok (.obj o) ∧ needsTime (.obj o) = false) ?_ ?_ ?_ ?_ ?_ ?_ ?_ ?_ n q v h
  · intro x _ _ r hr; simp [Query.refs] at hr
  · intro s v h hv ht r hr
    simp only [Query.refs, List.mem_singleton] at hr
    subst hr
    exact key _ v h hv ht
  · intro s t v h hv ht r hr
    simp only [Query.refs, List.mem_singleton] at hr
    subst hr
    exact key _ v h hv ht
  · intro e y v ih h _ _
    obtain ⟨-, h1, h2⟩ := bin (o := .mul) h
    exact ih h1 h2
  · intro e y v ih h _ _
    obtain ⟨-, h1, h2⟩ := bin (o := .mul) h
    exact ih h1 h2
  · intro s f e y v hf ih h hv ht
    rcases funcOp_cases h with ⟨a, n, rfl⟩ | ⟨a, rfl⟩
    · exact ih (by simp) rfl
    · rw [funcOp_obj hf h] at ht
      exact ih (by simp) ht
  · intro a o b x y v iha ihb h _ _ r hr
    obtain ⟨⟨h1, h2⟩, h3, h4⟩ := bin h
    simp only [Query.refs, Chain.refs, List.mem_append] at hr
    exact hr.elim (iha h1 h2 r) (ihb h3 h4 r)
  · intro c o b x y v iha ihb h _ _ r hr
    obtain ⟨⟨h1, h2⟩, h3, h4⟩ := bin h
    simp only [Query.refs, Chain.refs, List.mem_append] at hr
    exact hr.elim (iha h1 h2 r) (ihb h3 h4 r)

theorem chain_timed (E : PEnv K) (n : ℕ) (c : Chain K) (v : PVal K) (h : run E n (.chain c) = .ok v) :
    ∀ r ∈ (Query.chain c).refs, ∃ o, refValue E r = .ok (.obj o) ∧ needsTime (.obj o) = false := by
  have bin : ∀ {o : Arith} {x y v : PVal K}, operate E o.op x y = .ok v → (x ≠ .none ∧ needsTime x = false) ∧ y ≠ .none ∧ needsTime y = false := by
    intro o x y v h
    rw [operate_arith] at h
    obtain ⟨tx, ty⟩ := arith_time h
    obtain ⟨hx, hy⟩ := arithOp_cases h
    refine ⟨⟨?_, tx⟩, ?_, ty⟩
    · rcases hx with ⟨a, n, rfl⟩ | ⟨a, rfl⟩ <;> simp
    · rcases hy with ⟨a, n, rfl⟩ | ⟨a, rfl⟩ <;> simp
  intro r hr
  cases n with
  | zero =>
      rcases run_zero E _ _ h with ⟨x, hx⟩ | ⟨s, hs⟩
      · cases hx
      · cases hs
  | succ n =>
      cases c with
      | two a op b =>
          rw [run_two] at h
          obtain ⟨x, y, h1, h2, h3⟩ := h
          obtain ⟨⟨p1, p2⟩, p3, p4⟩ := bin h3
          simp only [Query.refs, Chain.refs, List.mem_append] at hr
          exact hr.elim (run_timed E n a x h1 p1 p2 r) (run_timed E n b y h2 p3 p4 r)
      | more c op b =>
          rw [run_more] at h
          obtain ⟨x, y, h1, h2, h3⟩ := h
          obtain ⟨⟨p1, p2⟩, p3, p4⟩ := bin h3
          simp only [Query.refs, Chain.refs, List.mem_append] at hr
          refine hr.elim (fun hr => run_timed E n _ x h1 p1 p2 r ?_) (run_timed E n b y h2 p3 p4 r)
          simpa [Query.refs] using hr

end BL
