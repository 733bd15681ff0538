import Verif.Props.C121
import Verif.Props.C122
import Verif.Props.C130

/-! # C131: queries on an online study without history -/

set_option linter.unusedSectionVars false
set_option linter.unusedSimpArgs false

namespace Props
open BL Spec
variable {K D : Type} [Field K] [LinearOrder K] [IsStrictOrderedRing K] {d : ℕ} {gs : Fin d → ℕ}

/-- The study `s`, alone or with others (study `k` of `ss`), answers every query about its current parameters (names without time, no time argument) with the probability that the comparison is true, if `P x` is the
probability of grid point `x`.  The values of the parameters at grid point `x` are `ρ x`. -/
def AnswersLatest (names : Fin d → String) (grid : (a : Fin d) → Fin (gs a) → K) (s : PStudy K) (P : Idx gs → K) : Prop :=
  ∀ (X : PExt K) (ss : List (PStudy K)) (k : ℕ), ss[k]? = some s → Accepts ss none → Stamps ss none →
  ∀ (ρ : Idx gs → String × Option K → K), (∀ x a u, ρ x (names a, u) = grid a (x a)) →
  ∀ (left : Side K) (rel : Rel) (right : Query K), left.refs ++ right.refs ≠ [] → (∀ r ∈ left.refs ++ right.refs, (∃ a, names a = r.1) ∧ r.2 = none) →
    left.Clean X → right.Clean X → (∀ x, P x ≠ 0 → Comparable (left.extended X (ρ x)) (right.extended X (ρ x))) →
    ∃ n0, ∀ m ≥ n0, ask X m ss none left rel right = .ok (some (∑ x, P x * xindicator rel (left.extended X (ρ x)) (right.extended X (ρ x))))

theorem latest_answers {names : Fin d → String} {grid : (a : Fin d) → Fin (gs a) → K} {s : PStudy K} {P : Idx gs → K} {τ : K} (h1 : s.store = false) (h2 : s.names = List.ofFn names)
    (h3 : s.values = List.ofFn fun a => (ravelIdx gs).map fun x => grid a (x a)) (h4 : s.ts.getLast? = some τ) (h5 : s.current = (ravelIdx gs).map P) : AnswersLatest names grid s P := by
  intro X ss k hk hA hSt ρ hρ left rel right hne hr hl hrt hc
  let V : String × Option K → List K := fun r => (ravelIdx gs).map fun x => ρ x r
  let w : List K := (ravelIdx gs).map P
  have hr' : ∀ r ∈ left.refs ++ right.refs, Reads ss none r k false (some τ) (V r) w ∧ (V r).length = w.length := by
    intro r h
    refine ⟨?_, by simp [V, w]⟩
    obtain ⟨⟨a, ha⟩, h6⟩ := hr r h
    obtain ⟨nm, u⟩ := r
    simp only at ha h6
    subst ha h6
    have hV : V (names a, none) = (ravelIdx gs).map fun x => grid a (x a) := by simp only [V, hρ]
    rw [hV]
    have := Reads.latest (t := none) (a := a.val) rfl hk h1 (by rw [h2]; exact ofFn_get _ a) (by rw [h3]; exact ofFn_get _ a) h4
    rwa [h5] at this
  have hlen : w.length = (ravelIdx gs).length := by simp [w]
  have hρV : ∀ (j : ℕ) (h : j < (ravelIdx gs).length), (fun r => (V r).getD j 0) = ρ (ravelIdx gs)[j] := by
    intro j h
    funext r
    simp [V, List.getD_eq_getElem?_getD, h]
  obtain ⟨n0, h0⟩ := C127_answered X ss none hA hSt left rel right k false (some τ) V w hne hr' hl hrt
  refine ⟨n0, fun m hm => ?_⟩
  obtain ⟨p, hp⟩ := h0 m hm
  have := C127_partial X ss none hSt left rel right k false (some τ) V w hne hr' (by
    intro j h hw
    rw [hρV j (hlen ▸ h)]
    exact hc _ (by simpa [w] using hw)) m p hp
  rw [hp, this]
  congr 2
  rw [← ravelIdx_sum gs, ← Fin.sum_univ_getElem]
  refine Fintype.sum_equiv (finCongr (by simp [w])) _ _ ?_
  intro j
  rw [hρV j (hlen ▸ j.isLt)]
  simp [w]

/-- An online study without history is accepted by the parser if its parameters and hyper-parameters have different names. -/
theorem accepts_latest {s : PStudy K} {ms : List (List (String × List K))} {hist : List (List (List K))} {cur : List (List K)} {τ : K} (h1 : s.store = false) (h2 : s.hyper = .online ms hist cur)
    (h3 : cur.length = ms.length) (h4 : s.ts.getLast? = some τ) (h5 : (s.names ++ ms.flatMap fun m => m.map (·.1)).Nodup) : Accepts [s] none := by
  refine ⟨⟨_, by rw [parserNames]; simp only [List.length_singleton, one_ne_zero, if_false, List.flatMap_singleton, h2, PHyper.names]; rw [if_pos h5]⟩, ?_⟩
  obtain ⟨r, hr⟩ : ∃ r, mapE (fun q : List (String × List K) × ℕ => loadOnline 0 s hist cur none q.2 q.1) ms.zipIdx = .ok r := by
    refine mapE_succeeds fun q hq => ?_
    have hj : q.2 < cur.length := by
      have := List.mem_zipIdx hq
      rw [h3]; omega
    simp only [loadOnline, h1, Bool.false_eq_true, if_false, List.getElem?_eq_getElem hj, h4]
    exact ⟨_, rfl⟩
  have hp : ∃ r, loadParams 0 s (none : Option (K × ℕ)) = .ok r := by
    simp only [loadParams, h1, Bool.false_eq_true, if_false, h4]
    exact ⟨_, rfl⟩
  obtain ⟨r', hr'⟩ := hp
  have hh : loadHyper 0 s none = .ok r.flatten := by simp only [loadHyper, h2, hr]; rfl
  simp only [loadAll, timeIndex, mapE, List.zipIdx_cons, List.zipIdx_nil, zero_add, hr', hh, bind, Except.bind]
  exact ⟨_, rfl⟩

/-- **C131.** In the setting of C120 (several transition models with equal cell volumes of the hyper-grids), let the online study not store its history.  After every data point from the first full data segment on, the parser accepts the study, and
a query about the current parameters (like `a > 1`) is answered with the exact probability given all data so far: the average over all transition models and their hyper-parameters. -/
theorem C131_partial (c : OConf K D gs) (h1 : 1 ≤ c.seg) (ms : List (String × TM K)) (hg : GoodModels ms) (hnn : NonnegPriors ms) (hne : ms ≠ []) (hE : Regular c.E)
    (prior : PriorSpec K gs) (hn : prior.isArray = false) (π : Idx gs → K) (hp : PriorMass c.E.cell prior π) (p : Option (List K)) (S S' : OState K D gs) (hs : setup false prior ms p = .ok S) (xs : List D)
    {n : ℕ} (L : Fin (n + 1) → Idx gs → K) (hls : segLiks c xs = List.ofFn L) (hL0 : ∀ i x, 0 ≤ L i x) (τ : Fin (n + 1) → K) (hw : Walks c.E π τ L ms)
    (hr : runSteps c S xs = .ok S') (hx : c.seg ≤ xs.length) (G : Fin ms.length → HyperGrid K) (ρ : Fin ms.length → List K) (hG : ∀ i : Fin ms.length, createHyperGrid ms[i].2 [] = .ok (G i))
    (hρ : ∀ i, (G i).priors = some (ρ i)) (κ : K) (hκ : ∀ i, (G i).hgc.prod = κ) :
    ∃ s, onlineView c S' = some s ∧ ((List.ofFn c.E.names ++ ms.flatMap fun q => (entries q.2).map (·.1)).Nodup → Accepts [s] none ∧ Stamps [s] none) ∧
      AnswersLatest c.E.names c.grid s (averagePosterior c.E π ms G ρ τ L) := by
  have hI := runSteps_hist h1 (setup_hist h1 hs) xs S' hr
  have hex := C120_partial c h1 ms hg hnn hne hE false prior hn π hp p S S' hs xs L hls hL0 τ hw hr hx
  obtain ⟨-, ⟨Q, e2, e3⟩, -⟩ := C120_models_partial c h1 ms hg hnn hne hE false prior hn π hp p S S' hs xs L hls hL0 τ hw hr hx G ρ hG hρ κ hκ
  have hQ : Q = averagePosterior c.E π ms G ρ τ L := by
    funext x
    rw [e3, averagePosterior, Finset.sum_div]
    refine Finset.sum_congr rfl fun i _ => ?_
    rw [modelProbability]
    ring
  have hp0 : S'.posts.entries = [] := List.length_eq_zero_iff.1 (by rw [hI.posts]; rfl)
  have hh0 : S'.hpds = [] := List.length_eq_zero_iff.1 (by rw [hI.hpds]; rfl)
  have hx0 : xs ≠ [] := by rintro rfl; simp at hx; omega
  have hts := hI.entries_eq hx0
  have hcur : ∃ cur, allSome (S'.models.map OModelSt.hpd) = some cur ∧ cur.length = S'.models.length := by
    have hm : ∀ m ∈ S'.models, ∃ D, m.hpd = some D := by
      intro m hm
      obtain ⟨j, hj, rfl⟩ := List.getElem_of_mem hm
      obtain ⟨-, -, -, D, -, hD, -⟩ := List.Forall₂.get hex (by rw [hex.length_eq]; exact hj) hj
      exact ⟨D, hD⟩
    revert hm
    generalize S'.models = l
    intro hm
    refine ⟨l.map fun m => m.hpd.getD [], ?_, by simp⟩
    rw [← allSome_map]
    congr 1
    refine List.map_congr_left fun m h => ?_
    obtain ⟨D, hD⟩ := hm m h
    rw [hD]; rfl
  obtain ⟨cur, hc1, hc2⟩ := hcur
  have hlast : ((S'.fts.map PySeq.entries).getD []).getLast? = some ((xs.length - 1 : ℕ) : K) := by
    rw [hts, List.getLast?_eq_getElem?, List.getElem?_drop, stamps]
    simp only [List.length_drop, List.length_map, List.length_range]
    rw [List.getElem?_map, List.getElem?_range (by omega)]
    simp only [Option.map_some]
    congr 2
    omega
  refine ⟨_, by rw [onlineView, e2, hp0, hc1, hh0]; rfl, ?_, latest_answers hI.store_eq rfl rfl hlast (by rw [hQ])⟩
  intro hnd
  refine ⟨accepts_latest hI.store_eq rfl (by rw [hc2, List.length_map]) hlast ?_, ⟨?_, by intro h; simp at h⟩⟩
  · have e : (S'.models.map fun m => m.grid.names.map fun nm => (nm, m.grid.rows.map fun r => r.getD (m.tm.flatNames.idxOf nm) 0)).flatMap (fun m => m.map (·.1)) =
        ms.flatMap fun q => (entries q.2).map (·.1) := by
      rw [List.flatMap_map]
      simp only [List.flatMap_def, List.map_map]
      congr 1
      refine (List.ext_getElem (by simp [hex.length_eq]) fun j q1 q2 => ?_).symm
      rw [List.getElem_map, List.getElem_map]
      obtain ⟨-, hgr, -⟩ := List.Forall₂.get hex (by simpa using q1) (by simpa using q2)
      simp only [List.get_eq_getElem] at hgr
      have hpr := (Built.matched (hg _ (List.getElem_mem (by simpa using q1))).1).proper
      rw [(createHyperGrid_eq hpr hgr).2.1]
      simp [Function.comp_def]
    change (List.ofFn c.E.names ++ _).Nodup
    rw [e]
    exact hnd
  · intro s hs
    rw [List.mem_singleton.1 hs]
    change ((S'.fts.map PySeq.entries).getD []).Nodup
    rw [hts]
    exact (List.Nodup.map (fun a b h => by exact_mod_cast h) List.nodup_range).sublist (List.drop_sublist _ _)

/-- The study `s`, alone or with others (study `k` of `ss`), answers every query about its current hyper-parameters, named `names` (without time, no time argument), with the probability that the comparison is true, if the
combination of values `q.1` has the weight `q.2` for `q` in `W`.  `ρ r` are the values of the hyper-parameters in the combination `r`. -/
def AnswersHyperLatest (names : List String) (s : PStudy K) (W : List (List K × K)) : Prop :=
  ∀ (X : PExt K) (ss : List (PStudy K)) (k : ℕ), ss[k]? = some s → Accepts ss none → Stamps ss none →
  ∀ (ρ : List K → String × Option K → K), (∀ (r : List K) (a : ℕ) (name : String), names[a]? = some name → ρ r (name, none) = r.getD a 0) →
  ∀ (left : Side K) (rel : Rel) (right : Query K), left.refs ++ right.refs ≠ [] → (∀ r ∈ left.refs ++ right.refs, r.1 ∈ names ∧ r.2 = none) →
    left.Clean X → right.Clean X → (∀ q ∈ W, q.2 ≠ 0 → Comparable (left.extended X (ρ q.1)) (right.extended X (ρ q.1))) →
    ∃ n0, ∀ m ≥ n0, ask X m ss none left rel right =
      .ok (some ((W.map fun q => q.2 * xindicator rel (left.extended X (ρ q.1)) (right.extended X (ρ q.1))).sum / (W.map (·.2)).sum))

theorem hyper_latest_answers {names : List String} {rows : List (List K)} {D' w : List K} {s : PStudy K} {ms : List (List (String × List K))} {hist : List (List (List K))} {cur : List (List K)} {j : ℕ} {τ : K}
    (h1 : s.store = false) (h2 : s.hyper = .online ms hist cur) (h3 : ms[j]? = some (names.map fun nm => (nm, rows.map fun r => r.getD (names.idxOf nm) 0))) (h4 : cur[j]? = some D')
    (h5 : s.ts.getLast? = some τ) (hw : w.length = rows.length) (hDw : share D' = w.map (· / w.sum)) : AnswersHyperLatest names s (rows.zip w) := by
  intro X ss k hk hA hSt ρ hρ left rel right hne hr hl hrt hc
  let V : String × Option K → List K := fun r => rows.map fun x => ρ x r
  have hr' : ∀ r ∈ left.refs ++ right.refs, Reads ss none r k true (some τ) (V r) (share D') ∧ (V r).length = (share D').length := by
    intro r h
    refine ⟨?_, by simp [V, hDw, hw]⟩
    obtain ⟨h1', h2'⟩ := hr r h
    obtain ⟨nm, u⟩ := r
    simp only at h1' h2'
    subst h2'
    refine .onlineLatest rfl hk h1 h2 h3 (List.mem_map.2 ⟨nm, h1', ?_⟩) h4 h5
    rw [Prod.mk.injEq]
    refine ⟨rfl, List.map_congr_left fun x _ => ?_⟩
    rw [hρ x (names.idxOf nm) nm (List.getElem?_idxOf h1')]
  have hl' : (share D').length = rows.length := by simp [hDw, hw]
  have hρV : ∀ (j : ℕ) (h : j < rows.length), (fun r => (V r).getD j 0) = ρ rows[j] := by
    intro j h
    funext r
    simp [V, List.getD_eq_getElem?_getD, h]
  obtain ⟨n0, h0⟩ := C127_answered X ss none hA hSt left rel right k true (some τ) V (share D') hne hr' hl hrt
  refine ⟨n0, fun m hm => ?_⟩
  obtain ⟨p, hp⟩ := h0 m hm
  have := C127_partial X ss none hSt left rel right k true (some τ) V (share D') hne hr' (by
    intro j h hz
    rw [hρV j (hl' ▸ h)]
    have hj : j < w.length := by rw [hw, ← hl']; exact h
    refine hc (rows[j]'(hl' ▸ h), w[j]) ?_ ?_
    · rw [List.mem_iff_getElem]
      exact ⟨j, by simp [hw]; exact hl' ▸ h, by simp⟩
    · intro h0
      apply hz
      simp only [hDw, List.getElem_map]
      simp only at h0
      rw [h0, zero_div]) m p hp
  rw [hp, this]
  congr 2
  rw [List.map_snd_zip (by omega), div_eq_mul_inv, ← List.sum_map_mul_right]
  rw [← Fin.sum_univ_getElem]
  refine Fintype.sum_equiv (finCongr (by simp [hDw, hw])) _ _ ?_
  intro j
  rw [hρV j (hl' ▸ j.isLt)]
  simp [hDw]
  ring

/-- **C131, hyper-parameters.** In the same setting (whatever the cell volumes of the hyper-grids are), a query about the current hyper-parameters of one transition model is answered with their exact posterior probability for this
model: prior probability times probability of the data so far, summed over the combinations for which the comparison is true, divided by the sum over all combinations. -/
theorem C131_hyper_partial (c : OConf K D gs) (h1 : 1 ≤ c.seg) (ms : List (String × TM K)) (hg : GoodModels ms) (hnn : NonnegPriors ms) (hne : ms ≠ []) (hE : Regular c.E)
    (prior : PriorSpec K gs) (hn : prior.isArray = false) (π : Idx gs → K) (hp : PriorMass c.E.cell prior π) (p : Option (List K)) (S S' : OState K D gs) (hs : setup false prior ms p = .ok S) (xs : List D)
    {n : ℕ} (L : Fin (n + 1) → Idx gs → K) (hls : segLiks c xs = List.ofFn L) (hL0 : ∀ i x, 0 ≤ L i x) (τ : Fin (n + 1) → K) (hw : Walks c.E π τ L ms)
    (hr : runSteps c S xs = .ok S') (hx : c.seg ≤ xs.length) (i : Fin ms.length) (g : HyperGrid K) (ps : List K) (hgr : createHyperGrid ms[i].2 [] = .ok g) (hps : g.priors = some ps) (hrow : g.rows ≠ [])
    (s : PStudy K) (hv : onlineView c S' = some s) :
    AnswersHyperLatest ((entries ms[i].2).map (·.1)) s ((g.rows.zip ps).map fun q => (q.1, q.2 * rowEvidence c.E π ms[i].2 τ L q.1)) := by
  have hI := runSteps_hist h1 (setup_hist h1 hs) xs S' hr
  have hex := online_exact c h1 ms hg hnn hne hE false prior hn π hp p S S' hs xs L hls hL0 τ hw hr hx
  have hx0 : xs ≠ [] := by rintro rfl; simp at hx; omega
  have hlast : ((S'.fts.map PySeq.entries).getD []).getLast? = some ((xs.length - 1 : ℕ) : K) := by
    rw [hI.entries_eq hx0, List.getLast?_eq_getElem?, List.getElem?_drop, stamps]
    simp only [List.length_drop, List.length_map, List.length_range]
    rw [List.getElem?_map, List.getElem?_range (by omega)]
    simp only [Option.map_some]
    congr 2
    omega
  obtain ⟨i1, -⟩ := setup_inv h1 hs
  have hi := runSteps_inv h1 hg hne xs [] S S' i1 hr
  rw [List.nil_append] at hi
  obtain ⟨hfs, a0, -, -, -, a3, -⟩ := hi.after hx
  have hil : i.val < S'.models.length := by rw [← hex.length_eq]; exact i.2
  have hsh : SameShape ms[i].2 (S'.models[i.val]).tm := (List.Forall₂.get a3 i.2 hil).1.shape
  obtain ⟨-, e1, ps', e2, e3, e4, e5, -⟩ := List.Forall₂.get hex i.2 hil
  simp only [List.get_eq_getElem] at e1 e2 e3 e4 e5
  have hpr := (Built.matched (hg ms[i] (List.getElem_mem i.2)).1).proper
  have hmg : (S'.models[i.val]).grid = g := by
    have := hgr
    rw [Fin.getElem_fin, e1] at this
    exact Except.ok.inj this
  rw [hmg] at e2 e3 e4 e5
  obtain rfl : ps' = ps := by rw [hps] at e2; exact (Option.some.inj e2).symm
  have hcomb : combinations g = g.rows := if_neg (by rw [List.length_eq_zero_iff]; exact hrow)
  rw [hcomb] at e3 e4 e5
  have hc0 : g.hgc.prod ≠ 0 := ((hw ms[i] (List.getElem_mem i.2)).2.2.2 g hgr).1
  unfold onlineView at hv
  obtain ⟨Q, v1, hv⟩ := Option.bind_eq_some_iff.1 hv
  obtain ⟨qs, v2, hv⟩ := Option.bind_eq_some_iff.1 hv
  obtain ⟨cur, v3, hv⟩ := Option.bind_eq_some_iff.1 hv
  obtain ⟨hist, v4, rfl⟩ := Option.map_eq_some_iff.1 hv
  rw [← zip_zip_map]
  refine hyper_latest_answers (j := i.val) (τ := ((xs.length - 1 : ℕ) : K)) hI.store_eq rfl (by
      rw [List.getElem?_map, List.getElem?_eq_getElem hil, Option.map_some, hmg, (createHyperGrid_eq hpr hgr).2.1, sameShape_names hpr hsh])
    (by obtain ⟨y, y1, y2⟩ := allSome_get v3 (List.getElem?_eq_getElem hil); rw [e5] at y1; rw [y2, y1]) hlast (by rw [List.length_map, List.length_zip, e3, min_self]) ?_
  rw [Fin.getElem_fin]
  rw [overAll] at e4 ⊢
  generalize hW : ((g.rows.zip ps').map fun q => q.2 * rowEvidence c.E π ms[i.val].2 τ L q.1) = W at e4 ⊢
  have hD : ((g.rows.zip ps').map fun a => a.2 * rowEvidence c.E π ms[i.val].2 τ L a.1 / W.sum / g.hgc.prod) = W.map fun v => v / W.sum / g.hgc.prod := by
    rw [← hW, List.map_map]; rfl
  rw [hD]
  have e : (W.map fun v => v / W.sum / g.hgc.prod).sum = 1 / g.hgc.prod := by
    simp only [div_eq_mul_inv]
    rw [List.sum_map_mul_right, List.sum_map_mul_right]
    simp [e4.ne']
  rw [share, e, List.map_map]
  refine List.map_congr_left fun v _ => ?_
  simp only [Function.comp]
  field_simp

/-- The same for the parameters at time `τ`, given in the query (`a@τ > 1`) or as the argument `t`. -/
def AnswersStamp (names : Fin d → String) (grid : (a : Fin d) → Fin (gs a) → K) (τ : K) (s : PStudy K) (P : Idx gs → K) : Prop :=
  ∀ (X : PExt K) (ss : List (PStudy K)) (k : ℕ) (t : Option K), ss[k]? = some s → Accepts ss t → Stamps ss t →
  ∀ (ρ : Idx gs → String × Option K → K), (∀ x a u, ρ x (names a, u) = grid a (x a)) →
  ∀ (left : Side K) (rel : Rel) (right : Query K), left.refs ++ right.refs ≠ [] →
    (∀ r ∈ left.refs ++ right.refs, (∃ a, names a = r.1) ∧ (t = none ∧ r.2 = some τ ∨ t = some τ ∧ r.2 = none)) →
    left.Clean X → right.Clean X → (∀ x, P x ≠ 0 → Comparable (left.extended X (ρ x)) (right.extended X (ρ x))) →
    ∃ n0, ∀ m ≥ n0, ask X m ss t left rel right = .ok (some (∑ x, P x * xindicator rel (left.extended X (ρ x)) (right.extended X (ρ x))))

theorem stamp_answers {names : Fin d → String} {grid : (a : Fin d) → Fin (gs a) → K} {s : PStudy K} {P : Idx gs → K} {τ : K} {i : ℕ} (h1 : s.store = true) (h2 : s.names = List.ofFn names)
    (h3 : s.values = List.ofFn fun a => (ravelIdx gs).map fun x => grid a (x a)) (h4 : s.ts[i]? = some τ) (h5 : s.posts[i]? = some ((ravelIdx gs).map P)) : AnswersStamp names grid τ s P := by
  intro X ss k t hk hA hSt ρ hρ left rel right hne hr hl hrt hc
  let V : String × Option K → List K := fun r => (ravelIdx gs).map fun x => ρ x r
  let w : List K := (ravelIdx gs).map P
  have hr' : ∀ r ∈ left.refs ++ right.refs, Reads ss t r k false (some τ) (V r) w ∧ (V r).length = w.length := by
    intro r h
    refine ⟨?_, by simp [V, w]⟩
    obtain ⟨⟨a, ha⟩, h6⟩ := hr r h
    obtain ⟨nm, u⟩ := r
    simp only at ha h6
    subst ha
    have hV : V (names a, u) = (ravelIdx gs).map fun x => grid a (x a) := by simp only [V, hρ]
    rw [hV]
    rcases h6 with ⟨ht, rfl⟩ | ⟨ht, rfl⟩
    · exact .at (a := a.val) (i := i) ht hk h1 (by rw [h2]; exact ofFn_get _ a) (by rw [h3]; exact ofFn_get _ a) h4 h5
    · exact .global (a := a.val) (i := i) ht hk (by rw [h2]; exact ofFn_get _ a) (by rw [h3]; exact ofFn_get _ a) h4 h5
  have hlen : w.length = (ravelIdx gs).length := by simp [w]
  have hρV : ∀ (j : ℕ) (h : j < (ravelIdx gs).length), (fun r => (V r).getD j 0) = ρ (ravelIdx gs)[j] := by
    intro j h
    funext r
    simp [V, List.getD_eq_getElem?_getD, h]
  obtain ⟨n0, h0⟩ := C127_answered X ss t hA hSt left rel right k false (some τ) V w hne hr' hl hrt
  refine ⟨n0, fun m hm => ?_⟩
  obtain ⟨p, hp⟩ := h0 m hm
  have := C127_partial X ss t hSt left rel right k false (some τ) V w hne hr' (by
    intro j h hw
    rw [hρV j (hlen ▸ h)]
    exact hc _ (by simpa [w] using hw)) m p hp
  rw [hp, this]
  congr 2
  rw [← ravelIdx_sum gs, ← Fin.sum_univ_getElem]
  refine Fintype.sum_equiv (finCongr (by simp [w])) _ _ ?_
  intro j
  rw [hρV j (hlen ▸ j.isLt)]
  simp [w]

/-- **C131, studies with history.** In the setting of C120 with `storeHistory=True` and hyper-grids of the same cell volume, let `ys` be the first data points of a stream `ys ++ zs`.  After the whole stream, a query about the
parameters at the time stamp of the last data point of `ys` is answered with the exact probability given `ys`. -/
theorem C131_history_partial (c : OConf K D gs) (h1 : 1 ≤ c.seg) (ms : List (String × TM K)) (hg : GoodModels ms) (hnn : NonnegPriors ms) (hne : ms ≠ []) (hE : Regular c.E)
    (prior : PriorSpec K gs) (hn : prior.isArray = false) (π : Idx gs → K) (hp : PriorMass c.E.cell prior π) (p : Option (List K)) (S S' : OState K D gs) (hs : setup true prior ms p = .ok S) (ys zs : List D)
    {n : ℕ} (L : Fin (n + 1) → Idx gs → K) (hls : segLiks c ys = List.ofFn L) (hL0 : ∀ i x, 0 ≤ L i x) (τ : Fin (n + 1) → K) (hw : Walks c.E π τ L ms)
    (hr : runSteps c S (ys ++ zs) = .ok S') (hx : c.seg ≤ ys.length) (G : Fin ms.length → HyperGrid K) (ρ : Fin ms.length → List K) (hG : ∀ i : Fin ms.length, createHyperGrid ms[i].2 [] = .ok (G i))
    (hρ : ∀ i, (G i).priors = some (ρ i)) (κ : K) (hκ : ∀ i, (G i).hgc.prod = κ)
    (s : PStudy K) (hv : onlineView c S' = some s) :
    AnswersStamp c.E.names c.grid ((ys.length - 1 : ℕ) : K) s (averagePosterior c.E π ms G ρ τ L) := by
  have hI := runSteps_hist h1 (setup_hist h1 hs) (ys ++ zs) S' hr
  obtain ⟨T, t0, t1, -⟩ := history_entry h1 (setup_hist h1 hs) hx zs S' hr
  obtain ⟨-, ⟨Q, e2, e3⟩, -⟩ := C120_models_partial c h1 ms hg hnn hne hE true prior hn π hp p S T hs ys L hls hL0 τ hw t0 hx G ρ hG hρ κ hκ
  have hQ : Q = averagePosterior c.E π ms G ρ τ L := by
    funext x
    rw [e3, averagePosterior, Finset.sum_div]
    refine Finset.sum_congr rfl fun i _ => ?_
    rw [modelProbability]
    ring
  unfold onlineView at hv
  obtain ⟨Q', v1, hv⟩ := Option.bind_eq_some_iff.1 hv
  obtain ⟨qs, v2, hv⟩ := Option.bind_eq_some_iff.1 hv
  obtain ⟨cur, v3, hv⟩ := Option.bind_eq_some_iff.1 hv
  obtain ⟨hist, v4, rfl⟩ := Option.map_eq_some_iff.1 hv
  have hq : qs[ys.length - c.seg]? = some (averagePosterior c.E π ms G ρ τ L) := by
    obtain ⟨y, y1, y2⟩ := allSome_get (f := id) (by rw [List.map_id]; exact v2) t1
    rw [y2, ← hQ, ← e2]
    exact y1.symm
  refine stamp_answers (i := ys.length - c.seg) hI.store_eq rfl rfl ?_ ?_
  · change ((S'.fts.map PySeq.entries).getD [])[ys.length - c.seg]? = _
    rw [hI.entries_eq (by intro h; have := congrArg List.length h; rw [List.length_append, List.length_nil] at this; omega), List.getElem?_drop, stamps, List.getElem?_map, List.getElem?_range (by rw [List.length_append]; omega)]
    simp only [Option.map_some]
    congr 2
    omega
  · change (qs.map fun p => (ravelIdx gs).map p)[ys.length - c.seg]? = _
    rw [List.getElem?_map, hq]
    rfl

end Props

namespace Props
open BL Spec _root_.Ex

/-- two random walks with uncertain standard deviations, two data points, no history: the parser accepts the study, and `x > 1/2` gets the probability of the value 1 -/
example : ∃ (S S' : OState ℚ (ℚ × ℚ) gs2) (G : Fin 2 → HyperGrid ℚ) (ρ : Fin 2 → List ℚ) (s : PStudy ℚ), setup false (.func (v2 1 2)) walksAB none = .ok S ∧ runSteps oc S [(1 / 4, 3 / 4), (1 / 2, 1 / 4)] = .ok S' ∧
    (∀ i : Fin 2, createHyperGrid (walksAB[i]).2 [] = .ok (G i)) ∧ onlineView oc S' = some s ∧
    ∃ n0, ∀ m ≥ n0, ask pext m [s] none ⟨.par "x", []⟩ .gt (.num (1 / 2)) = .ok (some (∑ x : Idx gs2, averagePosterior oc.E owPrior walksAB G ρ owTimes owLik x *
      xindicator .gt (some (.num (oc.grid 0 (x 0)))) (some (.num (1 / 2))))) := by
  have h1 : holds (orun false (.func (v2 1 2)) walksAB none [(1 / 4, 3 / 4), (1 / 2, 1 / 4)]) (fun _ => true) = true := by decide +kernel
  obtain ⟨S', a1, -⟩ := holds_iff.1 h1
  obtain ⟨S, b1, b2⟩ := orun_ok a1
  have hgr : ∀ i : Fin 2, ∃ g ps, createHyperGrid (walksAB[i]).2 [] = .ok g ∧ g.priors = some ps ∧ g.hgc.prod = 1 / 2 := by
    intro i
    fin_cases i
    · exact ⟨_, [1, 1], rfl, by decide +kernel, by decide +kernel⟩
    · exact ⟨_, [2 / 3, 2 / 3, 2 / 3], rfl, by decide +kernel, by decide +kernel⟩
  choose G ρ g1 g2 g3 using hgr
  have hpm : PriorMass oc.E.cell (.func (v2 1 2)) owPrior := by
    have := PriorMass.func (cell := oc.E.cell) (v2 1 2 : Idx gs2 → ℚ) (by decide +kernel) (by decide +kernel) (.inl (by decide +kernel))
    convert this using 1
    decide +kernel
  have hls : segLiks oc [(1 / 4, 3 / 4), (1 / 2, 1 / 4)] = List.ofFn owLik := by decide +kernel
  have hL0 : ∀ i x, 0 ≤ owLik i x := by decide +kernel
  obtain ⟨s, e1, e2, e3⟩ := C131_partial oc le_rfl walksAB walksAB_good walksAB_nonneg (by simp [walksAB]) (regular2 (by norm_num)) (.func (v2 1 2)) rfl owPrior hpm none S S' b1 _ owLik hls hL0 owTimes
    walksAB_walks b2 (by decide) G ρ g1 g2 (1 / 2) g3
  obtain ⟨f1, f2⟩ := e2 (by decide +kernel)
  refine ⟨S, S', G, ρ, s, b1, b2, g1, e1, ?_⟩
  obtain ⟨n0, h0⟩ := e3 pext [s] 0 rfl f1 f2 (fun x _ => oc.grid 0 (x 0)) (by intro x a u; fin_cases a; rfl) ⟨.par "x", []⟩ .gt (.num (1 / 2)) (by simp [Side.refs, Query.refs])
    (by intro r hr; simp [Side.refs, Query.refs] at hr; subst hr; exact ⟨⟨0, rfl⟩, rfl⟩) (by simp [Side.Clean, Query.Clean]) (by simp [Query.Clean])
    (by intro z _; simp [Comparable, Side.extended, Query.extended])
  refine ⟨n0, fun m hm => ?_⟩
  rw [h0 m hm]
  rfl

/-- two random walks with uncertain standard deviations, two data points, no history: `s2 < 2` gets the share of the combinations for which it is true in the second model -/
example : ∃ (S S' : OState ℚ (ℚ × ℚ) gs2) (G : Fin 2 → HyperGrid ℚ) (ρ : Fin 2 → List ℚ) (s : PStudy ℚ), setup false (.func (v2 1 2)) walksAB none = .ok S ∧ runSteps oc S [(1 / 4, 3 / 4), (1 / 2, 1 / 4)] = .ok S' ∧
    (∀ i : Fin 2, createHyperGrid (walksAB[i]).2 [] = .ok (G i)) ∧ onlineView oc S' = some s ∧
    ∃ n0, ∀ m ≥ n0, ask pext m [s] none ⟨.par "s2", []⟩ .lt (.num 2) = .ok (some
      (((((G 1).rows.zip (ρ 1)).map fun q => (q.1, q.2 * rowEvidence oc.E owPrior (walksAB[(1 : Fin 2)]).2 owTimes owLik q.1)).map fun q => q.2 * xindicator .lt (some (.num (q.1.getD 0 0))) (some (.num 2))).sum /
        ((((G 1).rows.zip (ρ 1)).map fun q => (q.1, q.2 * rowEvidence oc.E owPrior (walksAB[(1 : Fin 2)]).2 owTimes owLik q.1)).map (·.2)).sum)) := by
  have h1 : holds (orun false (.func (v2 1 2)) walksAB none [(1 / 4, 3 / 4), (1 / 2, 1 / 4)]) (fun _ => true) = true := by decide +kernel
  obtain ⟨S', a1, -⟩ := holds_iff.1 h1
  obtain ⟨S, b1, b2⟩ := orun_ok a1
  have hgr : ∀ i : Fin 2, ∃ g ps, createHyperGrid (walksAB[i]).2 [] = .ok g ∧ g.priors = some ps ∧ g.hgc.prod = 1 / 2 := by
    intro i
    fin_cases i
    · exact ⟨_, [1, 1], rfl, by decide +kernel, by decide +kernel⟩
    · exact ⟨_, [2 / 3, 2 / 3, 2 / 3], rfl, by decide +kernel, by decide +kernel⟩
  choose G ρ g1 g2 g3 using hgr
  have hpm : PriorMass oc.E.cell (.func (v2 1 2)) owPrior := by
    have := PriorMass.func (cell := oc.E.cell) (v2 1 2 : Idx gs2 → ℚ) (by decide +kernel) (by decide +kernel) (.inl (by decide +kernel))
    convert this using 1
    decide +kernel
  have hls : segLiks oc [(1 / 4, 3 / 4), (1 / 2, 1 / 4)] = List.ofFn owLik := by decide +kernel
  have hL0 : ∀ i x, 0 ≤ owLik i x := by decide +kernel
  obtain ⟨s, e1, e2, e3⟩ := C131_partial oc le_rfl walksAB walksAB_good walksAB_nonneg (by simp [walksAB]) (regular2 (by norm_num)) (.func (v2 1 2)) rfl owPrior hpm none S S' b1 _ owLik hls hL0 owTimes
    walksAB_walks b2 (by decide) G ρ g1 g2 (1 / 2) g3
  obtain ⟨f1, f2⟩ := e2 (by decide +kernel)
  refine ⟨S, S', G, ρ, s, b1, b2, g1, e1, ?_⟩
  have hrow : (G 1).rows ≠ [] := by
    have := g1 1
    cases hc : createHyperGrid (walksAB[(1 : Fin 2)]).2 [] with
    | error e => rw [hc] at this; cases this
    | ok g =>
      rw [hc] at this
      cases this
      have h : ((createHyperGrid (walksAB[(1 : Fin 2)]).2 []).toOption.map fun g => decide (g.rows = [])) = some false := by decide +kernel
      rw [hc] at h
      simpa [Except.toOption] using h
  have e4 := C131_hyper_partial oc le_rfl walksAB walksAB_good walksAB_nonneg (by simp [walksAB]) (regular2 (by norm_num)) (.func (v2 1 2)) rfl owPrior hpm none S S' b1 _ owLik hls hL0 owTimes
    walksAB_walks b2 (by decide) (1 : Fin 2) (G 1) (ρ 1) (g1 1) (g2 1) hrow s e1
  have hnm : (entries (walksAB[(1 : Fin 2)]).2).map (·.1) = ["s2"] := by decide +kernel
  obtain ⟨n0, h0⟩ := e4 pext [s] 0 rfl f1 f2 (fun r _ => r.getD 0 0) (by
      intro r a name ha
      change ((entries (walksAB[(1 : Fin 2)]).2).map (·.1))[a]? = some name at ha
      rw [hnm] at ha
      rcases a with _ | a
      · rfl
      · simp at ha) ⟨.par "s2", []⟩ .lt (.num 2) (by simp [Side.refs, Query.refs])
    (by intro r hr; simp [Side.refs, Query.refs] at hr; subst hr; exact ⟨by change "s2" ∈ (entries (walksAB[(1 : Fin 2)]).2).map (·.1); rw [hnm]; simp, rfl⟩) (by simp [Side.Clean, Query.Clean]) (by simp [Query.Clean])
    (by intro z _ _; simp [Comparable, Side.extended, Query.extended])
  refine ⟨n0, fun m hm => ?_⟩
  rw [h0 m hm]
  rfl

/-- two random walks with uncertain standard deviations, four data points, with history: `x@1 > 1/2` gets the probability of the value 1 after the first two data points -/
example : ∃ (S S' : OState ℚ (ℚ × ℚ) gs2) (G : Fin 2 → HyperGrid ℚ) (ρ : Fin 2 → List ℚ) (s : PStudy ℚ), setup true (.func (v2 1 2)) walksAB none = .ok S ∧ runSteps oc S ([(1 / 4, 3 / 4), (1 / 2, 1 / 4)] ++ [(1 / 8, 1 / 2), (1, 1 / 3)]) = .ok S' ∧
    (∀ i : Fin 2, createHyperGrid (walksAB[i]).2 [] = .ok (G i)) ∧ onlineView oc S' = some s ∧
    ∃ n0, ∀ m ≥ n0, ask pext m [s] none ⟨.at "x" 1, []⟩ .gt (.num (1 / 2)) = .ok (some (∑ x : Idx gs2, averagePosterior oc.E owPrior walksAB G ρ owTimes owLik x *
      xindicator .gt (some (.num (oc.grid 0 (x 0)))) (some (.num (1 / 2))))) := by
  have h1 : holds (orun true (.func (v2 1 2)) walksAB none ([(1 / 4, 3 / 4), (1 / 2, 1 / 4)] ++ [(1 / 8, 1 / 2), (1, 1 / 3)])) (fun S => decide (((onlineView oc S).map fun s => (decide (s.ts = [0, 1, 2, 3]) && (parserNames [s]).toBool && (loadAll [s] none).toBool)) = some true)) = true := by decide +kernel
  obtain ⟨S', a1, a2⟩ := holds_iff.1 h1
  obtain ⟨s, e1, a3⟩ := Option.map_eq_some_iff.1 (of_decide_eq_true a2)
  rw [Bool.and_eq_true, Bool.and_eq_true] at a3
  obtain ⟨⟨a4, a5⟩, a6⟩ := a3
  obtain ⟨S, b1, b2⟩ := orun_ok a1
  have hgr : ∀ i : Fin 2, ∃ g ps, createHyperGrid (walksAB[i]).2 [] = .ok g ∧ g.priors = some ps ∧ g.hgc.prod = 1 / 2 := by
    intro i
    fin_cases i
    · exact ⟨_, [1, 1], rfl, by decide +kernel, by decide +kernel⟩
    · exact ⟨_, [2 / 3, 2 / 3, 2 / 3], rfl, by decide +kernel, by decide +kernel⟩
  choose G ρ g1 g2 g3 using hgr
  have hpm : PriorMass oc.E.cell (.func (v2 1 2)) owPrior := by
    have := PriorMass.func (cell := oc.E.cell) (v2 1 2 : Idx gs2 → ℚ) (by decide +kernel) (by decide +kernel) (.inl (by decide +kernel))
    convert this using 1
    decide +kernel
  have hls : segLiks oc [(1 / 4, 3 / 4), (1 / 2, 1 / 4)] = List.ofFn owLik := by decide +kernel
  have hL0 : ∀ i x, 0 ≤ owLik i x := by decide +kernel
  have e3 := C131_history_partial oc le_rfl walksAB walksAB_good walksAB_nonneg (by simp [walksAB]) (regular2 (by norm_num)) (.func (v2 1 2)) rfl owPrior hpm none S S' b1 _ _ owLik hls hL0 owTimes
    walksAB_walks b2 (by decide) G ρ g1 g2 (1 / 2) g3 s e1
  have okay : ∀ {α : Type} {r : Except PyErr α}, r.toBool = true → ∃ v, r = .ok v := by
    intro α r h
    cases r with
    | error e => cases h
    | ok v => exact ⟨v, rfl⟩
  have f1 : Accepts [s] none := ⟨okay a5, okay a6⟩
  have f2 : Stamps [s] none := ⟨by intro s' h; rw [List.mem_singleton.1 h, of_decide_eq_true a4]; decide +kernel, by intro h; simp at h⟩
  refine ⟨S, S', G, ρ, s, b1, b2, g1, e1, ?_⟩
  obtain ⟨n0, h0⟩ := e3 pext [s] 0 none rfl f1 f2 (fun x _ => oc.grid 0 (x 0)) (by intro x a u; fin_cases a; rfl) ⟨.at "x" 1, []⟩ .gt (.num (1 / 2)) (by simp [Side.refs, Query.refs])
    (by intro r hr; simp [Side.refs, Query.refs] at hr; subst hr; exact ⟨⟨0, rfl⟩, .inl ⟨rfl, by norm_num⟩⟩) (by simp [Side.Clean, Query.Clean]) (by simp [Query.Clean])
    (by intro z _; simp [Comparable, Side.extended, Query.extended])
  refine ⟨n0, fun m hm => ?_⟩
  rw [h0 m hm]
  rfl

end Props
