import Verif.Props.C105
import Verif.Lemmas.Float64Range

/-! # C106: numbers of type float64 -/

set_option linter.unusedSectionVars false

namespace Spec
variable {K : Type} [Field K] [LinearOrder K]

/-- Smallest result down to which the operations need full precision, so that nothing is lost in `T` time steps.  `k`: elementary transition models, `G`: grid points, `κ`: smallest weight of the filters,
`c`: largest likelihood ratio of a single data point, `B`: sum of the prior values (at least 8), `p`: smallest prior value, `l`: smallest likelihood. -/
def margin (k G T : ℕ) (κ c B p l : K) : K := p ^ 2 * ((κ / 2) ^ k / (32 * c * B)) ^ (2 * T + 1) * min 1 l / (2 ^ 13 * G ^ 2)

end Spec

namespace BL
open Spec
variable {K : Type} [Field K] [LinearOrder K] [IsStrictOrderedRing K] {d : ℕ} {gs : Fin d → ℕ}

/-- the conditions of `ffit_range` and `ffit_walk` -/
theorem margin_conditions {k G T : ℕ} (hG : 1 ≤ G) {κ c B p l low : K} (hκ : 0 < κ) (hκ1 : κ ≤ 1) (hc : 1 ≤ c) (hB : 8 ≤ B) (hp : 0 < p) (hp1 : p ≤ 1) (hl : 0 < l) (h : low ≤ margin k G T κ c B p l)
    {f g : K} (hf : f = (κ / 2) ^ k / (16 * c * B)) (hg : g = κ ^ k / (32 * c * B)) :
    ∃ m, 0 < m ∧ m ≤ 1 ∧ m ≤ p * f ^ T ∧ m ≤ 1 / (4 * G) * f ^ T ∧ m ≤ 1 / (8 * G) * g ^ T ∧ 128 * low ≤ m ^ 2 * f ∧ 128 * low ≤ m ^ 2 * f * l := by
  have hc0 : 0 < c := zero_lt_one.trans_le hc
  have hB0 : 0 < B := by linarith
  have hG1 : (1 : K) ≤ G := by exact_mod_cast hG
  have hG0 : (0 : K) < G := by linarith
  obtain ⟨q, hq⟩ : ∃ q, q = (κ / 2) ^ k / (32 * c * B) := ⟨_, rfl⟩
  have hq0 : 0 < q := by rw [hq]; positivity
  have hqf : q ≤ f := by
    rw [hq, hf]
    refine div_le_div_of_nonneg_left (by positivity) (by positivity) ?_
    have : 0 < c * B := by positivity
    linarith
  have hqg : q ≤ g := by
    rw [hq, hg]
    exact div_le_div_of_nonneg_right (pow_le_pow_left₀ (by positivity) (by linarith) k) (by positivity)
  have hq1 : q ≤ 1 := by
    rw [hq, div_le_one (by positivity)]
    refine (pow_le_one₀ (by positivity) (by linarith)).trans ?_
    nlinarith
  have hqT : q ^ T ≤ 1 := pow_le_one₀ hq0.le hq1
  have hqT0 : 0 < q ^ T := pow_pos hq0 T
  have hqfT : q ^ T ≤ f ^ T := pow_le_pow_left₀ hq0.le hqf T
  have hqgT : q ^ T ≤ g ^ T := pow_le_pow_left₀ hq0.le hqg T
  have h8 : 1 / (8 * (G : K)) ≤ 1 := by rw [div_le_one (by positivity)]; linarith
  have h48 : 1 / (8 * (G : K)) ≤ 1 / (4 * G) := one_div_le_one_div_of_le (by positivity) (by linarith)
  obtain ⟨m, hm⟩ : ∃ m, m = p * (1 / (8 * G)) * q ^ T := ⟨_, rfl⟩
  have hm0 : 0 < m := by rw [hm]; positivity
  have key : m ≤ 1 / (8 * G) * q ^ T := by
    rw [hm, mul_assoc]
    exact mul_le_of_le_one_left (by positivity) hp1
  have h128 : 128 * low ≤ m ^ 2 * q * min 1 l := by
    have e1 : m ^ 2 * q * min 1 l = 128 * margin k G T κ c B p l := by
      rw [margin, ← hq, hm, show 2 * T + 1 = T + T + 1 by ring, pow_succ, pow_add]
      field_simp
      ring
    rw [e1]
    linarith
  have hmq : m ^ 2 * q ≤ m ^ 2 * f := mul_le_mul_of_nonneg_left hqf (by positivity)
  have hmq0 : 0 < m ^ 2 * q := by positivity
  refine ⟨m, hm0, ?_, ?_, ?_, ?_, ?_, ?_⟩
  · refine key.trans ?_
    calc 1 / (8 * (G : K)) * q ^ T ≤ 1 * 1 := mul_le_mul h8 hqT hqT0.le zero_le_one
      _ = 1 := one_mul 1
  · rw [hm]
    exact mul_le_mul (mul_le_of_le_one_right hp.le h8) hqfT hqT0.le hp.le
  · exact key.trans (mul_le_mul h48 hqfT hqT0.le (by positivity))
  · exact key.trans (mul_le_mul_of_nonneg_left hqgT (by positivity))
  · refine h128.trans (le_trans ?_ hmq)
    exact mul_le_of_le_one_right hmq0.le (min_le_left _ _)
  · refine h128.trans ?_
    exact mul_le_mul hmq (min_le_right _ _) (lt_min one_pos hl).le (hmq0.le.trans hmq)

variable [FloorRing K]

theorem runOK {E : Env K gs} (hE : Regular E) {tm : TM K} (hL : Linear E tm) (hR : ResetFree tm) {κ low : K} (hκ : 0 < κ) (hκ1 : κ ≤ 1) (hW : WeightsAtLeast E κ tm) {pr : PriorSpec K gs} {e : ℕ}
    (hM : ((Fintype.card (Idx gs) + (elements tm + 1) * e + 1 : ℕ) : K) * u64 K ≤ 1 / 2) : RunOK E { E with prior := pr } tm κ low (Fintype.card (Idx gs) + (elements tm + 1) * e + 1) e where
  regular := hE
  twin := ⟨hE.gauss, rfl, rfl, rfl⟩
  linear := hL
  linear' := linear_prior _ tm hL
  free := hR
  pos := hκ
  le_one := hκ1
  weights := weights_prior tm hW
  half := by
    have := pow_bernoulli (u64_pos (K := K)).le u64_lt (Fintype.card (Idx gs) + (elements tm + 1) * e + 1)
    linarith
  grid := by omega
  one_le := by omega
  acc := by nlinarith [Nat.zero_le (elements tm * e)]
  parts := by nlinarith [Nat.zero_le e, Nat.zero_le (Fintype.card (Idx gs))]

end BL

namespace Props
open BL Spec
variable {K : Type} [Field K] [LinearOrder K] [IsStrictOrderedRing K] [FloorRing K] {d : ℕ} {gs : Fin d → ℕ}

/-- **C106 (partial: if the smallest numbers are not too small).** Numbers of type `float64`, with their smallest positive number; every operation returns the nearest number.  Transition models assembled from
Static, GaussianRandomWalk, Combined and Serial without resets.  If positive prior values are not below `p`, positive likelihoods not below `l` and likelihood ratios of single data points not above `c`, and if
the elementary transitions are accurate down to `low ≤ margin …`, then no run of `fit` loses anything by underflow: all results have the small relative errors of C104. -/
theorem C106_partial {E : Env K gs} {grid : (a : Fin d) → Fin (gs a) → K} (hE : Regular E) {tm : TM K} (hL : Linear E tm) (hR : ResetFree tm) {κ : K} (hκ : 0 < κ) (hκ1 : κ ≤ 1) (hW : WeightsAtLeast E κ tm)
    {S A : FitState K gs} {π : Idx gs → K} (hp : PriorMass E.cell S.prior π) {eP eL e : ℕ} {a' : Idx gs → K} (ha : ∀ x, Acc (u64 K) eP (π x / E.cell) (a' x)) (haf : ∀ x, a' x ∈ float64 K)
    {p B : K} (hp0 : 0 < p) (hp1 : p ≤ 1) (hap : ∀ x, a' x = 0 ∨ p ≤ a' x) (hB : 8 ≤ B) (haB : ∑ x, a' x ≤ B) {c' : K} (hc' : Acc (u64 K) eP E.cell c')
    {liks liks' : List (Idx gs → K)} {ts : List K} (hl : List.Forall₂ (fun L L' => ∀ x, Acc (u64 K) eL (L x) (L' x)) liks liks') {l c : K} (hl0 : 0 < l) (hc : 1 ≤ c)
    (hlow : ∀ L ∈ liks', ∀ x, L x = 0 ∨ l ≤ L x) (hratio : ∀ L ∈ liks', ∀ x y, L x ≠ 0 → L y ≤ c * L x)
    {low : K} (ht : tiny64 K ≤ low) (hm : low ≤ margin (elements tm) (Fintype.card (Idx gs)) liks.length κ c B p l)
    (hM : ((Fintype.card (Idx gs) + (elements tm + 1) * e + 1 : ℕ) : K) * u64 K ≤ 1 / 2)
    {fo : Bool} (hfit : fit E grid tm liks ts fo false S = .ok A) (hev : A.logEv.exp ≠ 0) {posts : List (Idx gs → K)} {norms : List K}
    (h' : FFit { E with prior := S.prior } tm e low a' liks' ts fo posts norms) {N N' : ℕ} (hN : N = roundings liks.length (Fintype.card (Idx gs)) (elements tm) e eP eL)
    (hN' : N' = N + 1 + Fintype.card (Idx gs)) (hNu : N' * u64 K < 1) :
    A.posts.length = posts.length ∧
      (∀ (i : ℕ) (c : Cell (Idx gs → K)) (p' : Idx gs → K), A.posts[i]? = some c → posts[i]? = some p' → ∃ p, c = Cell.val p ∧ (∀ x, |p' x - p x| ≤ gam N (u64 K) * p x) ∧
        ∀ a m m', (A.means a)[i]? = some m → RMean (u64 K) grid a p' m' → |m' - m| ≤ gam N' (u64 K) * ∑ x, p x * |grid a (x a)|) ∧
      |norms.prod * c' - A.logEv.exp| ≤ gam N (u64 K) * A.logEv.exp := by
  have := hE.nonempty
  obtain ⟨m, m0, m1, m2, m3, -, m5, m6⟩ := margin_conditions (Fintype.card_pos (α := Idx gs)) hκ hκ1 hc hB hp0 hp1 hl0 hm rfl rfl
  have hL0 : ∀ L ∈ liks', LikOK l c L := fun L hL => ⟨fun x => (hlow L hL x).elim (fun h => h.ge) fun h => hl0.le.trans h, hlow L hL, hratio L hL⟩
  exact C104 hE hL hp (Or.inl hR) u64_pos.le ha hc' hl hfit hev
    (ffit_range (runOK hE hL hR hκ hκ1 hW hM) hl0 hc hB rfl ht hp0 m0 m1 m2 m3 m5 m6 h' hl.length_eq.symm (fun x => ⟨haf x, (ha x).right⟩) hap haB hL0) hN hN' hNu

/-- **C106 (impossible data, partial).** Under the conditions of `C106_partial`: a run of `fit` stops with the message that the data are impossible if and only if the evidence is zero in exact arithmetic. -/
theorem C106_stop_partial {E : Env K gs} {grid : (a : Fin d) → Fin (gs a) → K} (hE : Regular E) {tm : TM K} (hL : Linear E tm) (hR : ResetFree tm) {κ : K} (hκ : 0 < κ) (hκ1 : κ ≤ 1) (hW : WeightsAtLeast E κ tm)
    {S A : FitState K gs} {π : Idx gs → K} (hp : PriorMass E.cell S.prior π) {eP eL e : ℕ} {a' : Idx gs → K} (ha : ∀ x, Acc (u64 K) eP (π x / E.cell) (a' x)) (haf : ∀ x, a' x ∈ float64 K)
    {p B : K} (hp0 : 0 < p) (hp1 : p ≤ 1) (hap : ∀ x, a' x = 0 ∨ p ≤ a' x) (hB : 8 ≤ B) (haB : ∑ x, a' x ≤ B)
    {liks liks' : List (Idx gs → K)} {ts : List K} (hl : List.Forall₂ (fun L L' => ∀ x, Acc (u64 K) eL (L x) (L' x)) liks liks') {l c : K} (hl0 : 0 < l) (hc : 1 ≤ c)
    (hlow : ∀ L ∈ liks', ∀ x, L x = 0 ∨ l ≤ L x) (hratio : ∀ L ∈ liks', ∀ x y, L x ≠ 0 → L y ≤ c * L x)
    {low : K} (ht : tiny64 K ≤ low) (hm : low ≤ margin (elements tm) (Fintype.card (Idx gs)) liks.length κ c B p l)
    (hM : ((Fintype.card (Idx gs) + (elements tm + 1) * e + 1 : ℕ) : K) * u64 K ≤ 1 / 2)
    {fo : Bool} (hfit : fit E grid tm liks ts fo true S = .ok A) {steps : List (Step K gs)} {stopped : Bool}
    (h' : FFwd { E with prior := S.prior } tm e low a' liks' ts steps stopped) : stopped = true ↔ A.logEv.exp = 0 := by
  have := hE.nonempty
  obtain ⟨m, m0, m1, m2, m3, -, m5, m6⟩ := margin_conditions (Fintype.card_pos (α := Idx gs)) hκ hκ1 hc hB hp0 hp1 hl0 hm rfl rfl
  have hL0 : ∀ L ∈ liks', LikOK l c L := fun L hL => ⟨fun x => (hlow L hL x).elim (fun h => h.ge) fun h => hl0.le.trans h, hlow L hL, hratio L hL⟩
  exact C104_stop hE hL hp (Or.inl hR) u64_pos.le u64_lt ha hl hfit
    (ffwd_range (runOK hE hL hR hκ hκ1 hW hM) hl0 hc hB rfl ht hp0 m0 m1 m2 m5 m6 h' hl.length_eq.symm (fun x => ⟨haf x, (ha x).right⟩) hap haB hL0).1

/-- **C106 (random walks, any number of data points, partial).** If every parameter performs a random walk at all times and all likelihoods are positive, the condition for the smallest numbers does not depend
on the number of data points (`w + 1`: number of grid points along the longest axis): for data of any length, all distributions and mean values of every run with numbers of type `float64` differ from the exact
ones at most by the bound of C105. -/
theorem C106_walks_partial (E : Env K gs) (tm : TM K) (hE : Regular E) (hW : ∀ s, 0 < s → ∀ k : ℤ, |k| ≤ E.ext.gaussR s → 0 < E.ext.gaussW s k) (hL : Linear E tm) (hR : ResetFree tm)
    (hA : ∀ a, Wanders E a tm) (c : K) (hc : 1 ≤ c) (κ : K) (hκ : 0 < κ) (hκ1 : κ ≤ 1) (hκW : WeightsAtLeast E κ tm) (w : ℕ) (hw : ∀ b, gs b ≤ w + 1) :
    ∃ D : K, ∀ (grid : (a : Fin d) → Fin (gs a) → K) (S : FitState K gs) (π : Idx gs → K), PriorMass E.cell S.prior π → 0 < ∑ x, π x →
      ∀ (eP eL e N N' : ℕ), N = stepRoundings (Fintype.card (Idx gs)) (elements tm) e eP eL → N' = N + 1 + Fintype.card (Idx gs) → N' * u64 K < 1 →
      ((Fintype.card (Idx gs) + (elements tm + 1) * e + 1 : ℕ) : K) * u64 K ≤ 1 / 2 →
      ∀ (p B l low : K), 0 < p → p ≤ 1 → 8 ≤ B → 0 < l → tiny64 K ≤ low → low ≤ margin (elements tm) (Fintype.card (Idx gs)) w κ c B p l →
      ∀ (n : ℕ) (L : Fin (n + 1) → Idx gs → K) (τ : Fin (n + 1) → K) (fo : Bool), (∀ i x, 0 < L i x) → (∀ i x y, L i x ≤ c * L i y) → (fo = true ∨ ∀ i : Fin n, τ i.succ = τ i.castSucc + 1) →
      ∀ (a' : Idx gs → K) (liks' posts : List (Idx gs → K)) (norms : List K), (∀ x, Acc (u64 K) eP (π x / E.cell) (a' x)) → (∀ x, a' x ∈ float64 K) → (∀ x, a' x = 0 ∨ p ≤ a' x) → ∑ x, a' x ≤ B →
        List.Forall₂ (fun L L' => ∀ x, Acc (u64 K) eL (L x) (L' x)) (List.ofFn L) liks' → (∀ L' ∈ liks', ∀ x, l ≤ L' x) → (∀ L' ∈ liks', ∀ x y, L' x ≤ c * L' y) →
        FFit { E with prior := S.prior } tm e low a' liks' (List.ofFn τ) fo posts norms →
        ∃ (A : FitState K gs) (p : Fin (n + 1) → Idx gs → K), fit E grid tm (List.ofFn L) (List.ofFn τ) fo false S = .ok A ∧ A.posts = List.ofFn (fun i => .val (p i)) ∧ posts.length = n + 1 ∧
          ∀ (i : Fin (n + 1)) (p' : Idx gs → K), posts[i.val]? = some p' →
            ∑ x, |p' x - p i x| ≤ D * gam N (u64 K) ∧
            ∀ a m m' B, (A.means a)[i.val]? = some m → RMean (u64 K) grid a p' m' → (∀ j, |grid a j| ≤ B) → |m' - m| ≤ D * gam N' (u64 K) * B := by
  obtain ⟨D, hD⟩ := C105 E tm hE hW hL hR hA c hc
  refine ⟨D, fun grid S π hp hs eP eL e N N' hN hN' hNu hM p B l low hp0 hp1 hB hl0 ht hm n L τ fo hL0 hLc hmode a' liks' posts norms ha haf hap haB hl hl' hr' h' => ?_⟩
  have := hE.nonempty
  obtain ⟨m, m0, m1, m2, m3, m4, m5, m6⟩ := margin_conditions (Fintype.card_pos (α := Idx gs)) hκ hκ1 hc hB hp0 hp1 hl0 hm rfl rfl
  exact hD grid S π hp hs (u64 K) eP eL e N N' u64_pos.le hN hN' hNu n L τ fo hL0 hLc hmode a' liks' posts norms ha hl
    (ffit_walk (runOK hE hL hR hκ hκ1 hκW hM) hW hκW hA hl0 hc hB rfl rfl ht hp0 hw m0 m1 m2 m3 m4 m5 m6 h' (fun x => ⟨haf x, (ha x).right⟩) hap haB
      (fun L' hL' => ⟨fun x => hl0.le.trans (hl' L' hL' x), fun x => Or.inr (hl' L' hL' x), fun x y _ => hr' L' hL' y x⟩) fun L' hL' x => (hl0.trans_le (hl' L' hL' x)).ne')

/-- **C106 (random walks, impossible data, partial).** Under these conditions no run of any length stops. -/
theorem C106_walks_stop_partial (E : Env K gs) (tm : TM K) (hE : Regular E) (hW : ∀ s, 0 < s → ∀ k : ℤ, |k| ≤ E.ext.gaussR s → 0 < E.ext.gaussW s k) (hL : Linear E tm) (hR : ResetFree tm)
    (hA : ∀ a, Wanders E a tm) (c : K) (hc : 1 ≤ c) (κ : K) (hκ : 0 < κ) (hκ1 : κ ≤ 1) (hκW : WeightsAtLeast E κ tm) (w : ℕ) (hw : ∀ b, gs b ≤ w + 1) (S : FitState K gs) (π : Idx gs → K) (hp : PriorMass E.cell S.prior π)
    (hs : 0 < ∑ x, π x) (eP e : ℕ) (hM : ((Fintype.card (Idx gs) + (elements tm + 1) * e + 1 : ℕ) : K) * u64 K ≤ 1 / 2) (p B l low : K) (hp0 : 0 < p) (hp1 : p ≤ 1) (hB : 8 ≤ B) (hl0 : 0 < l) (ht : tiny64 K ≤ low)
    (hm : low ≤ margin (elements tm) (Fintype.card (Idx gs)) w κ c B p l) (a' : Idx gs → K) (ha : ∀ x, Acc (u64 K) eP (π x / E.cell) (a' x)) (haf : ∀ x, a' x ∈ float64 K) (hap : ∀ x, a' x = 0 ∨ p ≤ a' x)
    (haB : ∑ x, a' x ≤ B) (n : ℕ) (L : Fin (n + 1) → Idx gs → K) (hl' : ∀ i x, l ≤ L i x) (hr' : ∀ i x y, L i x ≤ c * L i y) (τ : Fin (n + 1) → K) (steps : List (Step K gs)) (stopped : Bool)
    (h' : FFwd { E with prior := S.prior } tm e low a' (List.ofFn L) (List.ofFn τ) steps stopped) : stopped = false := by
  have := hE.nonempty
  obtain ⟨m, m0, m1, m2, m3, m4, m5, m6⟩ := margin_conditions (Fintype.card_pos (α := Idx gs)) hκ hκ1 hc hB hp0 hp1 hl0 hm rfl rfl
  have hL0 : ∀ i x, 0 < L i x := fun i x => hl0.trans_le (hl' i x)
  have hmem : ∀ {P : (Idx gs → K) → Prop}, (∀ i, P (L i)) → ∀ L' ∈ List.ofFn L, P L' := fun hP L' hL' => by
    obtain ⟨i, rfl⟩ := (List.mem_ofFn' _ _).1 hL'
    exact hP i
  have hrun := (ffwd_walk (runOK hE hL hR hκ hκ1 hκW hM) hW hκW hA hl0 hc hB rfl rfl ht hp0 hw m0 m1 m2 m4 m5 m6 h' (fun x => ⟨haf x, (ha x).right⟩) hap haB
      (hmem fun i => ⟨fun x => (hL0 i x).le, fun x => Or.inr (hl' i x), fun x y _ => hr' i y x⟩) (hmem fun i x => (hL0 i x).ne')).1
  obtain ⟨A, h1, h2⟩ := C01_evidence_is_path_sum E (fun _ _ => 0) tm hE hL hR S π hp L (fun i x => (hL0 i x).le) τ true true (Or.inl rfl)
  have hπ := priorMass_nonneg (cell_pos hE.lattice_pos) hp
  have he := (evidence_pos (n := n) (T := fun i : Fin n => kernel E π tm (τ i.castSucc)) (L := L) hπ hs (fun i => kernel_nonneg hE.gauss tm (Or.inl hR) _) (fun i => kernel_sum hE.gauss tm hL (Or.inl hR) _) hL0).ne'
  rw [← h2] at he
  have key := C104_stop hE hL hp (Or.inl hR) u64_pos.le u64_lt ha (eL := 0) (List.forall₂_same.2 (hmem fun i x => Acc.refl u64_pos.le u64_lt (hL0 i x).le 0)) h1 hrun
  rw [← Bool.not_eq_true, key]
  exact he

end Props

namespace BL

/-- the operation with exact result `a` can only return `b` -/
def Returns (a b : ℚ) : Prop := Fl a b ∧ ∀ b', Fl a b' → b' = b

theorem mem_float64 (m : ℤ) (k : ℕ) (hm : |m| < 2 ^ 53) (hk : k ≤ 1074) : (m / 2 ^ k : ℚ) ∈ float64 ℚ :=
  ⟨m, -k, hm, by omega, by omega, by rw [zpow_neg, zpow_natCast, div_eq_mul_inv]⟩

theorem Returns.exact {a : ℚ} (m : ℤ) (k : ℕ) (h : a = m / 2 ^ k) (hm : |m| < 2 ^ 53) (hk : k ≤ 1074) : Returns a a := by
  have ha : a ∈ float64 ℚ := by rw [h]; exact mem_float64 m k hm hk
  refine ⟨⟨ha, fun c _ => by rw [sub_self, abs_zero]; exact abs_nonneg _, ?_⟩, fun b' h' => h'.exact ha⟩
  have h1 : |(m : ℚ)| ≤ 2 ^ 53 - 1 := by
    have : |m| ≤ 2 ^ 53 - 1 := by omega
    exact_mod_cast this
  have h2 : |a| ≤ |(m : ℚ)| := by
    rw [h, abs_div, abs_of_pos (by positivity : (0 : ℚ) < 2 ^ k)]
    exact div_le_self (abs_nonneg _) (one_le_pow₀ (by norm_num))
  refine (h2.trans h1).trans (le_mul_of_one_le_right (by norm_num) (one_le_pow₀ (by norm_num)))

/-- underflow -/
theorem Returns.underflow {a : ℚ} (h0 : 0 ≤ a) (h : a < 1 / 2 ^ 1075) : Returns a 0 := by
  have key : ∀ b ∈ float64 ℚ, b ≠ 0 → a ≤ |b - a| ∧ |b - a| ≠ a := by
    intro b hb hb0
    obtain ⟨n, rfl⟩ := float64_multiple hb
    have hn : n ≠ 0 := by rintro rfl; simp at hb0
    have h2 : (2 : ℚ) ^ (-1074 : ℤ) = 2 * (1 / 2 ^ 1075) := by decide +kernel
    have hp : (0 : ℚ) < 1 / 2 ^ 1075 := by positivity
    rw [h2]
    obtain ⟨t, ht⟩ : ∃ t : ℚ, t = 1 / 2 ^ 1075 := ⟨_, rfl⟩
    rw [← ht] at h hp ⊢
    have : a < |n * (2 * t) - a| := by
      rcases lt_or_gt_of_ne hn with hn | hn
      · have : (n : ℚ) ≤ -1 := by exact_mod_cast (by omega : n ≤ -1)
        refine lt_of_lt_of_le ?_ (neg_le_abs _)
        nlinarith
      · have : (1 : ℚ) ≤ n := by exact_mod_cast hn
        refine lt_of_lt_of_le ?_ (le_abs_self _)
        nlinarith
    exact ⟨this.le, this.ne'⟩
  refine ⟨⟨float64_zero, fun c hc => ?_, ?_⟩, fun b' h' => ?_⟩
  · by_cases hc0 : c = 0
    · rw [hc0]
    · rw [zero_sub, abs_neg, abs_of_nonneg h0]
      exact (key c hc hc0).1
  · rw [abs_of_nonneg h0]
    exact h.le.trans (by decide +kernel)
  · by_contra hb
    have h1 := h'.2.1 0 float64_zero
    rw [zero_sub, abs_neg, abs_of_nonneg h0] at h1
    obtain ⟨h2, h3⟩ := key b' h'.1 hb
    exact h3 (le_antisymm h1 h2)

/-- a much smaller number gets lost in a sum -/
theorem Returns.absorb {x : ℚ} (h0 : 0 ≤ x) (h : x < 1 / 2 ^ 54) : Returns (1 / 2 + x) (1 / 2) := by
  have hmem : (1 / 2 : ℚ) ∈ float64 ℚ := by simpa using mem_float64 1 1 (by norm_num) (by norm_num)
  have key : ∀ b ∈ float64 ℚ, |b - (1 / 2 + x)| ≤ x → b = 1 / 2 := by
    rintro b ⟨m, e, hm, he1, he2, rfl⟩ hb
    rw [abs_le] at hb
    have h1 : 1 / 2 ≤ (m : ℚ) * 2 ^ e := by linarith
    have h2 : (m : ℚ) * 2 ^ e < 1 / 2 + 1 / 2 ^ 53 := by
      have : (2 : ℚ) * (1 / 2 ^ 54) = 1 / 2 ^ 53 := by norm_num
      linarith
    have hp : (0 : ℚ) < 2 ^ e := by positivity
    have hm53 : (m : ℚ) < 2 ^ 53 := by exact_mod_cast (abs_lt.1 hm).2
    have h3 : (2 : ℚ) ^ (-54 : ℤ) < 2 ^ e := by
      have h5 : (2 : ℚ) ^ (-54 : ℤ) * 2 ^ 53 = 1 / 2 := by norm_num
      by_contra h6
      push Not at h6
      have h7 := mul_lt_mul_of_pos_right hm53 hp
      have h8 := mul_le_mul_of_nonneg_left h6 (by norm_num : (0 : ℚ) ≤ 2 ^ 53)
      rw [mul_comm] at h5
      exact absurd (h1.trans_lt (h7.trans_le (h8.trans h5.le))) (lt_irrefl _)
    have h4 : -54 < e := (zpow_lt_zpow_iff_right₀ (by norm_num)).1 h3
    obtain ⟨k, rfl⟩ : ∃ k : ℕ, e = k + -53 := ⟨(e + 53).toNat, by omega⟩
    have e1 : (m : ℚ) * 2 ^ ((k : ℤ) + -53) = (m * 2 ^ k : ℤ) * (1 / 2 ^ 53) := by
      rw [zpow_add₀ (by norm_num), zpow_natCast]
      push_cast
      norm_num
      ring
    rw [e1] at h1 h2 ⊢
    have h5 : (2 : ℚ) ^ 52 ≤ (m * 2 ^ k : ℤ) := by
      have : (2 : ℚ) ^ 52 * (1 / 2 ^ 53) = 1 / 2 := by norm_num
      nlinarith
    have h6 : ((m * 2 ^ k : ℤ) : ℚ) < 2 ^ 52 + 1 := by
      have : ((2 : ℚ) ^ 52 + 1) * (1 / 2 ^ 53) = 1 / 2 + 1 / 2 ^ 53 := by norm_num
      nlinarith
    have h7 : (2 : ℤ) ^ 52 ≤ m * 2 ^ k := by exact_mod_cast h5
    have h8 : (m * 2 ^ k : ℤ) < 2 ^ 52 + 1 := by exact_mod_cast h6
    rw [show (m * 2 ^ k : ℤ) = 2 ^ 52 by omega]
    norm_num
  have hx : |1 / 2 - (1 / 2 + x)| = x := by rw [show 1 / 2 - (1 / 2 + x) = -x by ring, abs_neg, abs_of_nonneg h0]
  refine ⟨⟨hmem, fun c hc => ?_, ?_⟩, fun b' h' => key b' h'.1 ((h'.2.1 _ hmem).trans hx.le)⟩
  · rw [hx]
    by_contra hc'
    push Not at hc'
    rw [key c hc hc'.le, hx] at hc'
    exact lt_irrefl _ hc'
  · rw [abs_of_nonneg (by linarith)]
    have : x < 1 := h.trans (by norm_num)
    exact (by linarith : 1 / 2 + x ≤ 2).trans (by decide +kernel)

theorem FSum.card_pos {m : Multiset ℚ} {s : ℚ} (h : FSum m s) : 1 ≤ m.card := by
  induction h with
  | single a => simp
  | add _ _ _ i1 i2 => rw [Multiset.card_add]; omega

theorem FSum.one {m : Multiset ℚ} {s : ℚ} (h : FSum m s) (hm : m.card = 1) : s = m.sum := by
  cases h with
  | single a => simp
  | add h1 h2 _ =>
      have := h1.card_pos
      have := h2.card_pos
      rw [Multiset.card_add] at hm
      omega

theorem FSum.two {m : Multiset ℚ} {s : ℚ} (h : FSum m s) (hm : m.card = 2) : Fl m.sum s := by
  cases h with
  | single a => simp at hm
  | add h1 h2 h3 =>
      have k1 := h1.card_pos
      have k2 := h2.card_pos
      rw [Multiset.card_add] at hm
      rwa [h1.one (by omega), h2.one (by omega), ← Multiset.sum_add] at h3

theorem fsum2 {a b s : ℚ} : FSumGrid (Ex.v2 a b) s ↔ Fl (a + b) s := by
  have hu : (Finset.univ : Finset (Idx Ex.gs2)).val = {fun _ => ⟨0, by simp [Ex.gs2]⟩} + {fun _ => ⟨1, by simp [Ex.gs2]⟩} := by decide +kernel
  have e : (Finset.univ : Finset (Idx Ex.gs2)).val.map (Ex.v2 a b) = {a} + {b} := by
    rw [hu, Multiset.map_add, Multiset.map_singleton, Multiset.map_singleton]
    rfl
  rw [FSumGrid, e]
  refine ⟨fun h => ?_, fun h => .add (.single a) (.single b) h⟩
  have := h.two (by simp)
  simpa using this

/-- one time step with the Static model on two grid points: the only possible results -/
theorem static_step {E : Env ℚ Ex.gs2} {e : ℕ} {low : ℚ} {x y p q x' y' n a b : ℚ} (hx : Returns (x * p) x') (hy : Returns (y * q) y') (hn : Returns (x' + y') n) (h0 : 0 < n) (ha : Returns (x' / n) a) (hb : Returns (y' / n) b)
    {Ls : List (Idx Ex.gs2 → ℚ)} {t : ℚ} {ts : List ℚ} {ss : List (Step ℚ Ex.gs2)} {st : Bool} :
    FFwd E Ex.static e low (Ex.v2 x y) (Ex.v2 p q :: Ls) (t :: ts) ss st ↔ ∃ ss', ss = ⟨Ex.v2 a b, n, Ex.v2 p q, t⟩ :: ss' ∧ FFwd E Ex.static e low (Ex.v2 a b) Ls ts ss' st := by
  have hpt : ∀ (P : Idx Ex.gs2 → Prop), P (fun _ => ⟨0, by simp [Ex.gs2]⟩) → P (fun _ => ⟨1, by simp [Ex.gs2]⟩) → ∀ x, P x := fun P h1 h2 x => by
    have : x = (fun _ => ⟨0, by simp [Ex.gs2]⟩) ∨ x = fun _ => ⟨1, by simp [Ex.gs2]⟩ := by revert x; decide
    rcases this with rfl | rfl
    · exact h1
    · exact h2
  have prod : ∀ {a' : Idx Ex.gs2 → ℚ}, (∀ z, Fl (Ex.v2 x y z * Ex.v2 p q z) (a' z)) → a' = Ex.v2 x' y' := fun {a'} h =>
    funext (hpt _ (hx.2 _ (h fun _ => ⟨0, by simp [Ex.gs2]⟩)) (hy.2 _ (h fun _ => ⟨1, by simp [Ex.gs2]⟩)))
  have hst : ∀ {r r' : Idx Ex.gs2 → ℚ}, Ex.static.floated E e low r t r' ↔ r' = r := fun {r r'} => by rw [Ex.static, TM.floated]
  constructor
  · intro h
    cases h with
    | stop h1 h2 h3 =>
        rw [prod h1, fsum2] at h2
        rw [hn.2 _ h2] at h3
        exact absurd h0 h3
    | @step _ a' α b' _ _ _ _ norm ss' _ h1 h2 h3 h4 h5 h6 =>
        have e1 := prod h1
        rw [e1, fsum2] at h2
        have e2 := hn.2 _ h2
        rw [e1, e2] at h4
        have e3 : α = Ex.v2 a b := funext (hpt _ (ha.2 _ (h4 fun _ => ⟨0, by simp [Ex.gs2]⟩)) (hb.2 _ (h4 fun _ => ⟨1, by simp [Ex.gs2]⟩)))
        rw [hst] at h5
        rw [e2, e3]
        refine ⟨ss', rfl, ?_⟩
        rwa [h5, e3] at h6
  · rintro ⟨ss', rfl, h⟩
    exact .step (a' := Ex.v2 x' y') (hpt _ hx.1 hy.1) (fsum2.2 hn.1) h0 (hpt _ ha.1 hb.1) (hst.2 rfl) h

/-- … if the sum is zero -/
theorem static_stop {E : Env ℚ Ex.gs2} {e : ℕ} {low : ℚ} {x y p q : ℚ} (hx : x * p = 0) (hy : y * q = 0) {Ls : List (Idx Ex.gs2 → ℚ)} {ts : List ℚ} {ss : List (Step ℚ Ex.gs2)} {st : Bool} :
    FFwd E Ex.static e low (Ex.v2 x y) (Ex.v2 p q :: Ls) ts ss st ↔ ss = [] ∧ st = true := by
  have hz : Returns 0 0 := Returns.exact 0 0 (by norm_num) (by norm_num) (by norm_num)
  have hpt : ∀ (P : Idx Ex.gs2 → Prop), P (fun _ => ⟨0, by simp [Ex.gs2]⟩) → P (fun _ => ⟨1, by simp [Ex.gs2]⟩) → ∀ x, P x := fun P h1 h2 x => by
    have : x = (fun _ => ⟨0, by simp [Ex.gs2]⟩) ∨ x = fun _ => ⟨1, by simp [Ex.gs2]⟩ := by revert x; decide
    rcases this with rfl | rfl
    · exact h1
    · exact h2
  have prod : ∀ z, Ex.v2 x y z * Ex.v2 p q z = 0 := hpt _ hx hy
  constructor
  · intro h
    cases h with
    | stop => exact ⟨rfl, rfl⟩
    | @step _ a' _ _ _ _ _ _ norm _ _ h1 h2 h3 =>
        have : a' = Ex.v2 0 0 := funext (hpt _ (hz.2 _ (by have := h1 fun _ => ⟨0, by simp [Ex.gs2]⟩; rwa [prod] at this)) (hz.2 _ (by have := h1 fun _ => ⟨1, by simp [Ex.gs2]⟩; rwa [prod] at this)))
        rw [this, fsum2, add_zero] at h2
        rw [hz.2 _ h2] at h3
        exact absurd h3 (lt_irrefl _)
  · rintro ⟨rfl, rfl⟩
    refine .stop (a' := Ex.v2 0 0) (norm := 0) (hpt _ ?_ ?_) (fsum2.2 (by rw [add_zero]; exact hz.1)) (lt_irrefl _)
    · rw [prod]; exact hz.1
    · rw [prod]; exact hz.1

end BL

namespace Props
open BL Spec

/-- the first two steps of both counterexamples: the probability of the second parameter value is lost by underflow -/
theorem lost {E : Env ℚ Ex.gs2} {e : ℕ} {low : ℚ} {Ls : List (Idx Ex.gs2 → ℚ)} {t t' : ℚ} {ts : List ℚ} {ss : List (Step ℚ Ex.gs2)} {st : Bool} :
    FFwd E Ex.static e low (Ex.v2 (1 / 2) (1 / 2)) (Ex.v2 1 (1 / 2 ^ 600) :: Ex.v2 1 (1 / 2 ^ 600) :: Ls) (t :: t' :: ts) ss st ↔
      ∃ ss', ss = ⟨Ex.v2 1 (1 / 2 ^ 600), 1 / 2, Ex.v2 1 (1 / 2 ^ 600), t⟩ :: ⟨Ex.v2 1 0, 1, Ex.v2 1 (1 / 2 ^ 600), t'⟩ :: ss' ∧ FFwd E Ex.static e low (Ex.v2 1 0) Ls ts ss' st := by
  rw [static_step (x' := 1 / 2) (y' := 1 / 2 ^ 601) (n := 1 / 2) (a := 1) (b := 1 / 2 ^ 600) (by rw [mul_one]; exact Returns.exact 1 1 (by norm_num) (by norm_num) (by norm_num))
    (by rw [show (1 / 2 * (1 / 2 ^ 600) : ℚ) = 1 / 2 ^ 601 by decide +kernel]; exact Returns.exact 1 601 (by norm_num) (by norm_num) (by norm_num)) (Returns.absorb (by positivity) (by decide +kernel)) (by norm_num)
    (by rw [div_self (by norm_num)]; exact Returns.exact 1 0 (by norm_num) (by norm_num) (by norm_num))
    (by rw [show (1 / 2 ^ 601 / (1 / 2) : ℚ) = 1 / 2 ^ 600 by decide +kernel]; exact Returns.exact 1 600 (by norm_num) (by norm_num) (by norm_num))]
  have k : ∀ {ss' : List (Step ℚ Ex.gs2)}, _ := fun {ss'} => static_step (E := E) (e := e) (low := low) (x := 1) (y := 1 / 2 ^ 600) (p := 1) (q := 1 / 2 ^ 600) (x' := 1) (y' := 0) (n := 1) (a := 1) (b := 0)
    (by rw [mul_one]; exact Returns.exact 1 0 (by norm_num) (by norm_num) (by norm_num))
    (Returns.underflow (by positivity) (by decide +kernel)) (by rw [add_zero]; exact Returns.exact 1 0 (by norm_num) (by norm_num) (by norm_num)) (by norm_num)
    (by rw [div_self (by norm_num)]; exact Returns.exact 1 0 (by norm_num) (by norm_num) (by norm_num))
    (by rw [zero_div]; exact Returns.exact 0 0 (by norm_num) (by norm_num) (by norm_num)) (Ls := Ls) (t := t') (ts := ts) (ss := ss') (st := st)
  constructor
  · rintro ⟨s1, rfl, h⟩
    obtain ⟨s2, rfl, h'⟩ := k.1 h
    exact ⟨s2, rfl, h'⟩
  · rintro ⟨s2, rfl, h⟩
    exact ⟨_, rfl, k.2 ⟨_, rfl, h⟩⟩

/-- one further step after that -/
theorem lost_step {E : Env ℚ Ex.gs2} {e : ℕ} {low : ℚ} {Ls : List (Idx Ex.gs2 → ℚ)} {t : ℚ} {ts : List ℚ} {ss : List (Step ℚ Ex.gs2)} {st : Bool} :
    FFwd E Ex.static e low (Ex.v2 1 0) (Ex.v2 (1 / 2 ^ 600) 1 :: Ls) (t :: ts) ss st ↔ ∃ ss', ss = ⟨Ex.v2 1 0, 1 / 2 ^ 600, Ex.v2 (1 / 2 ^ 600) 1, t⟩ :: ss' ∧ FFwd E Ex.static e low (Ex.v2 1 0) Ls ts ss' st :=
  static_step (x' := 1 / 2 ^ 600) (y' := 0) (by rw [one_mul]; exact Returns.exact 1 600 (by norm_num) (by norm_num) (by norm_num)) (by rw [zero_mul]; exact Returns.exact 0 0 (by norm_num) (by norm_num) (by norm_num))
    (by rw [add_zero]; exact Returns.exact 1 600 (by norm_num) (by norm_num) (by norm_num)) (by positivity)
    (by rw [div_self (by positivity)]; exact Returns.exact 1 0 (by norm_num) (by norm_num) (by norm_num)) (by rw [zero_div]; exact Returns.exact 0 0 (by norm_num) (by norm_num) (by norm_num))

theorem _root_.Ex.ok_of_evidence {d : ℕ} {gs : Fin d → ℕ} {r : Except PyErr (FitState ℚ gs)} {v : ℚ} (h : Ex.ev r = some v) : ∃ A, r = .ok A ∧ A.logEv.exp = v := by
  cases r with
  | error _ => simp [Ex.ev] at h
  | ok A => exact ⟨A, rfl, by simpa [Ex.ev] using h⟩

/-- **C106 does not hold for all data: possible data are reported as impossible.** One parameter with two values, Static model, flat prior, three data points with likelihoods that are exact numbers of type
`float64`.  The probability of the data is `2^-1201`, but every run of the forward loop with numbers of type `float64` finds a vanishing normalisation constant and stops. -/
theorem C106_refuted (e : ℕ) (low : ℚ) :
    (∃ A, fit (Ex.env Ex.gs2 1) (Ex.grid Ex.gs2) Ex.static [Ex.v2 1 (1 / 2 ^ 600), Ex.v2 1 (1 / 2 ^ 600), Ex.v2 0 1] [0, 1, 2] false false (Ex.S0 .none) = .ok A ∧ A.logEv.exp = 1 / 2 ^ 1201) ∧
    (∃ ss st, FFwd (Ex.env Ex.gs2 1) Ex.static e low (Ex.v2 (1 / 2) (1 / 2)) [Ex.v2 1 (1 / 2 ^ 600), Ex.v2 1 (1 / 2 ^ 600), Ex.v2 0 1] [0, 1, 2] ss st) ∧
    ∀ ss st, FFwd (Ex.env Ex.gs2 1) Ex.static e low (Ex.v2 (1 / 2) (1 / 2)) [Ex.v2 1 (1 / 2 ^ 600), Ex.v2 1 (1 / 2 ^ 600), Ex.v2 0 1] [0, 1, 2] ss st → st = true := by
  refine ⟨?_, ?_, ?_⟩
  · have h : Ex.ev (fit (Ex.env Ex.gs2 1) (Ex.grid Ex.gs2) Ex.static [Ex.v2 1 (1 / 2 ^ 600), Ex.v2 1 (1 / 2 ^ 600), Ex.v2 0 1] [0, 1, 2] false false (Ex.S0 .none)) = some (1 / 2 ^ 1201) := by decide +kernel
    exact Ex.ok_of_evidence h
  · exact ⟨_, true, lost.2 ⟨[], rfl, (static_stop (by norm_num) (by norm_num)).2 ⟨rfl, rfl⟩⟩⟩
  · intro ss st h
    obtain ⟨ss', -, h1⟩ := lost.1 h
    exact ((static_stop (by norm_num) (by norm_num)).1 h1).2

/-- the data of the second counterexample -/
def _root_.Ex.silent : List (Idx Ex.gs2 → ℚ) := [Ex.v2 1 (1 / 2 ^ 600), Ex.v2 1 (1 / 2 ^ 600), Ex.v2 (1 / 2 ^ 600) 1, Ex.v2 (1 / 2 ^ 600) 1, Ex.v2 (1 / 2 ^ 600) 1]

/-- **C106 does not hold for all data: wrong results without any message.** Five data points that prove the second parameter value beyond doubt.  Every forward-only run with numbers of type `float64` is completed
regularly and reports the first value with probability one, and an evidence that is too small by a factor of more than `2^599`. -/
theorem C106_silent_refuted (e : ℕ) (low : ℚ) :
    (∃ A p, fit (Ex.env Ex.gs2 1) (Ex.grid Ex.gs2) Ex.static Ex.silent [0, 1, 2, 3, 4] true false (Ex.S0 .none) = .ok A ∧ A.posts[4]? = some (.val p) ∧ (∀ x, |p x - Ex.v2 0 1 x| ≤ 1 / 2 ^ 599) ∧ 1 / 2 ^ 1202 ≤ A.logEv.exp) ∧
    (∃ posts norms, FFit (Ex.env Ex.gs2 1) Ex.static e low (Ex.v2 (1 / 2) (1 / 2)) Ex.silent [0, 1, 2, 3, 4] true posts norms) ∧
    ∀ posts norms, FFit (Ex.env Ex.gs2 1) Ex.static e low (Ex.v2 (1 / 2) (1 / 2)) Ex.silent [0, 1, 2, 3, 4] true posts norms → posts[4]? = some (Ex.v2 1 0) ∧ norms.prod = 1 / 2 ^ 1801 := by
  have key : ∀ {ss : List (Step ℚ Ex.gs2)}, FFwd (Ex.env Ex.gs2 1) Ex.static e low (Ex.v2 (1 / 2) (1 / 2)) Ex.silent [0, 1, 2, 3, 4] ss false ↔
      ss = [⟨Ex.v2 1 (1 / 2 ^ 600), 1 / 2, Ex.v2 1 (1 / 2 ^ 600), 0⟩, ⟨Ex.v2 1 0, 1, Ex.v2 1 (1 / 2 ^ 600), 1⟩, ⟨Ex.v2 1 0, 1 / 2 ^ 600, Ex.v2 (1 / 2 ^ 600) 1, 2⟩, ⟨Ex.v2 1 0, 1 / 2 ^ 600, Ex.v2 (1 / 2 ^ 600) 1, 3⟩,
        ⟨Ex.v2 1 0, 1 / 2 ^ 600, Ex.v2 (1 / 2 ^ 600) 1, 4⟩] := by
    intro ss
    constructor
    · intro h
      obtain ⟨_, rfl, h1⟩ := lost.1 h
      obtain ⟨_, rfl, h2⟩ := lost_step.1 h1
      obtain ⟨_, rfl, h3⟩ := lost_step.1 h2
      obtain ⟨_, rfl, h4⟩ := lost_step.1 h3
      cases h4
      rfl
    · rintro rfl
      exact lost.2 ⟨_, rfl, lost_step.2 ⟨_, rfl, lost_step.2 ⟨_, rfl, lost_step.2 ⟨_, rfl, .done _ _⟩⟩⟩⟩
  refine ⟨?_, ⟨_, _, _, key.2 rfl, rfl, by rw [if_pos rfl]⟩, ?_⟩
  · have h : (match fit (Ex.env Ex.gs2 1) (Ex.grid Ex.gs2) Ex.static Ex.silent [0, 1, 2, 3, 4] true false (Ex.S0 .none) with
        | Except.ok A => decide (1 / 2 ^ 1202 ≤ A.logEv.exp) && match (A.posts[4]? : Option (Cell (Idx Ex.gs2 → ℚ))) with
            | some (Cell.val p) => decide (∀ x, |p x - Ex.v2 0 1 x| ≤ 1 / 2 ^ 599)
            | _ => false
        | Except.error _ => false) = true := by decide +kernel
    generalize fit (Ex.env Ex.gs2 1) (Ex.grid Ex.gs2) Ex.static Ex.silent [0, 1, 2, 3, 4] true false (Ex.S0 .none) = r at h
    cases r with
    | error _ => simp at h
    | ok A =>
        simp only [Bool.and_eq_true, decide_eq_true_eq] at h
        obtain ⟨h1, h2⟩ := h
        split at h2
        · rename_i p hp
          exact ⟨A, p, rfl, hp, by simpa using h2, h1⟩
        · simp at h2
  · rintro posts norms ⟨ss, h1, rfl, h3⟩
    rw [key] at h1
    rw [if_pos rfl] at h3
    subst h1 h3
    refine ⟨rfl, ?_⟩
    simp only [List.map_cons, List.map_nil]
    decide +kernel

/-- a run with numbers of type `float64` in which all results are exact -/
theorem _root_.Ex.floatRun (e : ℕ) (low : ℚ) : FFit { Ex.env Ex.gs2 1 with prior := (Ex.S0 (gs := Ex.gs2) .none).prior } Ex.static e low (Ex.v2 (1 / 2) (1 / 2)) [Ex.v2 1 3] [0] false [Ex.v2 (1 / 4) (3 / 4)] [2] := by
  have hpt : ∀ (P : Idx Ex.gs2 → Prop), P (fun _ => ⟨0, by simp [Ex.gs2]⟩) → P (fun _ => ⟨1, by simp [Ex.gs2]⟩) → ∀ x, P x := fun P h1 h2 x => by
    have : x = (fun _ => ⟨0, by simp [Ex.gs2]⟩) ∨ x = fun _ => ⟨1, by simp [Ex.gs2]⟩ := by revert x; decide
    rcases this with rfl | rfl
    · exact h1
    · exact h2
  have ex : ∀ {a b : ℚ} (m : ℤ), a = b → b = m / 2 ^ 3 → |m| < 2 ^ 53 → Fl a b := fun m h1 h2 h3 => by rw [h1]; exact (Returns.exact m 3 h2 h3 (by norm_num)).1
  refine ⟨[⟨Ex.v2 (1 / 4) (3 / 4), 2, Ex.v2 1 3, 0⟩], ?_, rfl, ?_⟩
  · exact .step (a' := Ex.v2 (1 / 2) (3 / 2)) (hpt _ (ex 4 (by decide +kernel) (by decide +kernel) (by norm_num)) (ex 12 (by decide +kernel) (by decide +kernel) (by norm_num)))
      (fsum2.2 (ex 16 (by norm_num) (by norm_num) (by norm_num))) (by norm_num) (hpt _ (ex 2 (by decide +kernel) (by decide +kernel) (by norm_num)) (ex 6 (by decide +kernel) (by decide +kernel) (by norm_num)))
      (by rw [Ex.static, TM.floated]) (.done _ _)
  · rw [if_neg (by decide)]
    refine ⟨Ex.v2 (1 / 4) (3 / 4), .step (β := Ex.v2 (1 / 2) (1 / 2)) (q := Ex.v2 (1 / 8) (3 / 8)) (norm := 1 / 2) (l := Ex.v2 (1 / 2) (3 / 2)) (b := Ex.v2 (1 / 2) (3 / 2)) (norm' := 2) (.start (s := 2) ?_ ?_) ?_ ?_ (by norm_num) ?_ ?_
      (by rw [Ex.static, TM.floated]) ?_ (by norm_num) ?_⟩
    · rw [show (fun _ : Idx Ex.gs2 => (1 : ℚ)) = Ex.v2 1 1 by decide +kernel]
      exact fsum2.2 (ex 16 (by norm_num) (by norm_num) (by norm_num))
    · exact hpt _ (ex 4 (by decide +kernel) (by decide +kernel) (by norm_num)) (ex 4 (by decide +kernel) (by decide +kernel) (by norm_num))
    · exact hpt _ (ex 1 (by decide +kernel) (by decide +kernel) (by norm_num)) (ex 3 (by decide +kernel) (by decide +kernel) (by norm_num))
    · exact fsum2.2 (ex 4 (by norm_num) (by norm_num) (by norm_num))
    · exact hpt _ (ex 2 (by decide +kernel) (by decide +kernel) (by norm_num)) (ex 6 (by decide +kernel) (by decide +kernel) (by norm_num))
    · exact hpt _ (ex 4 (by decide +kernel) (by decide +kernel) (by norm_num)) (ex 12 (by decide +kernel) (by decide +kernel) (by norm_num))
    · exact fsum2.2 (ex 16 (by norm_num) (by norm_num) (by norm_num))
    · exact hpt _ (ex 2 (by decide +kernel) (by decide +kernel) (by norm_num)) (ex 6 (by decide +kernel) (by decide +kernel) (by norm_num))

theorem _root_.Ex.half64 (a b : ℤ) (k : ℕ) (ha : |a| < 2 ^ 53) (hb : |b| < 2 ^ 53) (hk : k ≤ 1074) (x : Idx Ex.gs2) : Ex.v2 (a / 2 ^ k) (b / 2 ^ k) x ∈ float64 ℚ := by
  unfold Ex.v2
  split
  · exact mem_float64 a k ha hk
  · exact mem_float64 b k hb hk

/-- The hypotheses of `C106_partial` are met. -/
example : ∃ A, fit (Ex.env Ex.gs2 1) (Ex.grid Ex.gs2) Ex.static [Ex.v2 1 3] [0] false false (Ex.S0 .none) = .ok A ∧ A.posts.length = 1 ∧ |2 * 1 - A.logEv.exp| ≤ gam 20 (u64 ℚ) * A.logEv.exp := by
  obtain ⟨A, h1, h2⟩ := Ex.ok_of_evidence (v := 2) (r := fit (Ex.env Ex.gs2 1) (Ex.grid Ex.gs2) Ex.static [Ex.v2 1 3] [0] false false (Ex.S0 .none)) (by decide +kernel)
  have := C106_partial (grid := Ex.grid Ex.gs2) (κ := 1) (eP := 0) (eL := 0) (e := 1) (a' := Ex.v2 (1 / 2) (1 / 2)) (c' := 1) (p := 1 / 2) (B := 8) (l := 1) (c := 3) (low := tiny64 ℚ) (N := 20) (N' := 23)
    (Ex.regular2 (by norm_num)) (tm := Ex.static) (by simp [Ex.static, Linear]) (by simp [Ex.static, ResetFree]) (by norm_num) le_rfl (by simp [Ex.static, WeightsAtLeast]) .flat (by decide +kernel)
    (by simpa using Ex.half64 1 1 1 (by norm_num) (by norm_num) (by norm_num)) (by norm_num) (by norm_num) (by decide +kernel) le_rfl (by decide +kernel) (by decide +kernel) (.cons (by decide +kernel) .nil) (by norm_num)
    (by norm_num) (by decide +kernel) (by decide +kernel) le_rfl (by decide +kernel) (by decide +kernel) h1 (by rw [h2]; norm_num) (Ex.floatRun 1 _) (by decide +kernel) (by decide +kernel) (by decide +kernel)
  exact ⟨A, h1, this.1, by simpa using this.2.2⟩

/-- … and those of `C106_stop_partial`, with data that are impossible -/
example (ss : List (Step ℚ Ex.gs2)) (st : Bool) (h : FFwd (Ex.env Ex.gs2 1) Ex.static 1 (tiny64 ℚ) (Ex.v2 (1 / 2) (1 / 2)) [Ex.v2 1 0, Ex.v2 0 3] [0, 1] ss st) : st = true := by
  obtain ⟨A, h1, h2⟩ := Ex.ok_of_evidence (v := 0) (r := fit (Ex.env Ex.gs2 1) (Ex.grid Ex.gs2) Ex.static [Ex.v2 1 0, Ex.v2 0 3] [0, 1] false true (Ex.S0 .none)) (by decide +kernel)
  refine (C106_stop_partial (grid := Ex.grid Ex.gs2) (κ := 1) (eP := 0) (eL := 0) (e := 1) (a' := Ex.v2 (1 / 2) (1 / 2)) (p := 1 / 2) (B := 8) (l := 1) (c := 3) (low := tiny64 ℚ)
    (Ex.regular2 (by norm_num)) (tm := Ex.static) (by simp [Ex.static, Linear]) (by simp [Ex.static, ResetFree]) (by norm_num) le_rfl (by simp [Ex.static, WeightsAtLeast]) .flat (by decide +kernel)
    (by simpa using Ex.half64 1 1 1 (by norm_num) (by norm_num) (by norm_num)) (by norm_num) (by norm_num) (by decide +kernel) le_rfl (by decide +kernel) (.cons (by decide +kernel) (.cons (by decide +kernel) .nil)) (by norm_num)
    (by norm_num) (by decide +kernel) (by decide +kernel) le_rfl (by decide +kernel) (by decide +kernel) h1 h).2 h2

/-- … and those of the theorems for random walks: no run with likelihood ratios up to 3 and likelihoods of at least `2^-100` ever stops, whatever the number of data points -/
example (n : ℕ) (L : Fin (n + 1) → Idx Ex.gs2 → ℚ) (h1 : ∀ i x, 1 / 2 ^ 100 ≤ L i x) (h2 : ∀ i x y, L i x ≤ 3 * L i y) (τ : Fin (n + 1) → ℚ) (ss : List (Step ℚ Ex.gs2)) (st : Bool)
    (h : FFwd { Ex.env Ex.gs2 1 with prior := (Ex.S0 (gs := Ex.gs2) .none).prior } (Ex.grw 1) 50 (1 / 2 ^ 200) (Ex.v2 (1 / 2) (1 / 2)) (List.ofFn L) (List.ofFn τ) ss st) : st = false :=
  C106_walks_stop_partial (Ex.env Ex.gs2 1) (Ex.grw 1) (Ex.regular2 (by norm_num)) (by intro s _ k _; simp only [Ex.env, Ex.ext]; split <;> norm_num) (by simp [Ex.grw, Linear, Ex.axis_x]) (by simp [Ex.grw, ResetFree])
    (by intro a; obtain rfl : a = 0 := Subsingleton.elim _ _; simp [Ex.grw, Wanders, val0, Ex.axis_x]; simp [Ex.env, Ex.ext]) 3 (by norm_num) (1 / 4) (by norm_num) (by norm_num)
    (by
      simp only [Ex.grw, WeightsAtLeast]
      intro a _ _ k _
      refine Or.inr ?_
      simp only [Ex.env, Ex.ext]
      split <;> norm_num) 1 (by simp [Ex.gs2]) (Ex.S0 .none) _ .flat (by decide +kernel) 0 50 (by decide +kernel) (1 / 2) 8 (1 / 2 ^ 100) (1 / 2 ^ 200) (by norm_num) (by norm_num) le_rfl (by norm_num) (by decide +kernel) (by decide +kernel)
    _ (by decide +kernel) (by simpa using Ex.half64 1 1 1 (by norm_num) (by norm_num) (by norm_num)) (by decide +kernel) (by decide +kernel) n L h1 h2 τ ss st h

/-- the hypotheses about the model in `C106_walks_partial` -/
example := C106_walks_partial (Ex.env Ex.gs2 1) (Ex.grw 1) (Ex.regular2 (by norm_num)) (by intro s _ k _; simp only [Ex.env, Ex.ext]; split <;> norm_num) (by simp [Ex.grw, Linear, Ex.axis_x]) (by simp [Ex.grw, ResetFree])
    (by intro a; obtain rfl : a = 0 := Subsingleton.elim _ _; simp [Ex.grw, Wanders, val0, Ex.axis_x]; simp [Ex.env, Ex.ext]) 3 (by norm_num) (1 / 4) (by norm_num) (by norm_num)
    (by
      simp only [Ex.grw, WeightsAtLeast]
      intro a _ _ k _
      refine Or.inr ?_
      simp only [Ex.env, Ex.ext]
      split <;> norm_num) 1 (by simp [Ex.gs2])

end Props
