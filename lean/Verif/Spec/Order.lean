import Verif.Model.Online
import Mathlib.Data.List.OfFn
import Mathlib.Logic.Equiv.Defs

/-! # Specification: the same study with the transition models in another order -/

namespace Spec
open BL
variable {K D : Type} [Field K] [LinearOrder K] {d : ℕ} {gs : Fin d → ℕ}

/-- `l'` is the list `l` in another order: entry `i` of `l'` is entry `σ i` of `l`. -/
def Reorder {α : Type} {n : ℕ} (σ : Equiv.Perm (Fin n)) (l l' : List α) : Prop := ∃ f : Fin n → α, l = List.ofFn f ∧ l' = List.ofFn (f ∘ σ)

/-- both undefined, or related by `R` -/
def OptRel {α : Type} (R : α → α → Prop) : Option α → Option α → Prop
  | none, none => True
  | some a, some b => R a b
  | _, _ => False

/-- All results of the studies `S` and `T` agree, if the transition model number `i` of `T` is the transition model number `σ i` of `S`: parameter distributions, mean values, evidence and their history are equal; the
attributes of the transition models (evidence, hyper-parameter distribution, parameter distribution), the probabilities of the transition models and their history are the same up to the order. -/
structure SameUpToOrder {n : ℕ} (σ : Equiv.Perm (Fin n)) (S T : OState K D gs) : Prop where
  marg : T.marg = S.marg
  logEv : T.logEv = S.logEv
  means : T.means = S.means
  posts : T.posts = S.posts
  models : Reorder σ S.models T.models
  tmPrior : OptRel (Reorder σ) S.tmPrior T.tmPrior
  tmd : OptRel (Reorder σ) S.tmd T.tmd
  ltmd : OptRel (Reorder σ) S.ltmd T.ltmd
  hpds : List.Forall₂ (Reorder σ) S.hpds T.hpds
  tmds : List.Forall₂ (OptRel (Reorder σ)) S.tmds T.tmds
  ltmds : List.Forall₂ (OptRel (Reorder σ)) S.ltmds T.ltmds
  store : T.store = S.store
  prior : T.prior = S.prior
  firstStep : T.firstStep = S.firstStep
  rawData : T.rawData = S.rawData
  rawTs : T.rawTs = S.rawTs
  fts : T.fts = S.fts

/-- at most one transition model of the study has a hyper-parameter with this name -/
def OneModel (S : OState K D gs) (name : String) : Prop :=
  ∀ (i j : ℕ) (m m' : OModelSt K gs) (a a' : ℕ), S.models[i]? = some m → S.models[j]? = some m' → m.tm.hyperIndex name = .ok a → m'.tm.hyperIndex name = .ok a' → i = j

end Spec
