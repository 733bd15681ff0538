import Verif.Spec.Objects
import Mathlib.Logic.Relation

/-!
# Saving and loading studies (fileIO.py)

`save` passes a study to `cloudpickle.dump`, which writes the attributes of the study and of all objects that can be reached from it by following references; `load` makes new objects with these
attributes, whose references point to the new objects.  Cloudpickle itself is trusted: it is modelled by this description.  Objects, attributes and references are those of Model/Objects.lean.  Not
modelled: errors of the file system, other versions of the package at the time of loading.
-/

set_option linter.unusedSectionVars false

namespace BL
variable {K D : Type} [Field K] [LinearOrder K] {d : ℕ} {gs : Fin d → ℕ}

/-- an object of a session: a study, an observation model, a transition model -/
inductive Obj
  | study (i : ℕ)
  | om (o : ℕ)
  | tm (r : ℕ)

/-- References between objects: a study refers to its models (core.py 141, 280; with the parts of the transition model, transitionModels.py 617, 678-690), a transition model to a study
(core.py 281, transitionModels.py 647, 658, 771, 782). -/
inductive Refers (w : World K D gs) : Obj → Obj → Prop
  | om {i o : ℕ} (h : (w.studies i).om = some o) : Refers w (.study i) (.om o)
  | tm {i r : ℕ} {m : OTM K} (h : (w.studies i).tm = some m) (hr : r ∈ Spec.objects m) : Refers w (.study i) (.tm r)
  | study {r i : ℕ} (h : (w.heap r).study = some i) : Refers w (.tm r) (.study i)

/-- the objects that can be reached from study `i` -/
def Reaches (w : World K D gs) (i : ℕ) (x : Obj) : Prop := Relation.ReflTransGen (Refers w) (.study i) x

/-- content of a file: the attributes of some objects, and the number of the saved study -/
structure Pickle (K D : Type) {d : ℕ} (gs : Fin d → ℕ) where
  studies : ℕ → Option (StudyObj K D gs)
  oms : ℕ → Option (OMObj K D gs)
  heap : ℕ → Option (TAttr K d)
  root : ℕ

open Classical in
/-- `bayesloop.save(filename, study)`, fileIO.py 10-20: the file afterwards -/
noncomputable def World.save (w : World K D gs) (i : ℕ) : Pickle K D gs where
  studies := fun j => if Reaches w i (.study j) then some (w.studies j) else none
  oms := fun o => if Reaches w i (.om o) then some (w.oms o) else none
  heap := fun r => if Reaches w i (.tm r) then some (w.heap r) else none
  root := i

/-- identities of the objects made by `load`, for each object in the file -/
structure Ren where
  s : ℕ → ℕ
  o : ℕ → ℕ
  t : ℕ → ℕ

mutual
/-- the same model with other objects -/
def OTM.rename (f : ℕ → ℕ) : OTM K → OTM K
  | .leaf r => .leaf (f r)
  | .combined r ms => .combined (f r) (OTM.renames f ms)
  | .serial r n v p mask ms => .serial (f r) n v p mask (OTM.renames f ms)
/-- the same for a list -/
def OTM.renames (f : ℕ → ℕ) : List (OTM K) → List (OTM K)
  | [] => []
  | m :: ms => m.rename f :: OTM.renames f ms
end

/-- references point to the new objects, all other attributes are the same -/
def StudyObj.rename (φ : Ren) (S : StudyObj K D gs) : StudyObj K D gs := { S with om := S.om.map φ.o, tm := S.tm.map (OTM.rename φ.t) }

/-- references point to the new objects, all other attributes are the same -/
def TAttr.rename (φ : Ren) (a : TAttr K d) : TAttr K d := { a with study := a.study.map φ.s }

/-- the attributes of object `j` after objects from a file were made: those of the file, if `j` is the new identity of an object in the file -/
noncomputable def placed {α : Type} (file : ℕ → Option α) (f : ℕ → ℕ) (conv : α → α) (old : ℕ → α) (j : ℕ) : α :=
  open Classical in if h : ∃ a i, file i = some a ∧ f i = j then conv h.choose else old j

/-- `bayesloop.load(filename)`, fileIO.py 23-38: the session afterwards.  The study returned is `φ.s f.root`. -/
noncomputable def World.loadFile (w : World K D gs) (f : Pickle K D gs) (φ : Ren) : World K D gs where
  studies := placed f.studies φ.s (StudyObj.rename φ) w.studies
  oms := placed f.oms φ.o id w.oms
  heap := placed f.heap φ.t (TAttr.rename φ) w.heap

/-- the same call with other objects -/
def WOp.rename (φ : Ren) : WOp K D → WOp K D
  | .load i data ts => .load (φ.s i) data ts
  | .setOM i o => .setOM (φ.s i) (φ.o o)
  | .setTM i m => .setTM (φ.s i) (m.rename φ.t)
  | .fit i fo eo => .fit (φ.s i) fo eo

end BL
