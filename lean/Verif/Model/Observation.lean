import Verif.Model.Basic

/-!
# Data segments and `ObservationModel.processedPdf` (observationModels.py 35-56), `movingWindow`
-/

namespace BL

variable {K : Type} [Field K] [LinearOrder K] {d : ℕ} {gs : Fin d → ℕ}

/-- One data segment (`formattedData[i]`), `none` = NaN.  `flat`: one-dimensional data,
`rows w`: each of the data points in the segment has `w` components.  Data points with more than one axis are
not modelled. -/
inductive Seg (K : Type)
  | flat (xs : List (Option K))
  | rows (w : ℕ) (xs : List (Fin w → Option K))

/-- `np.isnan(dataSegment).any()`, observationModels.py 53 -/
def Seg.missing : Seg K → Bool
  | .flat xs => xs.any Option.isNone
  | .rows w xs => xs.any fun r => (List.finRange w).any fun j => (r j).isNone

/-- one element of `dataSegment.T`, observationModels.py 50 -/
def column {w : ℕ} (xs : List (Fin w → Option K)) (j : Fin w) : List (Option K) := xs.map fun r => r j

/-- lines 53-56: check for missing data, otherwise `self.pdf(grid, dataSegment)` -/
def pdfOrOnes (pdf : Seg K → Idx gs → K) (s : Seg K) : Idx gs → K :=
  if s.missing then fun _ => 1 else pdf s

/-- `processedPdf`, observationModels.py 35-56; `mult` = attribute `multiplyLikelihoods`,
`pdf` = the model's method of that name (evaluated on the parameter grid). -/
def processedPdf (mult : Bool) (pdf : Seg K → Idx gs → K) : Seg K → Idx gs → K
  | .flat xs => pdfOrOnes pdf (.flat xs)
  | .rows w xs =>
      if mult then fun x => ((List.finRange w).map fun j => pdfOrOnes pdf (.flat (column xs j)) x).prod
      else pdfOrOnes pdf (.rows w xs)

/-- `movingWindow(rawData, n)`, preprocessing.py 14-26 -/
def movingWindow {α : Type} (raw : List α) (n : ℕ) : List (List α) :=
  (List.range ((raw.length : ℤ) - ((n : ℤ) - 1)).toNat).map fun i => (raw.drop i).take n

end BL
