import Mathlib.MeasureTheory.Measure.WithDensity
import Mathlib.MeasureTheory.Constructions.Pi
import Verif.Spec.Paths

/-!
# Specification: unknown quantity and data drawn together (no reference to the implementation)
-/

open MeasureTheory

namespace Spec

/-- `Joint P Z X ν w`: under `P`, an unknown quantity `Z` with finitely many possible values and data `X` are drawn together; `w z` is the density (with respect to `ν`) of the data, together
with the event `Z = z`. -/
structure Joint {Ω ζ 𝒴 : Type} [MeasurableSpace Ω] [MeasurableSpace 𝒴] (P : Measure Ω) (Z : Ω → ζ) (X : Ω → 𝒴) (ν : Measure 𝒴) (w : ζ → 𝒴 → ℝ) : Prop where
  unknown : ∀ z, MeasurableSet {ω | Z ω = z}
  data : Measurable X
  law : ∀ z B, MeasurableSet B → P {ω | Z ω = z ∧ X ω ∈ B} = ∫⁻ y in B, ENNReal.ofReal (w z y) ∂ν

/-- `Draws P Z X π T law`: under `P`, a path `Z` is drawn (first value from `π`, then step by step with the transition probabilities `T`), and then, independently for each time step, a data point from
the distribution that `law` assigns to the value of the path at this time step. -/
structure Draws {Ω ι Y : Type} [MeasurableSpace Ω] [MeasurableSpace Y] {n : ℕ} (P : Measure Ω) (Z : Ω → Fin (n + 1) → ι) (X : Ω → Fin (n + 1) → Y) (π : ι → ℝ) (T : Fin n → ι → ι → ℝ)
    (law : ι → Measure Y) : Prop where
  unknown : ∀ z, MeasurableSet {ω | Z ω = z}
  data : Measurable X
  law : ∀ z B, MeasurableSet B → P {ω | Z ω = z ∧ X ω ∈ B} = ENNReal.ofReal (π (z 0) * ∏ i : Fin n, T i (z i.castSucc) (z i.succ)) * Measure.pi (fun i => law (z i)) B

end Spec
