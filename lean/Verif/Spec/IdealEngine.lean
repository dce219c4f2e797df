import Verif.Spec.RejectionLaw

/-! Specification for C132: a random engine without flaws. -/

set_option autoImplicit false

namespace Marley.Sampling
open MeasureTheory

/-- An engine whose state is distributed as `μ` gives independent uniform numbers: each draw
gives a uniform number, and whatever the number, the state that is left is again
distributed as `μ`. -/
structure Ideal {Ω : Type} [MeasurableSpace Ω] (E : Engine Ω) (μ : Measure Ω) : Prop where
  prob : IsProbabilityMeasure μ
  draws : MeasurePreserving E.draw μ (unit.prod μ)

/-- The engine that reads an infinite sequence of numbers. -/
def reader : Engine (ℕ → ℝ) := ⟨fun g => (g 0, fun k => g (k + 1))⟩

end Marley.Sampling
