import Verif.Spec.RejectionLaw
import Verif.Spec.Rotation
import Mathlib.MeasureTheory.Measure.Haar.InnerProductSpace

/-! What it means for a random direction to be isotropic. -/

set_option autoImplicit false

namespace Marley.Rot
open Marley.Sampling MeasureTheory

/-- Space with its usual length and volume. -/
abbrev Space := EuclideanSpace ℝ (Fin 3)

/-- A vector of the program as a point of space. -/
noncomputable def V3.toSpace (v : V3) : Space := !₂[v.x, v.y, v.z]

/-- The part of the unit ball seen in the directions of `S`. -/
def cone (S : Set Space) : Set Space := {x | ‖x‖ < 1 ∧ ‖x‖⁻¹ • x ∈ S}

/-- The part of the full solid angle taken by the directions of `S`. -/
noncomputable def solidShare (S : Set Space) : ENNReal :=
  volume (cone S) / volume (Metric.ball (0 : Space) 1)

/-- The polar cosine and the azimuth made from two numbers of the engine, as in
`sample_isotropic_direction` and in the emission of photons and fragments
(src/ProjectileDirectionRotator.cc:90-93, src/DecayScheme.cc:118-121,
src/ExitChannel.cc:410-413): the calls, one after the other, with exact arithmetic. -/
noncomputable def drawnAngles (p : ℝ × ℝ) : ℝ × ℝ :=
  let c := uniform exact replay (-1) 1 true [p.1, p.2]
  let phi := uniform exact replay 0 (2 * Real.pi) false c.2
  (c.1, phi.1)

/-- The direction made of them. -/
noncomputable def drawnDirection (p : ℝ × ℝ) : V3 :=
  isotropicDirection (drawnAngles p).1 (drawnAngles p).2

end Marley.Rot
