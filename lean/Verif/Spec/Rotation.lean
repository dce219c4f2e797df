import Verif.Model.Rotation

/-! # What a rotation is -/

set_option autoImplicit false

namespace Marley.Rot
open Marley

/-- Determinant of a matrix given by rows. -/
noncomputable def det (m : Mat) : ℝ := dot m.r0 (cross m.r1 m.r2)

/-- A proper rotation: lengths and angles are kept, and so is orientation. -/
structure IsRotation (m : Mat) : Prop where
  isometry : ∀ v w : V3, dot (rotate m v) (rotate m w) = dot v w
  orientation : det m = 1

/-- Not the null vector. -/
def V3.Nonzero (v : V3) : Prop := ¬(v.x = 0 ∧ v.y = 0 ∧ v.z = 0)

/-- `u` is the unit vector in the direction of `v`. -/
def IsDirection (v u : V3) : Prop :=
  dot u u = 1 ∧ ∃ n : ℝ, 0 < n ∧ v = ⟨n * u.x, n * u.y, n * u.z⟩

/-- The momentum of a particle. -/
def momentumOf (p : Particle ℝ) : V3 := ⟨p.px, p.py, p.pz⟩

/-- `p'` is `p` with its momentum turned by `m`. -/
def TurnedBy (m : Mat) (p p' : Particle ℝ) : Prop :=
  momentumOf p' = rotate m (momentumOf p) ∧ p'.E = p.E ∧ p'.mass = p.mass ∧ p'.pdg = p.pdg ∧
    p'.charge = p.charge

end Marley.Rot
