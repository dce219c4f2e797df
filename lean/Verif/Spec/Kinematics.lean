import Verif.Model.Event
import Mathlib.Analysis.SpecialFunctions.Trigonometric.Basic

/-!
# What the kinematic properties talk about

Textbook notions, independent of the model of the code.
-/

set_option autoImplicit false

namespace Marley.Kin
open Marley

/-- Minkowski product of two energy-momentum vectors. -/
def mink (p q : Particle ℝ) : ℝ := p.E * q.E - (p.px * q.px + p.py * q.py + p.pz * q.pz)

/-- On the mass shell, with energy and mass not negative. -/
structure OnShell (p : Particle ℝ) : Prop where
  shell : p.E ^ 2 = p.px ^ 2 + p.py ^ 2 + p.pz ^ 2 + p.mass ^ 2
  energy : 0 ≤ p.E
  mass : 0 ≤ p.mass

/-- `p` and `q` describe the same species: same code, mass and charge. -/
def SameSpecies (p q : Particle ℝ) : Prop :=
  p.pdg = q.pdg ∧ p.mass = q.mass ∧ p.charge = q.charge

/-- The four-momentum of `t` is the sum of those of `p` and `q`. -/
def SumsTo (p q t : Particle ℝ) : Prop :=
  p.E + q.E = t.E ∧ p.px + q.px = t.px ∧ p.py + q.py = t.py ∧ p.pz + q.pz = t.pz

/-- Two lists of particles have the same total energy and momentum. -/
structure SameTotals (l l' : List (Particle ℝ)) : Prop where
  energy : (l.map (·.E)).sum = (l'.map (·.E)).sum
  px : (l.map (·.px)).sum = (l'.map (·.px)).sum
  py : (l.map (·.py)).sum = (l'.map (·.py)).sum
  pz : (l.map (·.pz)).sum = (l'.map (·.pz)).sum

/-- The momentum of `p` makes the angle with cosine `c` with the z axis and has
azimuth `phi`. -/
def PointsAlong (p : Particle ℝ) (c phi : ℝ) : Prop :=
  ∃ len : ℝ, 0 ≤ len ∧ p.px = len * (Real.sqrt (1 - c ^ 2) * Real.cos phi) ∧
    p.py = len * (Real.sqrt (1 - c ^ 2) * Real.sin phi) ∧ p.pz = len * c

end Marley.Kin
