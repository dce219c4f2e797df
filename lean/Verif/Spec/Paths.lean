import Verif.Model.Decayer

/-! Specification for C135: the states through which a nucleus passes. -/

set_option autoImplicit false

namespace Marley.Decay
open Marley

/-- What is known of a nucleus after a decay apart from its motion: whether it is in the continuum, its energy,
spin and parity, its code, charge and mass; and the code of the particle that was emitted. -/
structure Stage where
  continuum : Bool
  Ex : ℝ
  twoJ : Int
  P : Parity
  pdg : Int
  charge : Int
  mass : ℝ
  emitted : Int

/-- What a decay leaves. -/
def stage (q : Product × Bool) : Stage :=
  ⟨q.2, q.1.Ex, q.1.twoJ, q.1.P, q.1.nucleus.pdg, q.1.nucleus.charge, q.1.nucleus.mass,
    q.1.emitted.pdg⟩

/-- A particle is the nucleus of a stage, in any motion. -/
def Stage.Is (s : Stage) (p : Particle ℝ) : Prop := p.pdg = s.pdg ∧ p.charge = s.charge ∧ p.mass = s.mass

/-- The nucleus of a stage at rest. -/
def Stage.rest (s : Stage) : Particle ℝ := ⟨s.pdg, s.mass, 0, 0, 0, s.mass, s.charge⟩

/-- Decays in succession: a nucleus, whose energy, spin and parity are those of `s`, passes through the
stages of the list. -/
def Passes {G : Type} (E : Sampling.Engine G) (fuel : Nat) (D : Data) :
    List Stage → Stage → Particle ℝ → G → Prop
  | [], _, _, _ => True
  | t :: ts, s, nucleus, g => ∃ q g', hfDecay Sampling.exact E fuel D nucleus s.Ex s.twoJ s.P g
      = some (.ok (q, g')) ∧ stage q = t ∧ Passes E fuel D ts t q.1.nucleus g'

/-- The channel leads from stage `s` to the level `l`, and leaves stage `t`: particle and nucleus have masses in the
table, the charge is conserved, and the energy suffices. -/
structure Reaches (D : Data) (s : Stage) (k : Kind) (l : Scheme.Level ℝ) (t : Stage) : Prop where
  channel : k = .gamLevel l ∨ k = .fragLevel t.emitted l
  bound : t.continuum = false
  energy : t.Ex = l.energy
  spin : t.twoJ = l.twoJ
  parity : t.P = l.parity
  emitted : t.emitted = k.emitted
  nucleus : t.pdg = k.final s.pdg
  charge : t.charge = s.charge - Pdg.getZ t.emitted
  known : ∃ z, Pdg.charge t.emitted = .ok z
  mass : ∃ m me mAtom, Mass.particleMass D.mass t.emitted = .ok m ∧
    Mass.particleMass D.mass Mass.ELECTRON = .ok me ∧
    Mass.atomicMassPid D.mass t.pdg true = .ok (some mAtom) ∧
    t.mass = mAtom - t.charge * me + t.Ex ∧ m + t.mass ≤ s.mass

end Marley.Decay
