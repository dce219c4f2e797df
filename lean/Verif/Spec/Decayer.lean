import Verif.Spec.Decay

/-!
# What de-excitation may do to an event
-/

set_option autoImplicit false

namespace Marley.Decay
open Marley

/-- The decay scheme filed under the code of a nucleus is that of this nucleus. -/
def Filed (D : Data) : Prop :=
  ∀ n s, D.scheme n = .ok (some s) → Pdg.nucleusPid s.Z s.A = n

/-- Levels of a scheme have distinct addresses. -/
def Distinct (D : Data) : Prop :=
  ∀ n s, D.scheme n = .ok (some s) → (s.levels.map (·.1)).Nodup

/-- The mass of an ion in its ground state: that of the atom without the missing electrons. -/
def GroundMass (D : Data) (pdg charge : Int) (m : ℝ) : Prop :=
  ∃ atom electron, Mass.atomicMassPid D.mass pdg true = .ok (some atom) ∧
    Mass.particleMass D.mass 11 = .ok electron ∧ m = atom - charge * electron

/-- The mass of a particle is that of its ground state plus an energy `E`, up to `δ`. -/
def Excited (D : Data) (p : Particle ℝ) (E δ : ℝ) : Prop :=
  ∃ m, GroundMass D p.pdg p.charge m ∧ |p.mass - (m + E)| ≤ δ

/-- Fragments are nucleons or nuclei. -/
def NuclearFragments (D : Data) : Prop :=
  ∀ f ∈ D.frags, f.pid = 2112 ∨ f.pid = 2212 ∨ f.pid > 1000000000

/-- One emission: a gamma ray that leaves the nucleus what it was, or one of the fragments. -/
inductive Step (D : Data) (re nuc em : Particle ℝ) : Prop
  | gamma (code : em.pdg = 22) (neutral : em.charge = 0) (charge : nuc.charge = re.charge)
      (same : Filed D → nuc.pdg = re.pdg) : Step D re nuc em
  | fragment (f : Structure.Fragment) (mem : f ∈ D.frags) (code : em.pdg = f.pid)
      (charged : Pdg.charge f.pid = .ok em.charge)
      (charge : nuc.charge = re.charge - Pdg.getZ f.pid)
      (left : nuc.pdg = remnant re.pdg f.pid)
      (bound : ∃ S, Mass.separationEnergyPid D.mass re.pdg f.pid true = .ok (some S))
      (massive : ∃ m, Mass.atomicMassPid D.mass nuc.pdg true = .ok (some m)) : Step D re nuc em

/-- A sequence of emissions: the residue before, what it emits in order, the residue after.
`R` may say more about each emission (residue before, residue after, emitted particle). -/
inductive History (D : Data) (R : Particle ℝ → Particle ℝ → Particle ℝ → Prop) :
    Particle ℝ → List (Particle ℝ) → Particle ℝ → Prop
  | done (re : Particle ℝ) : History D R re [] re
  | emit {re nuc em re' : Particle ℝ} {ps : List (Particle ℝ)} (h : Step D re nuc em)
      (r : R re nuc em) (t : History D R nuc ps re') : History D R re (em :: ps) re'

end Marley.Decay
