import Verif.Model.Decayer

/-!
# What the properties of nuclear decays mean
-/

set_option autoImplicit false

namespace Marley.Decay
open Marley

/-- Spins `a/2`, `b/2` and `c/2` can be coupled: each is between the difference and
the sum of the others, in whole steps. -/
def Triangle (a b c : Int) : Prop := |a - b| ≤ c ∧ c ≤ a + b ∧ 2 ∣ a + b + c

/-- Parity of the orbital motion. -/
def orbital (l : Int) : Int := (-1) ^ l.natAbs

/-- A nucleus of spin `twoJi/2` and parity `Pi` may emit a fragment of spin `twoS/2` and
parity `Pa` with orbital angular momentum `l` and total angular momentum `twoj/2`,
ending with spin `twoJf/2` and parity `Pf`. -/
structure Wave (twoJi : Int) (Pi : Parity) (twoS : Int) (Pa : Parity) (l twoj twoJf : Int)
    (Pf : Parity) : Prop where
  nonneg : 0 ≤ l
  emitted : Triangle (2 * l) twoS twoj
  total : Triangle twoj twoJf twoJi
  parity : Pi.toInt = Pf.toInt * Pa.toInt * orbital l

/-- The parity of radiation of a type and multipolarity. -/
def Rad.parity (t : Rad) (l : Int) : Int :=
  match t with
  | .electric => orbital l
  | .magnetic => -orbital l

/-- A nucleus may emit radiation of a type and multipolarity: at least dipole, the spins
can be coupled and parity is conserved. -/
structure Radiates (twoJi : Int) (Pi : Parity) (t : Rad) (l twoJf : Int) (Pf : Parity) : Prop where
  dipole : 1 ≤ l
  total : Triangle twoJf (2 * l) twoJi
  parity : Pi.toInt = Pf.toInt * t.parity l

/-! ## Channels -/

/-- A level is known for a nucleus. -/
def Known (D : Data) (nucleus : Int) (lev : Scheme.Level ℝ) : Prop :=
  ∃ s a, D.scheme nucleus = .ok (some s) ∧ (a, lev) ∈ s.levels

/-- The energy of the highest known level of a nucleus, zero if none is known. -/
def Highest (D : Data) (nucleus : Int) (E : ℝ) : Prop :=
  (∃ lev, Known D nucleus lev ∧ lev.energy = E ∧ ∀ lev', Known D nucleus lev' → lev'.energy ≤ E) ∨
    ((¬ ∃ lev, Known D nucleus lev) ∧ E = 0)

/-- What must be paid to emit the particle of a channel: the separation energy of one of the
fragments, nothing for a gamma ray. -/
def Costs (D : Data) (nucleus : Int) : Kind → ℝ → Prop
  | .fragLevel f _, S | .fragCont f _, S => (∃ x ∈ D.frags, x.pid = f) ∧
      Mass.separationEnergyPid D.mass nucleus f true = .ok (some S)
  | .gamLevel _, S | .gamCont _, S => S = 0

/-- A channel that is energetically possible: to a known level that leaves some kinetic
energy, or to the continuum above the highest known level if that is below the bound. -/
def Possible (D : Data) (nucleus : Int) (Ex : ℝ) (k : Kind) : Prop :=
  ∃ S, Costs D nucleus k S ∧
    match k with
    | .fragLevel _ lev | .gamLevel lev => Known D (k.final nucleus) lev ∧ lev.energy < Ex - S
    | .fragCont _ E | .gamCont E => Highest D (k.final nucleus) E ∧ E < Ex - S

/-- Final energies, spins and parities of a channel. -/
def Leads : Kind → ℝ → Int → Parity → Prop
  | .fragLevel _ lev, x, j, p | .gamLevel lev, x, j, p => x = lev.energy ∧ j = lev.twoJ ∧ p = lev.parity
  | .fragCont _ E, x, _, _ | .gamCont E, x, _, _ => E ≤ x

/-- Level schemes as they are built by reading files: sorted by energy, and no level below
the ground state. -/
def SortedSchemes (D : Data) : Prop :=
  ∀ n s, D.scheme n = .ok (some s) → s.levels.Pairwise (fun a b => a.2.energy ≤ b.2.energy) ∧
    ∀ l ∈ s.levels, 0 ≤ l.2.energy

end Marley.Decay
