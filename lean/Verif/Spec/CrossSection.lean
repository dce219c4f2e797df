import Verif.Model.CrossSection

/-!
# What the properties of cross sections mean
-/

set_option autoImplicit false

namespace Marley.Xs
open Marley Marley.Reaction Marley.Sampling Marley.Kin

/-- A nuclear reaction that makes physical sense: no mass is negative, the target is
massive, strengths and excitation energies are not negative and every transition is
of Fermi or Gamow-Teller type. -/
structure Nuc.Good (n : Nuc) : Prop where
  a : 0 ≤ n.ma
  b : 0 < n.mb
  c : 0 ≤ n.mc
  d : 0 < n.md
  strength : ∀ m ∈ n.elements, 0 ≤ m.strength
  energy : ∀ m ∈ n.elements, 0 ≤ m.levelEnergy
  type : ∀ m ∈ n.elements, m.type = 0 ∨ m.type = 1
  proc : n.proc = .neutrinoCC ∨ n.proc = .antiNeutrinoCC ∨ n.proc = .nc

/-- The partial cross section for one transition is `x`: the value of `total_xs` for
this matrix element, or zero if that is NaN. -/
def Partial (fermi : Nuc → Val → Val) (n : Nuc) (KEa : ℝ) (m : MatEl) (x : ℝ) : Prop :=
  ∃ v b, transitionXs fermi n m KEa = .ok (v, b) ∧ (v = .num x ∨ v = .nan ∧ x = 0)

/-- The level can be reached: the total energy in the centre-of-momentum frame is
enough to make the ejectile and the residue in this level. -/
def Nuc.Reaches (n : Nuc) (KEa : ℝ) (m : MatEl) : Prop :=
  n.mc + (n.md + m.levelEnergy) ≤ Real.sqrt ((n.ma + n.mb) ^ 2 + 2 * n.mb * KEa)

/-- The level energies are in order. -/
def Nuc.Sorted (n : Nuc) : Prop := n.elements.Pairwise (fun a b => a.levelEnergy ≤ b.levelEnergy)

/-- Energy of the lepton in the rest frame of the residue, its momentum, its energy
without the Coulomb energy, and the momentum for that energy. -/
structure Ema where
  E : ℝ
  p : ℝ
  Eeff : ℝ
  peff : ℝ

/-- The quantities of the effective momentum approximation for a lepton of mass `mc`
with relative speed `beta`: the Coulomb energy at the centre of a charged sphere of
radius `r0 A^(1/3)` is subtracted from the energy (it is negative for negative
leptons, `pdgC > 0`). -/
def Ema.Is (n : Nuc) (beta : ℝ) (q : Ema) : Prop :=
  q.E * Real.sqrt (1 - beta ^ 2) = n.mc ∧ q.p = beta * q.E ∧
  (q.E - q.Eeff) * (2 * (r0 * (n.Af : ℝ) ^ (1 / 3 : ℝ)) / hbarC)
    = (if n.pdgC > 0 then -1 else 1) * (3 * n.Zf * alpha) ∧
  0 ≤ q.peff ∧ (n.mc ≤ q.Eeff → q.peff ^ 2 = q.Eeff ^ 2 - n.mc ^ 2)

/-- Energies in the centre-of-momentum frame: all of it, of the target, of the ejectile,
the momentum of the ejectile, the energy of the residue. -/
structure Cm where
  rs : ℝ
  Eb : ℝ
  Ec : ℝ
  pc : ℝ
  Ed : ℝ

/-- They are those of a projectile of kinetic energy `KEa` that hits the target at rest
and leaves the residue in the level: the squared invariant mass is that of the initial
particles, and in the initial and in the final state the two energies add up to it and
belong to opposite momenta. -/
def Cm.Is (k : Cm) (n : Nuc) (KEa : ℝ) (m : MatEl) : Prop :=
  0 < k.rs ∧ k.rs ^ 2 = (KEa + n.ma + n.mb) ^ 2 - ((KEa + n.ma) ^ 2 - n.ma ^ 2) ∧
  k.Ec + k.Ed = k.rs ∧ k.pc ^ 2 = k.Ec ^ 2 - n.mc ^ 2 ∧
  k.Ec ^ 2 - n.mc ^ 2 = k.Ed ^ 2 - (n.md + m.levelEnergy) ^ 2 ∧ 0 ≤ k.pc ∧
  (k.rs - k.Eb) ^ 2 - n.ma ^ 2 = k.Eb ^ 2 - n.mb ^ 2 ∧ 0 ≤ k.Eb

/-- Twice a spin that is the sum of the spin `J` (twice) and one unit, without the
transition from zero to zero. -/
def SpinAllowed (twoJ twoJ' : Int) : Prop :=
  |twoJ - 2| ≤ twoJ' ∧ twoJ' ≤ twoJ + 2 ∧ (twoJ' - twoJ) % 2 = 0 ∧ ¬ (twoJ = 0 ∧ twoJ' = 0)

end Marley.Xs
