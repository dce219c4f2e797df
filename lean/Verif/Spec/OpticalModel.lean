import Mathlib.Analysis.SpecialFunctions.Exp
import Mathlib.Analysis.SpecialFunctions.Pow.Real
import Mathlib.Analysis.Calculus.Deriv.Basic
import Mathlib.Analysis.Complex.Basic
import Mathlib.Order.Interval.Finset.Defs
import Mathlib.Data.Int.Interval

/-!
# The optical potential as published, and scattering by a potential

A. J. Koning and J. P. Delaroche, Nucl. Phys. A713 (2003) 231, cited in
include/marley/KoningDelarocheOpticalModel.hh:31-34, with the folding approximation for composite
particles of the TALYS manual, cited in src/KoningDelarocheOpticalModel.cc:204.  Nothing here refers to the model
of the code.
-/

set_option autoImplicit false

namespace Marley.Spec.KD

/-- Fine structure constant, ħc in MeV fm, mass of the charged pion in MeV. -/
noncomputable def α : ℝ := 0.0072973525698
noncomputable def ħc : ℝ := 197.3269718
noncomputable def mπ : ℝ := 139.57018

/-- The two kinds of nucleons. -/
inductive Kind where
  | neutron
  | proton

variable (Z A : ℝ)

/-- Asymmetry `(N - Z) / A`. -/
noncomputable def asym : ℝ := (A - 2 * Z) / A

/-- Fermi energy. -/
noncomputable def fermi : Kind → ℝ
  | .neutron => -11.2814 + 0.02646 * A
  | .proton => -8.4075 + 0.01378 * A

noncomputable def v1 : Kind → ℝ
  | .neutron => 59.30 - 21.0 * asym Z A - 0.024 * A
  | .proton => 59.30 + 21.0 * asym Z A - 0.024 * A

noncomputable def v2 : Kind → ℝ
  | .neutron => 0.007228 - 0.00000148 * A
  | .proton => 0.007067 + 0.00000423 * A

noncomputable def v3 : Kind → ℝ
  | .neutron => 0.00001994 - 0.00000002 * A
  | .proton => 0.00001729 + 0.00000001136 * A

noncomputable def v4 : ℝ := 0.000000007

noncomputable def w1 : Kind → ℝ
  | .neutron => 12.195 + 0.0167 * A
  | .proton => 14.667 + 0.009629 * A

noncomputable def w2 : ℝ := 73.55 + 0.0795 * A

noncomputable def d1 : Kind → ℝ
  | .neutron => 16.0 - 16.0 * asym Z A
  | .proton => 16.0 + 16.0 * asym Z A

noncomputable def d2 : ℝ := 0.0180 + 0.003802 / (1 + Real.exp ((A - 156) / 8))
noncomputable def d3 : ℝ := 11.5
noncomputable def vso1 : ℝ := 5.922 + 0.0030 * A
noncomputable def vso2 : ℝ := 0.0040
noncomputable def wso1 : ℝ := -3.1
noncomputable def wso2 : ℝ := 160

/-- Reduced radii (radius over `A^(1/3)`) and diffusenesses. -/
noncomputable def rV : ℝ := 1.3039 - 0.4054 * A ^ (-(1 / 3) : ℝ)
noncomputable def aV : ℝ := 0.6778 - 0.0001487 * A
noncomputable def rD : ℝ := 1.3424 - 0.01585 * A ^ (1 / 3 : ℝ)
noncomputable def aD : Kind → ℝ
  | .neutron => 0.5446 - 0.0001656 * A
  | .proton => 0.5187 + 0.0005205 * A
noncomputable def rSO : ℝ := 1.1854 - 0.647 * A ^ (-(1 / 3) : ℝ)
noncomputable def aSO : ℝ := 0.59
noncomputable def rC : ℝ := 1.198 + 0.697 * A ^ (-(2 / 3) : ℝ) + 12.994 * A ^ (-(5 / 3) : ℝ)

/-- A radius from a reduced radius. -/
noncomputable def radius (r : ℝ) : ℝ := r * A ^ (1 / 3 : ℝ)

/-- Mean Coulomb energy of a proton. -/
noncomputable def meanCoulomb : ℝ := 1.73 / rC A * Z * A ^ (-(1 / 3) : ℝ)

/-- Depth of the real volume potential, at energy `E`. -/
noncomputable def Vdepth (k : Kind) (E : ℝ) : ℝ :=
  let x := E - fermi A k
  let main := v1 Z A k * (1 - v2 A k * x + v3 A k * x ^ 2 - v4 * x ^ 3)
  match k with
  | .neutron => main
  | .proton => main + meanCoulomb Z A * v1 Z A k * (v2 A k - 2 * v3 A k * x + 3 * v4 * x ^ 2)

/-- Depth of the imaginary volume potential. -/
noncomputable def Wdepth (k : Kind) (E : ℝ) : ℝ :=
  let x := E - fermi A k
  w1 A k * (x ^ 2 / (x ^ 2 + w2 A ^ 2))

/-- Depth of the imaginary surface potential. -/
noncomputable def Ddepth (k : Kind) (E : ℝ) : ℝ :=
  let x := E - fermi A k
  d1 Z A k * (x ^ 2 / (x ^ 2 + d3 ^ 2)) * Real.exp (-(d2 A * x))

/-- Depths of the spin-orbit potentials. -/
noncomputable def VSOdepth (k : Kind) (E : ℝ) : ℝ := vso1 A * Real.exp (-(vso2 * (E - fermi A k)))
noncomputable def WSOdepth (k : Kind) (E : ℝ) : ℝ :=
  wso1 * ((E - fermi A k) ^ 2 / ((E - fermi A k) ^ 2 + wso2 ^ 2))

/-- Woods-Saxon shape. -/
noncomputable def f (R a r : ℝ) : ℝ := 1 / (1 + Real.exp ((r - R) / a))

/-- Potential energy of a charge `q` in the field of a uniformly charged sphere with charge `Q`. -/
noncomputable def coulombPot (Q q R r : ℝ) : ℝ :=
  if r ≤ R then Q * q * (α * ħc) / (2 * R) * (3 - r ^ 2 / R ^ 2) else Q * q * (α * ħc) / r

/-- Mean over the nucleons of a fragment of `n` neutrons and `z` protons. -/
noncomputable def mean (n z : ℝ) (x : Kind → ℝ) : ℝ := (n * x .neutron + z * x .proton) / (n + z)

/-- Sum over the nucleons of a fragment. -/
noncomputable def total (n z : ℝ) (x : Kind → ℝ) : ℝ := n * x .neutron + z * x .proton

/-- Sum over the kinds of nucleons in a fragment. -/
noncomputable def kinds (n z : ℕ) (x : Kind → ℝ) : ℝ :=
  (if n = 0 then 0 else x .neutron) + (if z = 0 then 0 else x .proton)

/-- Factor of the spin-orbit potential of a fragment: 1 for a nucleon; otherwise 1 over the number of nucleons for
odd-odd ones, half of that for odd ones, zero for even-even ones. -/
noncomputable def soFactor (n z : ℕ) : ℝ :=
  if n + z = 1 then 1
  else if Odd n ∧ Odd z then 1 / (n + z)
  else if Odd (n + z) then 1 / (2 * (n + z))
  else 0

/-- The potential at distance `r` felt by a fragment of `n` neutrons and `z` protons with energy `E`, for the value
`so` of twice the product of spin and orbital angular momentum. -/
noncomputable def potential (n z : ℕ) (E so r : ℝ) : ℂ :=
  let e := E / (n + z)
  let V := total n z (fun k => Vdepth Z A k e) * f (radius A (rV A)) (aV A) r
  let W := total n z (fun k => Wdepth A k e) * f (radius A (rV A)) (aV A) r
  let D := -4 * mean n z (aD A) * total n z (fun k => Ddepth Z A k e)
    * deriv (f (radius A (rD A)) (mean n z (aD A))) r
  let shapeSO := (ħc / mπ) ^ 2 * (1 / r) * deriv (f (radius A (rSO A)) aSO) r
  let VSO := soFactor n z * kinds n z (fun k => VSOdepth A k E) * shapeSO * so
  let WSO := soFactor n z * kinds n z (fun k => WSOdepth A k E) * shapeSO * so
  ⟨-V + VSO + coulombPot z Z (radius A (rC A)) r, -W - D + WSO⟩

end Marley.Spec.KD

namespace Marley.Spec

/-- Squared momentum of two bodies in their centre-of-mass frame, where their kinetic energies add up to `T`. -/
noncomputable def cmMomentum2 (m M T : ℝ) : ℝ :=
  ((m + M + T) ^ 2 - (m + M) ^ 2) * ((m + M + T) ^ 2 - (m - M) ^ 2) / (4 * (m + M + T) ^ 2)

/-- Total energy of the first body in the rest frame of the second. -/
noncomputable def restEnergy (m M T : ℝ) : ℝ := ((m + M + T) ^ 2 - m ^ 2 - M ^ 2) / (2 * M)

/-- Velocity of the first body in the rest frame of the second. -/
noncomputable def relVelocity (m M T : ℝ) : ℝ := Real.sqrt (restEnergy m M T ^ 2 - m ^ 2) / restEnergy m M T

/-- `u` solves `u'' + a u = 0` with `u = 0` at the origin by Numerov's rule on the points `0, h, 2h, …` up to the
point with number `N`. -/
def NumerovSolution (h : ℝ) (a u : ℕ → ℂ) (N : ℕ) : Prop :=
  u 0 = 0 ∧ ∀ n, n + 2 ≤ N →
    (1 + (h : ℂ) ^ 2 / 12 * a (n + 2)) * u (n + 2)
      = 2 * (1 - 5 * (h : ℂ) ^ 2 / 12 * a (n + 1)) * u (n + 1) - (1 + (h : ℂ) ^ 2 / 12 * a n) * u n

/-- The function `a` in the radial Schrödinger equation for potential `U`, angular momentum `l`, kinetic energy `T`
and wave number `k`. -/
noncomputable def radialTerm (U : ℝ → ℂ) (l : ℕ) (T k r : ℝ) : ℂ :=
  (k : ℂ) ^ 2 * (1 - U r / T) - (l * (l + 1) : ℝ) / (r : ℂ) ^ 2

/-- Points of the grid where the solution is compared with solutions without nuclear potential `V`: the first from
number 2 where the potential is at most 1 keV, and the first beyond that at 1.2 times its distance. -/
def MatchingPoints (h : ℝ) (V : ℝ → ℂ) (n1 n2 : ℕ) : Prop :=
  (2 ≤ n1 ∧ ‖V (n1 * h)‖ ≤ 0.001 ∧ ∀ n : ℕ, 2 ≤ n → n < n1 → 0.001 < ‖V (n * h)‖) ∧
  (n1 < n2 ∧ 1.2 * (n1 * h) ≤ n2 * h ∧ ∀ n : ℕ, n1 < n → n < n2 → n * h < 1.2 * (n1 * h))

/-- `S` is the element of the scattering matrix for potential `U`, angular momentum `l`, kinetic energy `T` and wave
number `k`: at two points, the regular solution of the radial equation is a multiple of `H⁻ - S H⁺`, where `H⁺`
is the outgoing solution without nuclear potential, and `H⁻` its conjugate. -/
def ScatteringElement (h : ℝ) (U : ℝ → ℂ) (l : ℕ) (T k : ℝ) (H : ℝ → Option ℂ) (n1 n2 : ℕ) (S : ℂ) : Prop :=
  ∃ (H1 H2 : ℂ) (u : ℕ → ℂ), H (k * (n1 * h)) = some H1 ∧ H (k * (n2 * h)) = some H2 ∧
    (∀ n : ℕ, 2 ≤ n → n ≤ n2 → 1 + (h : ℂ) ^ 2 / 12 * radialTerm U l T k (n * h) ≠ 0) ∧
    u 1 ≠ 0 ∧ NumerovSolution h (fun n => radialTerm U l T k (n * h)) u n2 ∧
    u n1 * H2 - u n2 * H1 ≠ 0 ∧
    S * (u n1 * H2 - u n2 * H1) = u n1 * (starRingEnd ℂ) H2 - u n2 * (starRingEnd ℂ) H1

/-- Twice the values of the total angular momentum of a particle with twice the spin `twoS` and orbital angular
momentum `l`: from `|l - s|` to `l + s` in steps of one. -/
noncomputable def couplings (l : ℕ) (twoS : ℤ) : Finset ℤ :=
  (Finset.Icc |2 * (l : ℤ) - twoS| (2 * l + twoS)).filter fun twoJ => (twoJ - twoS) % 2 = 0

end Marley.Spec
