import Verif.Model.CrossSection
import Mathlib.Analysis.SpecialFunctions.Gamma.Basic
import Mathlib.Analysis.SpecialFunctions.Pow.Complex

/-!
# What the Fermi function should be (C110)
-/

set_option autoImplicit false

namespace Marley.Props
open Marley

/-- The approximation of Lanczos to the gamma function, for `g = 7` and nine coefficients. -/
noncomputable def lanczosGamma (z : ℂ) : ℂ :=
  Real.sqrt (2 * Real.pi) * (z - 1 + 15 / 2) ^ (z - 1 / 2) * Complex.exp (-(z - 1 + 15 / 2)) *
    (0.99999999999980993 + 676.5203681218851 / z - 1259.1392167224028 / (z + 1) + 771.32342877765313 / (z + 2)
      - 176.61502916214059 / (z + 3) + 12.507343278686905 / (z + 4) - 0.13857109526572012 / (z + 5)
      + 9.9843695780195716e-6 / (z + 6) + 1.5056327351493116e-7 / (z + 7))

/-- The radius of a nucleus of mass number `A`, in units of 1/MeV. -/
noncomputable def nuclearRadius (A : Int) : ℝ := Xs.r0 * (A : ℝ) ^ (1 / 3 : ℝ) / Xs.hbarC

/-- The Fermi function for the charge `Z` of the nucleus, its radius `R` and a lepton of mass `m`, speed `beta`
and charge `-q` with the gamma function `Γ`. -/
noncomputable def fermiSpec (Γ : ℂ → ℂ) (q : ℝ) (Z : Int) (R m beta : ℝ) : ℝ :=
  let S := Real.sqrt (1 - (Xs.alpha * Z) ^ 2)
  let p := m * beta / Real.sqrt (1 - beta ^ 2)
  let eta := q * Xs.alpha * Z / beta
  2 * (1 + S) / Real.Gamma (1 + 2 * S) ^ 2 * (2 * p * R) ^ (2 * (S - 1)) * Real.exp (Real.pi * eta) *
    ‖Γ (S + eta * Complex.I)‖ ^ 2

end Marley.Props
