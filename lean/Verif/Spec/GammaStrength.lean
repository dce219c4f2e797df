import Mathlib.Analysis.SpecialFunctions.Pow.Real
import Mathlib.Data.Nat.Factorial.DoubleFactorial

/-!
# What the documentation says about gamma-ray strength functions

The formulas of include/marley/StandardLorentzianModel.hh:27-105 and
include/marley/WeisskopfSingleParticleModel.hh:24-43, in their own notation.  None of the
definitions below uses the model.
-/

set_option autoImplicit false

namespace Marley.Spec

/-- `(ħc)²` in MeV² mb. -/
noncomputable def hc2 : ℝ := 389379.338

/-- The Lorentzian shape: `E`, `Γ`, `σ` (in mb) describe the resonance of multipolarity `ℓ`. -/
noncomputable def lorentzian (E Γ σ : ℝ) (ℓ : Nat) (Eγ : ℝ) : ℝ :=
  σ / ((2 * ℓ + 1) * Real.pi ^ 2 * hc2) *
    (Γ ^ 2 * Eγ ^ (3 - 2 * (ℓ : ℤ)) / ((Eγ ^ 2 - E ^ 2) ^ 2 + Eγ ^ 2 * Γ ^ 2))

/-- `E_E1`. -/
noncomputable def E1energy (A : ℝ) : ℝ := 31.2 * A ^ (-(1 / 3) : ℝ) + 20.6 * A ^ (-(1 / 6) : ℝ)

/-- `Γ_E1`. -/
noncomputable def E1width (A : ℝ) : ℝ := 0.026 * E1energy A ^ (1.91 : ℝ)

/-- `σ_E1`, in mb. -/
noncomputable def E1peak (Z A : ℝ) : ℝ := 1.2 * (120 * (A - Z) * Z / (Real.pi * A * E1width A))

/-- `f_E1`. -/
noncomputable def fE1 (Z A Eγ : ℝ) : ℝ := lorentzian (E1energy A) (E1width A) (E1peak Z A) 1 Eγ

/-- `E_E2`. -/
noncomputable def E2energy (A : ℝ) : ℝ := 63 * A ^ (-(1 / 3) : ℝ)

/-- `Γ_E2`. -/
noncomputable def E2width (A : ℝ) : ℝ := 6.11 - 0.012 * A

/-- `σ_E2`, in mb. -/
noncomputable def E2peak (Z A : ℝ) : ℝ := 0.00014 * Z ^ 2 * E2energy A / (A ^ (1 / 3 : ℝ) * E2width A)

/-- `f_Eℓ` for `ℓ ≥ 2`. -/
noncomputable def fE (Z A : ℝ) (ℓ : Nat) (Eγ : ℝ) : ℝ :=
  lorentzian (E2energy A) (E2width A) (0.0008 ^ (ℓ - 2) * E2peak Z A) ℓ Eγ

/-- `E_M1`. -/
noncomputable def M1energy (A : ℝ) : ℝ := 41 * A ^ (-(1 / 3) : ℝ)

/-- `σ_M1`, in mb, with `Γ_M1 = 4` and `B_n = 7`. -/
noncomputable def M1peak (Z A : ℝ) : ℝ :=
  3 * Real.pi ^ 2 * hc2 * (((7 ^ 2 - M1energy A ^ 2) ^ 2 + 7 ^ 2 * 4 ^ 2) / (7 * 4 ^ 2)) *
    (fE1 Z A 7 / (0.0588 * A ^ (0.878 : ℝ)))

/-- `f_Mℓ` for `ℓ ≥ 1`. -/
noncomputable def fM (Z A : ℝ) (ℓ : Nat) (Eγ : ℝ) : ℝ :=
  lorentzian (M1energy A) 4 (0.0008 ^ (ℓ - 1) * M1peak Z A) ℓ Eγ

open Nat in
/-- `Λ` of the Weisskopf estimates. -/
noncomputable def weisskopfFactor (ℓ : Nat) : ℝ :=
  (3 / (ℓ + 3)) ^ 2 * ((ℓ + 1) / (ℓ * ((2 * ℓ + 1)‼ : ℝ) ^ 2))

/-- The Weisskopf estimate for electric transitions; `ħc = 197.3269718` MeV fm, radius
`1.2 A^(1/3)` fm. -/
noncomputable def weisskopfE (A D0 : ℝ) (ℓ : Nat) : ℝ :=
  2 * 0.0072973525698 * weisskopfFactor ℓ / D0 * (1.2 * A ^ (1 / 3 : ℝ) / 197.3269718) ^ (2 * ℓ)

/-- The Weisskopf estimate for magnetic transitions, `mp` the mass of the proton. -/
noncomputable def weisskopfM (A D0 mp : ℝ) (ℓ : Nat) : ℝ :=
  10 * (197.3269718 / (1.2 * A ^ (1 / 3 : ℝ) * mp)) ^ 2 * weisskopfE A D0 ℓ

end Marley.Spec
