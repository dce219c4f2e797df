import Verif.Model.MassTable
import Mathlib.Analysis.SpecialFunctions.Exp
import Mathlib.Analysis.SpecialFunctions.Pow.Real

/-!
# The back-shifted Fermi gas model as published

A. J. Koning et al., Nucl. Phys. A810 (2008) 13, cited in
include/marley/BackshiftedFermiGasModel.hh:23-30.  The definitions use the mass table but not
the model of the class.
-/

set_option autoImplicit false

namespace Marley.Spec
open Marley

/-- Asymptotic level density parameter. -/
noncomputable def asymptotic (A : ℝ) : ℝ := 0.0722396 * A + 0.195267 * A ^ (2 / 3 : ℝ)

/-- Damping parameter. -/
noncomputable def damping (A : ℝ) : ℝ := 0.410289 / A ^ (1 / 3 : ℝ)

/-- Discrete spin cut-off parameter. -/
noncomputable def discreteSigma (A : ℝ) : ℝ := 0.83 * A ^ (0.26 : ℝ)

/-- Pairing: even-even nuclei are shifted up, odd-odd ones down. -/
noncomputable def shift (Z N : Int) (A : ℝ) : ℝ :=
  if Even Z ∧ Even N then 0.173015 + 12 / Real.sqrt A
  else if Odd Z ∧ Odd N then 0.173015 - 12 / Real.sqrt A
  else 0.173015

/-- Level density parameter at effective energy `U > 0`, for shell correction `W`. -/
noncomputable def levelParameter (A W U : ℝ) : ℝ :=
  asymptotic A * (1 + W * (1 - Real.exp (-(damping A * U))) / U)

/-- Its limit for small `U`. -/
noncomputable def levelParameter0 (A W : ℝ) : ℝ := asymptotic A * (1 + W * damping A)

/-- Total Fermi gas level density. -/
noncomputable def fermiGas (a U σ : ℝ) : ℝ :=
  1 / (Real.sqrt (2 * Real.pi) * σ) * (Real.sqrt Real.pi / 12) *
    (Real.exp (2 * Real.sqrt (a * U)) / (a ^ (1 / 4 : ℝ) * U ^ (5 / 4 : ℝ)))

/-- The low-energy limit, for equal numbers of neutrons and protons taking part. -/
noncomputable def lowEnergy (a U σ : ℝ) : ℝ := Real.exp 1 * a / (12 * σ) * Real.exp (a * U)

/-- Square of the Fermi gas spin cut-off parameter. -/
noncomputable def fermiSigma2 (A a U : ℝ) : ℝ :=
  0.01389 * (A ^ (5 / 3 : ℝ) / asymptotic A) * Real.sqrt (a * U)

/-- Fraction of the levels that have spin `J`. -/
noncomputable def spinFraction (J σ : ℝ) : ℝ :=
  (2 * J + 1) / (2 * σ ^ 2) * Real.exp (-(J + 1 / 2) ^ 2 / (2 * σ ^ 2))

/-- The shell correction of a nuclide is the mass excess minus that of the liquid drop. -/
def ShellCorrection (t : Mass.Table) (Z A : Int) (W : ℝ) : Prop :=
  ∃ e d, Mass.massExcess t Z A true = .ok (some e) ∧ Mass.liquidDropExcess Z A = some d ∧ W = e - d

end Marley.Spec
