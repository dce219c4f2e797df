import Verif.Model.Decayer
import Verif.Model.OpticalModel
import Verif.Model.LevelDensity
import Verif.Model.GammaStrength

/-!
# The nuclear models used by the decays (src/StructureDatabase.cc:192-279, src/ExitChannel.cc)

The structure database creates one object for each nuclide and model and keeps it.  What an object
answers does not depend on earlier calls (C90, C91), so a new object is asked each time.
-/

set_option autoImplicit false

namespace Marley.Decay
open Marley
open Marley.Structure (Fragment)
open Marley.Scheme (Scheme)

/-- `TransitionType` as the decays use it and as the strength functions use it
(include/marley/GammaStrengthFunctionModel.hh:43). -/
def Rad.toType : Rad → Strength.TrType
  | .electric => .electric
  | .magnetic => .magnetic

/-- What stands outside the code of the models: the mass table, the Coulomb wave functions and
the values of members of the optical model that its constructor leaves without value
(src/KoningDelarocheOpticalModel.cc:194-254). -/
structure World where
  mass : Mass.Table
  coulomb : Int → ℝ → ℝ → Option ℂ
  kin : Optical.Kin
  work : Optical.Work

/-- `DEFAULT_NUMEROV_STEP_SIZE_` (include/marley/KoningDelarocheOpticalModel.hh:146). -/
noncomputable def stepSize : ℝ := 0.1

/-- `get_optical_model(pdg).transmission_coefficient(KE, frag, two_j, l, two_s)`
(src/StructureDatabase.cc:192-209, src/ExitChannel.cc:128-131, 258-262).  The charge of the target is
the default (include/marley/KoningDelarocheOpticalModel.hh:52-54). -/
noncomputable def opticalAnswer (W : World) (nuc : Int) (KE : ℝ) (frag twoj l twoS : Int) : Res ℝ :=
  match Optical.Om.make W.mass (Pdg.getZ nuc) (Pdg.getA nuc) stepSize W.kin W.work with
  | .error e => .error e
  | .ok m => (m.transmission W.mass W.coulomb KE frag twoj l twoS 0).1

/-- `get_level_density_model(pdg).level_density(Ex, twoJ, P)` (src/StructureDatabase.cc:228-244,
src/ExitChannel.cc:265-266, 353-354). -/
noncomputable def densityAnswer (t : Mass.Table) (nuc : Int) (Ex : ℝ) (twoJ : Int) (P : Parity) :
    Res (Option ℝ) :=
  match Density.Bfm.make t (Pdg.getZ nuc) (Pdg.getA nuc) with
  | .error e => .error e
  | .ok m => .ok (m.spinParity Ex twoJ P).1

/-- `get_gamma_strength_function_model(pdg).transmission_coefficient(type, l, E)`
(src/StructureDatabase.cc:253-279, src/ExitChannel.cc:198-202, 348-352). -/
noncomputable def strengthAnswer (nuc : Int) (type : Rad) (l : Int) (e : ℝ) : Res (Option ℝ) :=
  match Strength.Slo.make (Pdg.getZ nuc) (Pdg.getA nuc) with
  | .error x => .error x
  | .ok m => m.transmission type.toType l e

/-- The number that was answered.  Exceptions and results that are not numbers are outside the
model of the decays, which is told 0 in place of them; that they do not occur has to be shown.
Used at src/ExitChannel.cc:267-272, 356-361. -/
def Answer.val : Res (Option ℝ) → ℝ
  | .ok (some x) => x
  | _ => 0

/-- What the decays use (src/StructureDatabase.cc:192-279): fragments, level schemes and bounds of the
sums as given, and the models that the database creates. -/
noncomputable def builtin (W : World) (frags : List Fragment) (scheme : Int → Res (Option (Scheme ℝ)))
    (fragLMax gamLMax : Int) : Data where
  mass := W.mass
  frags := frags
  scheme := scheme
  optical nuc KE frag twoj l twoS := Answer.val ((opticalAnswer W nuc KE frag twoj l twoS).map some)
  density nuc Ex twoJ P := Answer.val (densityAnswer W.mass nuc Ex twoJ P)
  strength nuc type l e := Answer.val (strengthAnswer nuc type l e)
  fragLMax := fragLMax
  gamLMax := gamLMax

end Marley.Decay
