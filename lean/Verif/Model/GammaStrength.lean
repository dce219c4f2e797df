import Verif.Model.MassTable
import Verif.Model.Utils
import Mathlib.Analysis.SpecialFunctions.Pow.Real
import Mathlib.Analysis.Real.Pi.Bounds

/-!
# Gamma-ray strength functions (src/GammaStrengthFunctionModel.cc,
src/StandardLorentzianModel.cc, src/WeisskopfSingleParticleModel.cc)

Doubles are real numbers; `none` is a result that is not a finite number.  `int` arithmetic is not
bounded, except in the double factorial.
-/

set_option autoImplicit false

namespace Marley.Strength
open Marley
open Marley.Utils (fdiv)

/-- `TransitionType` (include/marley/GammaStrengthFunctionModel.hh:43).  The branch of the code
for other values of the enumeration is not modelled. -/
inductive TrType where
  | electric
  | magnetic
  | unphysical
  deriving DecidableEq, Repr

/-- `std::pow` of a double and an `int`.
Used at src/StandardLorentzianModel.cc:136, src/WeisskopfSingleParticleModel.cc:39. -/
noncomputable def powInt (x : ℝ) (n : Int) : Option ℝ :=
  if x = 0 ∧ n < 0 then none else some (x ^ n)

/-- `marley_utils::mb` (include/marley/marley_utils.hh:116). -/
noncomputable def mb : ℝ := 1 / 3.89379338e5

/-! ## Standard Lorentzian -/

/-- Data members (include/marley/StandardLorentzianModel.hh:127-137,
include/marley/GammaStrengthFunctionModel.hh:74-75). -/
structure Slo where
  Z : Int
  A : Int
  eE1 : ℝ
  sigmaE1 : ℝ
  gammaE1 : ℝ
  eE2 : ℝ
  sigmaE2 : ℝ
  gammaE2 : ℝ
  eM1 : ℝ
  sigmaM1 : ℝ
  gammaM1 : ℝ

/-- The loops that reduce the strength (src/StandardLorentzianModel.cc:98, 108): `i` runs up to,
but not including, `l`. -/
noncomputable def reduce (l i : Int) (sigma : ℝ) : ℝ :=
  if i < l then reduce l (i + 1) (sigma * 8e-4) else sigma
termination_by (l - i).toNat

/-- Choice of energy, width and strength of the resonance
(src/StandardLorentzianModel.cc:75-110); `none` for unphysical transitions (112-117). -/
noncomputable def Slo.resonance (m : Slo) (l : Int) : TrType → Option (ℝ × ℝ × ℝ)
  | .electric =>
    if l = 1 then some (m.eE1, m.gammaE1, m.sigmaE1)
    else if l > 1 then some (m.eE2, m.gammaE2, reduce l 2 m.sigmaE2)
    else some (0, 0, 0)
  | .magnetic => some (m.eM1, m.gammaM1, reduce l 1 m.sigmaM1)
  | .unphysical => none

/-- `strength_function_coefficient` (src/StandardLorentzianModel.cc:70-131) with
`check_multipolarity` (src/GammaStrengthFunctionModel.cc:28-33). -/
noncomputable def Slo.coefficient (m : Slo) (type : TrType) (l : Int) (e : ℝ) : Res (Option ℝ) :=
  if l < 1 then .error .marleyError
  else
    match m.resonance l type with
    | none => .ok (some 0)
    | some (exl, gxl, sxl) =>
      .ok (fdiv (sxl * gxl ^ 2)
        ((2 * l + 1) * Real.pi ^ 2 * ((e ^ 2 - exl ^ 2) ^ 2 + e ^ 2 * gxl ^ 2)))

/-- `strength_function` (src/StandardLorentzianModel.cc:133-138). -/
noncomputable def Slo.strength (m : Slo) (type : TrType) (l : Int) (e : ℝ) : Res (Option ℝ) :=
  match m.coefficient type l e with
  | .error x => .error x
  | .ok c => .ok (do let p ← powInt e (3 - 2 * l); let c ← c; return p * c)

/-- `transmission_coefficient` (src/StandardLorentzianModel.cc:140-146). -/
noncomputable def Slo.transmission (m : Slo) (type : TrType) (l : Int) (e : ℝ) : Res (Option ℝ) :=
  match m.coefficient type l e with
  | .error x => .error x
  | .ok c => .ok (do let c ← c; return 2 * Real.pi * c * e ^ 4)

/-- The E1 and E2 parameters (src/StandardLorentzianModel.cc:39-52).  The M1 parameters, which
have no value yet, are set to zero: they are not read before they are assigned. -/
noncomputable def Slo.electricPart (Z A : Int) : Slo :=
  let eE1 : ℝ := 31.2 * (A : ℝ) ^ (-1 / 3 : ℝ) + 20.6 * (A : ℝ) ^ (-1 / 6 : ℝ)
  let gammaE1 : ℝ := 0.026 * eE1 ^ (1.91 : ℝ)
  let eE2 : ℝ := 63 * (A : ℝ) ^ (-1 / 3 : ℝ)
  let gammaE2 : ℝ := 6.11 - 0.012 * A
  { Z := Z, A := A, eE1 := eE1, gammaE1 := gammaE1,
    sigmaE1 := 1.2 * 120 * (A - Z) * Z / (A * Real.pi * gammaE1) * mb,
    eE2 := eE2, gammaE2 := gammaE2,
    sigmaE2 := 0.00014 * (Z : ℝ) ^ 2 * eE2 / ((A : ℝ) ^ (1 / 3 : ℝ) * gammaE2) * mb,
    eM1 := 0, sigmaM1 := 0, gammaM1 := 0 }

/-- `e_gamma_ref` (src/StandardLorentzianModel.cc:59). -/
noncomputable def eRef : ℝ := 7

/-- Constructor (src/StandardLorentzianModel.cc:29-68).  For a mass number that is not
positive the powers are not numbers; the model answers `.ub`. -/
noncomputable def Slo.make (Z A : Int) : Res Slo :=
  if A ≤ 0 then .error .ub
  else
    let m := Slo.electricPart Z A
    match m.strength .electric 1 eRef with
    | .error x => .error x
    | .ok none => .error .ub
    | .ok (some f) =>
      let factor := f / (0.0588 * (A : ℝ) ^ (0.878 : ℝ))
      let gammaM1 : ℝ := 4
      let eM1 : ℝ := 41 * (A : ℝ) ^ (-1 / 3 : ℝ)
      .ok { m with
        gammaM1 := gammaM1
        eM1 := eM1
        sigmaM1 := ((eRef ^ 2 - eM1 ^ 2) ^ 2 + eRef ^ 2 * gammaM1 ^ 2) * (3 * Real.pi ^ 2 * factor)
          / (eRef * gammaM1 ^ 2) }

/-! ## Weisskopf estimates -/

/-- `marley_utils::alpha` (include/marley/marley_utils.hh:109). -/
noncomputable def fineStructure : ℝ := 7.2973525698e-3

/-- `marley_utils::hbar_c` (include/marley/marley_utils.hh:111). -/
noncomputable def hbarC : ℝ := 197.3269718

/-- `marley_utils::r0` (include/marley/marley_utils.hh:124). -/
noncomputable def r0 : ℝ := 1.2

/-- Data members (include/marley/WeisskopfSingleParticleModel.hh:67). -/
structure Weisskopf where
  A : Int
  D0 : ℝ

/-- Constructor (src/WeisskopfSingleParticleModel.cc:25-32).  The atomic number is not used. -/
noncomputable def Weisskopf.make (A : Int) (D0 : ℝ) : Res Weisskopf :=
  if D0 ≤ 0 then .error .marleyError else .ok ⟨A, D0⟩

/-- The loop computing the double factorial (src/WeisskopfSingleParticleModel.cc:49-50); a product
that does not fit an `int` is undefined. -/
def dfactLoop (n acc : Int) : Res Int :=
  if n > 0 then
    if acc * n > 2147483647 then .error .ub else dfactLoop (n - 2) (acc * n)
  else .ok acc
termination_by n.toNat

/-- `strength_function` (src/WeisskopfSingleParticleModel.cc:43-83) with `check_multipolarity`
(src/GammaStrengthFunctionModel.cc:28-33).  For a negative mass number the radius is not
a number. -/
noncomputable def Weisskopf.strength (t : Mass.Table) (m : Weisskopf) (type : TrType) (l : Int) :
    Res (Option ℝ) :=
  if l < 1 then .error .marleyError
  else if 2 * l + 1 > 2147483647 then .error .ub
  else
    match dfactLoop (2 * l + 1) 1 with
    | .error x => .error x
    | .ok dfact =>
      if m.A < 0 then .ok none
      else
        let lambda : ℝ := (l + 1) / (l * (dfact : ℝ) ^ 2) * (3 / (l + 3)) ^ 2
        let R : ℝ := r0 * (m.A : ℝ) ^ (1 / 3 : ℝ)
        let el := 2 * fineStructure * lambda * (R / hbarC) ^ (2 * l) / m.D0
        match type with
        | .electric => .ok (some el)
        | .magnetic =>
          match Mass.particleMass t 2212 with
          | .error x => .error x
          | .ok mp => .ok (do let q ← fdiv hbarC (mp * R); return 10 * el * q ^ 2)
        | .unphysical => .ok (some 0)

/-- `transmission_coefficient` (src/WeisskopfSingleParticleModel.cc:85-90). -/
noncomputable def Weisskopf.transmission (t : Mass.Table) (m : Weisskopf) (type : TrType) (l : Int)
    (e : ℝ) : Res (Option ℝ) :=
  match m.strength t type l with
  | .error x => .error x
  | .ok f => .ok (do let f ← f; let p ← powInt e (2 * l + 1); return 2 * Real.pi * f * p)

/-- `partial_decay_width` (src/WeisskopfSingleParticleModel.cc:36-41). -/
noncomputable def Weisskopf.width (t : Mass.Table) (m : Weisskopf) (type : TrType) (l : Int)
    (e : ℝ) : Res (Option ℝ) :=
  match m.strength t type l with
  | .error x => .error x
  | .ok f => .ok (do let f ← f; let p ← powInt e (2 * l + 1); return m.D0 * p * f)

end Marley.Strength
