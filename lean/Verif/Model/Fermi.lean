import Verif.Model.CrossSection
import Mathlib.Analysis.SpecialFunctions.Gamma.Basic
import Mathlib.Analysis.SpecialFunctions.Pow.Complex
import Mathlib.Analysis.SpecialFunctions.Trigonometric.Basic

/-!
# The Fermi function (src/NuclearReaction.cc:116-150) and the complex gamma function it uses
(src/marley_utils.cc:110-143)

Finite doubles are real numbers, `std::complex<double>` is the field of complex numbers, and
`pi` (src/marley_utils.cc:121-122, include/marley/marley_utils.hh:93) is the number π.
The functions of the C++ library are the mathematical ones; `std::pow` of complex numbers is the principal
value.
-/

set_option autoImplicit false

namespace Marley.Fermi
open Marley Marley.Xs

/-- `p[0]` (src/marley_utils.cc:123). -/
def p0 : ℚ := 0.99999999999980993

/-- `p[1]` to `p[8]` (src/marley_utils.cc:123-126). -/
def ps : List ℚ :=
  [676.5203681218851, -1259.1392167224028, 771.32342877765313, -176.61502916214059, 12.507343278686905,
    -0.13857109526572012, 9.9843695780195716e-6, 1.5056327351493116e-7]

/-- The loop from the index `j` on (src/marley_utils.cc:136-138).  A division by zero, whose result is not a finite
number, is the error `ub`. -/
noncomputable def sumLoop (z : ℂ) : Nat → List ℚ → ℂ → Res ℂ
  | _, [], x => .ok x
  | j, p :: l, x => if z + j = 0 then .error .ub else sumLoop z (j + 1) l (x + (p : ℂ) / (z + j))

/-- `gamma` (src/marley_utils.cc:115-143) with at most the given number of nested calls; `none` if that is not
enough.  A division by zero is the error `ub`. -/
noncomputable def gamma : Nat → ℂ → Option (Res ℂ)
  | 0, _ => none
  | n + 1, z =>
    if z.re < 1 / 2 then
      match gamma n (1 - z) with
      | none => none
      | some (.error e) => some (.error e)
      | some (.ok g) =>
        if Complex.sin (Real.pi * z) * g = 0 then some (.error .ub)
        else some (.ok (Real.pi / (Complex.sin (Real.pi * z) * g)))
    else
      match sumLoop (z - 1) 1 ps (p0 : ℂ) with
      | .error e => some (.error e)
      | .ok x =>
        let t := z - 1 + (7 + 1 / 2)
        some (.ok (Real.sqrt (2 * Real.pi) * t ^ (z - 1 + 1 / 2) * Complex.exp (-t) * x))

/-- `std::pow` (C++ library, as called at src/NuclearReaction.cc:147) for an exponent that is a number not above zero and no
odd integer. -/
noncomputable def pow (v : Val) (y : ℝ) : Val :=
  if y = 0 then .num 1
  else match v with
    | .num x => if x < 0 then .nan else if x = 0 then .inf false else .num (x ^ y)
    | .inf _ => .num 0
    | .nan => .nan

/-- `fermi_function` (src/NuclearReaction.cc:122-150).  If the speed is zero or not a number, and if the gamma
function is not a finite number, NaN stands for the result. -/
noncomputable def fermi (n : Nuc) (beta : Val) : Val :=
  match beta with
  | .inf _ => .nan
  | .nan => .nan
  | .num b =>
    let gammaC := (Val.num (1 - b * b)).rsqrt
    if 1 - (alpha * n.Zf) ^ 2 < 0 then .nan
    else if b = 0 then .nan
    else
      let s := Real.sqrt (1 - (alpha * n.Zf) ^ 2)
      let rho := radius n.Af
      let eta := if n.pdgC > 0 then alpha * n.Zf / b else alpha * n.Zf / b * -1
      let c := Real.Gamma (1 + 2 * s)
      match gamma 2 ⟨s, eta⟩ with
      | some (.ok a) =>
        Val.num (2 * (1 + s)) * pow (Val.num (2 * b) * gammaC * rho * Val.num n.mc) (2 * s - 2) *
          Val.num (Real.exp (Real.pi * eta)) * Val.num (Complex.normSq a) / Val.num (c ^ 2)
      | _ => .nan

end Marley.Fermi
