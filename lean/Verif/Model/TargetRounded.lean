import Verif.Model.Target
import Mathlib.Data.Real.Basic

/-!
# Targets with rounding
-/

set_option autoImplicit false

namespace Marley.Target

/-- The loop adding up the fractions (src/Target.cc:66-77) as `sumFractions`, with sums rounded. -/
noncomputable def sumFractionsRounded (rd : ℝ → ℝ) (warn : Bool) : ℝ → List (Int × ℝ) → Res ℝ
  | sum, [] => .ok sum
  | sum, (a, f) :: t =>
    if f < 0 then throwNaming a
    else if f = 0 ∧ warn = true then
      match atomName a with
      | .error e => .error e
      | .ok _ => sumFractionsRounded rd warn (rd (sum + f)) t
    else sumFractionsRounded rd warn (rd (sum + f)) t

/-- `initialize` (src/Target.cc:52-96) as `make`, with sums and quotients rounded. -/
noncomputable def makeRounded (rd : ℝ → ℝ) (warn : Bool) (atoms : List Int) (fracs : List ℝ) :
    Res (List (Int × ℝ)) :=
  if atoms.length ≠ fracs.length then .error .marleyError
  else if atoms.length = 0 then .error .marleyError
  else
    match sumFractionsRounded rd warn 0 (atoms.zip fracs) with
    | .error e => .error e
    | .ok sum =>
      if sum ≤ 0 then .error .marleyError
      else fill [] (atoms.zip (fracs.map (fun f => rd (f / sum))))

end Marley.Target
