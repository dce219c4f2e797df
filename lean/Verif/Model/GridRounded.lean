import Verif.Model.Grid

/-!
# Linear interpolation with rounding
-/

set_option autoImplicit false

namespace Marley.Grid

/-- The formula (include/marley/InterpolationGrid.hh:341) with every operation rounded. -/
noncomputable def linearRounded (rd : ℝ → ℝ) (p1 p2 : ℝ × ℝ) (x : ℝ) : ℝ :=
  rd (p1.2 + rd (rd (rd (p2.2 - p1.2) / rd (p2.1 - p1.1)) * rd (x - p1.1)))

/-- `interpolate` (include/marley/InterpolationGrid.hh:271-344) for the linear-linear rule, with
rounding; the rule for other points is `extrap`.  A division by zero gives `none`. -/
noncomputable def interpolateRounded (rd : ℝ → ℝ) (extrap : Extrap) (points : Points) (x : ℝ) :
    Res (Option ℝ) :=
  match findBinLimits points x with
  | .error e => .error e
  | .ok (ex, i) =>
    match points[i]?, points[i + 1]? with
    | some p1, some p2 =>
      let v := if rd (p2.1 - p1.1) = 0 then none else some (linearRounded rd p1 p2 x)
      if ex = true then
        match extrap with
        | .zero => .ok (some 0)
        | .endpoint => if p1.1 > x then .ok (some p1.2) else .ok (some p2.2)
        | .throw => .error .marleyError
        | .continue => .ok v
      else .ok v
    | _, _ => .error .ub

end Marley.Grid
