import Verif.Model.Sampling

/-!
# Inverse transform sampling with rounding
-/

set_option autoImplicit false

namespace Marley.Sampling

variable {G : Type}

/-- The bisection (src/Generator.cc:495-510) as `bisect`, with every result of an arithmetic
operation rounded.  `cdf` is the cumulative function as computed. -/
noncomputable def bisectRounded (rd : ℝ → ℝ) (cdf : ℝ → ℝ) (norm prob tolerance : ℝ) :
    Nat → ℝ → ℝ → Option ℝ
  | 0, _, _ => none
  | n + 1, a, b =>
    if rd (b - a) > tolerance then
      let mid := rd (rd (a + b) / 2)
      if rd (cdf mid / norm) = prob then some mid
      else if rd (cdf mid / norm) > prob then bisectRounded rd cdf norm prob tolerance n a mid
      else bisectRounded rd cdf norm prob tolerance n mid b
    else some (rd (rd (a + b) / 2))

/-- `inverse_transform_sample` (src/Generator.cc:478-511) with rounding throughout. -/
noncomputable def inverseTransformRounded (A : Arith) (E : Engine G) (fuel : Nat) (cdf : ℝ → ℝ)
    (xmin xmax tolerance : ℝ) (g : G) : Option (ℝ × G) :=
  let p := uniform A E 0 1 true g
  if p.1 = 0 then some (xmin, p.2)
  else if p.1 = 1 then some (xmax, p.2)
  else (bisectRounded A.rd cdf (cdf xmax) p.1 tolerance fuel xmin xmax).map (·, p.2)

end Marley.Sampling
