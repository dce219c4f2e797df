import Verif.Model.Chebyshev
import Verif.Model.Fftpack

/-!
# Chebyshev interpolation with the transform as FFTPACK computes it
(src/ChebyshevInterpolatingFunction.cc)

The model of `Verif.Model.Chebyshev` takes the cosine transform by its documented
meaning.  Here the constructor and `cdf` call the model of the library, which may be
undefined behaviour.
-/

set_option autoImplicit false

namespace Marley.Fft
open Marley

/-- The loop of the constructor (src/ChebyshevInterpolatingFunction.cc:52-96), as
`Cheb.search`. -/
noncomputable def search (f : ℝ → Res ℝ) (lo hi : ℝ) : ℕ → Bool → ℕ →
    Res (ℕ × List ℝ × List ℝ)
  | 0, _, _ => .error .ub
  | fuel + 1, fixed, N =>
    let N := if fixed then N else N * 2
    match Cheb.sample f (Cheb.points lo hi N) with
    | .error e => .error e
    | .ok fs =>
      match costVec fs with
      | .error e => .error e
      | .ok a =>
        if fixed || Cheb.accurate a || decide (65536 ≤ N) then .ok (N, fs, a)
        else search f lo hi fuel false N

/-- The constructor (src/ChebyshevInterpolatingFunction.cc:34-102). -/
noncomputable def make (f : ℝ → Res ℝ) (lo hi : ℝ) (N : ℕ) : Res Cheb.Interp :=
  match search f lo hi 17 (N ≠ 0) (if N ≠ 0 then N else 1) with
  | .error e => .error e
  | .ok (N, fs, c) =>
    let a := c.map (· / (N : ℝ))
    .ok ⟨N, lo, hi, Cheb.computeIntegral N lo hi a, Cheb.points lo hi N, fs, a⟩

/-- `cdf` (src/ChebyshevInterpolatingFunction.cc:121-168). -/
noncomputable def cdf (c : Cheb.Interp) : Res Cheb.Interp :=
  let b := Cheb.cdfCoeffs c.N c.lo c.hi c.coeffs
  match costVec b with
  | .error e => .error e
  | .ok fs => .ok ⟨c.N + 1, c.lo, c.hi, Cheb.computeIntegral (c.N + 1) c.lo c.hi b,
      Cheb.points c.lo c.hi (c.N + 1), fs.map (· * 0.5), b⟩

end Marley.Fft
