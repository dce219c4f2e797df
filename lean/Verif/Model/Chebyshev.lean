import Verif.Model.Basic
import Mathlib.Analysis.SpecialFunctions.Trigonometric.Basic

/-!
# Chebyshev interpolation (src/ChebyshevInterpolatingFunction.cc)

Doubles are real numbers.  The cosine transform is taken by its documented meaning
here; `Verif.Model.Fftpack` models how it is computed, and `Verif.Model.ChebyshevFft`
puts it in.
-/

set_option autoImplicit false

namespace Marley.Cheb
open Marley

/-- Data members (include/marley/ChebyshevInterpolatingFunction.hh:85-106). -/
structure Interp where
  N : Nat
  lo : ℝ
  hi : ℝ
  integral : ℝ
  xs : List ℝ
  fs : List ℝ
  coeffs : List ℝ

/-- `chebyshev_point` (include/marley/ChebyshevInterpolatingFunction.hh:116-122). -/
noncomputable def point (lo hi : ℝ) (N j : Nat) : ℝ :=
  ((hi - lo) * Real.cos (Real.pi * j / N) + (hi + lo)) / 2

/-- `cost` of FFTPACK (src/fftpack4.cc:752-834) by its documented meaning, the
cosine transform of a vector of at least two entries: entry `i` is
`x₀ + (-1)^i x_(n-1) + Σ 2 x_k cos(k i π / (n - 1))`, the sum running over the
entries between the ends.  See `Fft.costVec` for how the library computes it. -/
noncomputable def cost (x : List ℝ) : List ℝ :=
  (List.range x.length).map (fun i : ℕ =>
    x.getD 0 0 + (-1) ^ i * x.getD (x.length - 1) 0 +
      ((List.range (x.length - 2)).map (fun k =>
        2 * x.getD (k + 1) 0 *
          Real.cos (((k + 1 : ℕ) : ℝ) * i * Real.pi / ((x.length - 1 : ℕ) : ℝ)))).sum)

/-- `compute_integral` (src/ChebyshevInterpolatingFunction.cc:104-118). -/
noncomputable def computeIntegral (N : Nat) (lo hi : ℝ) (a : List ℝ) : ℝ :=
  ((List.range (N / 2 + 1)).map (fun i =>
    let k := 2 * i
    let term := a.getD k 0 * 2 / (1 - (k : ℝ) ^ 2)
    if k = 0 ∨ k = N then term / 2 else term)).sum * ((hi - lo) / 2)

/-- Calling the function at all points in turn
(src/ChebyshevInterpolatingFunction.cc:62-67). -/
def sample (f : ℝ → Res ℝ) : List ℝ → Res (List ℝ)
  | [] => .ok []
  | x :: t =>
    match f x with
    | .error e => .error e
    | .ok y => match sample f t with
      | .error e => .error e
      | .ok ys => .ok (y :: ys)

/-- The points (src/ChebyshevInterpolatingFunction.cc:62-67, 152-155). -/
noncomputable def points (lo hi : ℝ) (N : Nat) : List ℝ :=
  (List.range (N + 1)).map (point lo hi N)

/-- The test for the end of the adaptive search
(src/ChebyshevInterpolatingFunction.cc:77-89); the coefficients are not divided by
`N` yet. -/
noncomputable def accurate (a : List ℝ) : Bool :=
  let biggest := (a.map (fun x => |x|)).foldl max 0
  let limit := 2 * biggest * (2 : ℝ) ^ (-52 : ℤ)
  open Classical in
  decide (|a.getD (a.length - 1) 0| < limit) && decide (|a.getD (a.length - 2) 0| < limit)

/-- The loop of the constructor (src/ChebyshevInterpolatingFunction.cc:52-96) for
`N_ = N`; `fixed` is `ok`.  The result are `N_`, the values and the transformed
values.  `N_MAX_` is include/marley/ChebyshevInterpolatingFunction.hh:85.  `fuel`
bounds the number of doublings; 16 suffice. -/
noncomputable def search (f : ℝ → Res ℝ) (lo hi : ℝ) : Nat → Bool → Nat →
    Res (Nat × List ℝ × List ℝ)
  | 0, _, _ => .error .ub
  | fuel + 1, fixed, N =>
    let N := if fixed then N else N * 2
    match sample f (points lo hi N) with
    | .error e => .error e
    | .ok fs =>
      if fixed || accurate (cost fs) || decide (65536 ≤ N) then .ok (N, fs, cost fs)
      else search f lo hi fuel false N

/-- The constructor (src/ChebyshevInterpolatingFunction.cc:34-102); `N = 0` means
that the size is found adaptively. -/
noncomputable def make (f : ℝ → Res ℝ) (lo hi : ℝ) (N : Nat) : Res Interp :=
  match search f lo hi 17 (N ≠ 0) (if N ≠ 0 then N else 1) with
  | .error e => .error e
  | .ok (N, fs, c) =>
    let a := c.map (· / (N : ℝ))
    .ok ⟨N, lo, hi, computeIntegral N lo hi a, points lo hi N, fs, a⟩

/-- The loop of `evaluate` (include/marley/ChebyshevInterpolatingFunction.hh:39-60)
over the remaining points; `j` is the index of the first of them, `w` is `w_j`
before it is negated.  A vanishing denominator gives no number. -/
noncomputable def evalLoop (N : Nat) (x : ℝ) : Nat → ℝ → ℝ → ℝ → List (ℝ × ℝ) → Option ℝ
  | _, _, numer, denom, [] => if denom = 0 then none else some (numer / denom)
  | j, w, numer, denom, (xj, fj) :: t =>
    if xj = x then some fj
    else
      let temp := -w / (x - xj)
      let temp := if j = 0 ∨ j = N then temp / 2 else temp
      evalLoop N x (j + 1) (-w) (numer + temp * fj) (denom + temp) t

/-- `evaluate` (include/marley/ChebyshevInterpolatingFunction.hh:39-60). -/
noncomputable def Interp.evaluate (c : Interp) (x : ℝ) : Option ℝ :=
  evalLoop c.N x 0 (-1) 0 0 (c.xs.zip c.fs)

/-- `beta_0` in `cdf` (src/ChebyshevInterpolatingFunction.cc:128-134). -/
noncomputable def beta0 (N : Nat) (a : List ℝ) : ℝ :=
  a.getD 0 0 + -0.5 * a.getD 1 0 +
    ((List.range (N - 1)).map (fun i =>
      let j := i + 2
      2 * a.getD j 0 * (-1) ^ (j + 1) / ((j : ℝ) * j - 1))).sum

/-- The coefficients in `cdf` (src/ChebyshevInterpolatingFunction.cc:136-148). -/
noncomputable def cdfCoeffs (N : Nat) (lo hi : ℝ) (a : List ℝ) : List ℝ :=
  (beta0 N a :: ((List.range (N - 1)).map (fun i =>
      let k := i + 1
      (a.getD (k - 1) 0 - a.getD (k + 1) 0) / (2 * (k : ℝ)))
    ++ [a.getD (N - 1) 0 / (2 * (N : ℝ)), a.getD N 0 / (2 * ((N : ℝ) + 1))])).map
    (· * ((hi - lo) / 2))

/-- `cdf` (src/ChebyshevInterpolatingFunction.cc:121-168).  It is called with `N`
at least 1. -/
noncomputable def Interp.cdf (c : Interp) : Interp :=
  let b := cdfCoeffs c.N c.lo c.hi c.coeffs
  ⟨c.N + 1, c.lo, c.hi, computeIntegral (c.N + 1) c.lo c.hi b,
    points c.lo c.hi (c.N + 1), (cost b).map (· * 0.5), b⟩

end Marley.Cheb
