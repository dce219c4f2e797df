import Verif.Model.Sampling

/-!
# Discrete distributions with rounding
-/

set_option autoImplicit false

namespace Marley.Sampling

/-- The sum of the weights, added from the first to the last (`std::accumulate` in
`std::discrete_distribution` of libstdc++, bits/random.tcc; used in src/Generator.cc:370-372 and
611). -/
noncomputable def sumRounded (rd : ℝ → ℝ) (w : List ℝ) : ℝ := w.foldl (fun a x => rd (a + x)) 0

/-- Partial sums of the probabilities as `cumulative` (libstdc++, bits/random.tcc), with the
quotients and the sums rounded; the last one is set to 1. Used at src/Generator.cc:370-373. -/
noncomputable def cumulativeRounded (rd : ℝ → ℝ) (total : ℝ) : ℝ → List ℝ → List ℝ
  | _, [] => []
  | _, [_] => [1]
  | acc, w :: t => rd (acc + rd (w / total)) :: cumulativeRounded rd total (rd (acc + rd (w / total))) t

/-- `std::discrete_distribution` of libstdc++ as `pick` (src/Generator.cc:370-373 for the choice
of a reaction), with rounding. -/
noncomputable def pickRounded (rd : ℝ → ℝ) (w : List ℝ) (u : ℝ) : Res Nat :=
  if w.length < 2 then .ok 0
  else if w.any (· < 0) ∨ sumRounded rd w = 0 then .error .ub
  else .ok (Std.lowerBound (fun a => decide (a < u)) (cumulativeRounded rd (sumRounded rd w) 0 w))

end Marley.Sampling
