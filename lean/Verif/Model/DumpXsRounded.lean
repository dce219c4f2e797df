import Verif.Model.DumpXs
import Mathlib.Data.Real.Basic

/-!
# The table of cross sections with rounding
-/

set_option autoImplicit false

namespace Marley.DumpXs
open Marley Marley.Json Marley.Out Marley.Rdr

/-- The loop (examples/executables/mardumpxs.cc:145-166) as `dumpLoop`, with the energies rounded.
Simplified: the conversion of the cross section to its unit is exact. -/
noncomputable def dumpLoopRounded (rd : ℝ → ℝ) (num : ℝ → Str) (xs : Int → ℝ → Res ℝ) (pdg : Int)
    (delta : ℝ) : Nat → ℝ → Str → Res Str
  | 0, _, text => .ok text
  | n + 1, KE, text =>
    let KE := rd (KE + delta)
    match xs pdg KE with
    | .error e => .error e
    | .ok x =>
      dumpLoopRounded rd num xs pdg delta n KE (text ++ num KE ++ ' ' :: num (x * unitFactor) ++ ['\n'])

/-- The step and the loop (examples/executables/mardumpxs.cc:134-166) for the settings given, with
rounding. -/
noncomputable def sweepRounded (rd : ℝ → ℝ) (num : ℝ → Str) (xs : Int → ℝ → Res ℝ) (pdg : Int)
    (KEmin KEmax : ℝ) (steps : Int) : Res Str :=
  dumpLoopRounded rd num xs pdg (rd (rd (KEmax - KEmin) / (steps : ℝ))) steps.toNat KEmin []

end Marley.DumpXs
