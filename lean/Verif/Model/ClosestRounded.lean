import Verif.Model.DecayScheme

/-!
# The search for the closest level with rounding
-/

set_option autoImplicit false

namespace Marley.Scheme
open Marley

variable {K : Type}

/-- `get_pointer_to_closest_level` (src/DecayScheme.cc:35-65) as `closestLevel`, with the
rounding `rd` of the two differences.  Nothing else is rounded. -/
def closestRounded [Ring K] [LinearOrder K] (rd : K → K) (s : Scheme K) (E : K) : Res (Option Nat) :=
  let n := s.levels.length
  if n = 0 then .ok none
  else
    let i := lowerBoundIndex s E
    let at' (i : Nat) : Res (Option Nat) := match s.levels[i]? with
      | none => .error .outOfRange
      | some l => .ok (some l.1)
    if i = n then at' (i - 1)
    else if i > 0 then
      match s.levels[i]?, s.levels[i - 1]? with
      | some hi, some lo => if |rd (E - hi.2.energy)| > |rd (E - lo.2.energy)| then at' (i - 1) else at' i
      | _, _ => .error .outOfRange
    else at' i

end Marley.Scheme
