import Verif.Model.Event
import Verif.Model.Reports

/-!
# Model of `Event::print_human_readable` (src/Event.cc)

Doubles are printed by an arbitrary function `num`.
-/

set_option autoImplicit false

namespace Marley.Listing
open Marley Marley.Json

variable {K : Type}

/-- `print_particle_info` (src/Event.cc:44-51). -/
def particleInfo (num : K → Str) (p : Particle K) : Str :=
  chars%"  particle with PDG code = " ++ (intText p.pdg ++
  (chars%" has total energy " ++ (num p.E ++ (chars%" MeV," ++
  ('\n' :: (chars%"    3-momentum = (" ++ (num p.px ++ (chars%" MeV, " ++ (num p.py ++
  (chars%" MeV, " ++ (num p.pz ++ (chars%" MeV)," ++ ('\n' ::
  (chars%"    mass = " ++ (num p.mass ++ (chars%" MeV, and charge = " ++
  (intText p.charge ++ (chars%" times the proton charge." ++ ['\n']))))))))))))))))))

/-- The spin (src/Event.cc:648-653); `%` and `/` of C++ round to zero. -/
def spin (twoJ : Int) : Str :=
  if twoJ.tmod 2 = 1 then intText twoJ ++ chars%"/2" else intText (twoJ.tdiv 2)

/-- `print_human_readable` (src/Event.cc:641-665) with the argument `n`. -/
def printHuman (num : K → Str) (e : Event K) (n : Int) : Str :=
  chars%"\n*** MARLEY Event " ++ ((if 0 ≤ n then intText n ++ [' '] else []) ++
  (chars%"has " ++ (natText e.initial.length ++
  (chars%" initial particles and " ++ (natText e.final.length ++
  (chars%" final particles. ***" ++ ('\n' ::
  (chars%"The residual nucleus initially had excitation energy " ++
  (num e.Ex ++ (chars%" MeV and spin-parity " ++ (spin e.twoJ ++
  (e.parity.toChar :: '\n' ::
  (chars%"Initial particles" ++ ('\n' ::
  (e.initial.flatMap (particleInfo num) ++
  (chars%"Final particles" ++ ('\n' :: e.final.flatMap (particleInfo num))))))))))))))))))

end Marley.Listing
