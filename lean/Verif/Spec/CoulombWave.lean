import Verif.Model.CoulombWave

/-!
# Specification vocabulary for the Coulomb wave functions (C115)
-/

set_option autoImplicit false

namespace Marley.CoulombWave
open Marley
open Marley.Json (Str intText)

/-- GSL computes the Coulomb wave functions with the values `F` and `G`: either as they are, or, if they are too large or
too small, divided by powers of e that it gives. -/
def Right (w : Waves) (F G : ℝ) : Prop :=
  w.code = 0 ∧ w.F = some F ∧ w.G = some G ∨
  w.code = 16 ∧ ∃ f g, w.F = some f ∧ w.G = some g ∧ F = f * Real.exp w.expF ∧ G = g * Real.exp w.expG

/-- The errors that are not overflows (code 16 of GSL). -/
def trueErrors (l : List Report) : List Report := l.filter (fun r => r.errno ≠ 16)

/-- What is said about an error. -/
def announcement (reason file : Str) (line code : Int) : Str :=
  ["GSL error: ".toList, reason, " in file ".toList, file, " at line ".toList, intText line, " with error code ".toList,
    intText code].flatten

/-- What is written. -/
def writings (o : List Seen) : List (Logger.Stream × Str) :=
  o.filterMap (fun x => match x with | .written x t => some (x, t) | .called _ _ => none)

/-- The handler of another package is called. -/
def Seen.isCall : Seen → Bool
  | .called _ _ => true
  | .written _ _ => false

end Marley.CoulombWave
