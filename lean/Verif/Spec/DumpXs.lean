import Verif.Model.DumpXs
import Verif.Spec.OutputFile
import Verif.Spec.EventReader

/-!
# Specification vocabulary for tables of cross sections (C109)
-/

set_option autoImplicit false

namespace Marley.DumpXs
open Marley Marley.Json Marley.Out Marley.Rdr

variable {K : Type}

/-- A number in a JSON document. -/
def number (ofLong : Int → K) : JVal K → Option K
  | .float x => some x
  | .int n => some (ofLong n)
  | _ => none

/-- An integer in a JSON document that is an `int`. -/
def smallInt : JVal K → Option Int
  | .int n => if -2147483648 ≤ n ∧ n ≤ 2147483647 then some n else none
  | _ => none

/-- The document says `v`: it has an entry of that name that means `v`, or it has none and
`v` is the default. -/
def Says {α : Type} (m : List (Str × JVal K)) (key : String) (meaning : JVal K → Option α) (default v : α) : Prop :=
  match m.lookup key.toList with
  | none => v = default
  | some x => meaning x = some v

/-- What the table is made of. -/
structure Settings (K : Type) where
  KEmin : K
  KEmax : K
  steps : Int
  pdg : Int

/-- The document gives these settings. -/
def Gives [DivisionRing K] (ofLong : Int → K) (m : List (Str × JVal K)) (s : Settings K) : Prop :=
  Says m "xsec_dump_KEmin" (number ofLong) 0 s.KEmin ∧ Says m "xsec_dump_KEmax" (number ofLong) 100 s.KEmax ∧
  Says m "xsec_dump_steps" smallInt 10000 s.steps ∧ Says m "xsec_dump_pdg" smallInt 12 s.pdg

/-- The energies of the table: the range is divided into equal parts, whose upper ends are taken. -/
def Settings.energies [DivisionRing K] (s : Settings K) : List K :=
  (List.range s.steps.toNat).map (fun (i : Nat) => s.KEmin + ((i : K) + 1) * ((s.KEmax - s.KEmin) / s.steps))

/-- The line of the table for an energy and a cross section in natural units. -/
def line [DivisionRing K] (num : K → Str) (E x : K) : Str :=
  num E ++ [' '] ++ num (x * squareInverseMeV) ++ ['\n']

/-- The table: one line for each energy, or the exception that the first cross section that cannot be computed throws. -/
def table [DivisionRing K] (num : K → Str) (xs : K → Res K) : List K → Res Str
  | [] => .ok []
  | E :: l =>
    match xs E with
    | .error e => .error e
    | .ok x => (table num xs l).map (line num E x ++ ·)

end Marley.DumpXs
