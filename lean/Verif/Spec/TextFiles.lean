import Verif.Model.TextFiles

/-!
# Specification vocabulary for lines of text files (C118)
-/

set_option autoImplicit false

namespace Marley.TextFile
open Marley Marley.Json
open Marley.Reaction (FileIn)

/-- The parts of a text between line breaks; the last one has none. -/
def parts : Str → List Str
  | [] => [[]]
  | c :: s => if c = '\n' then [] :: parts s else
    match parts s with
    | l :: t => (c :: l) :: t
    | [] => [[c]]

/-- The lines of a file that have not been read; there are none if its end has been reached. -/
def ahead (f : FileIn) : List Str := if f.good then parts f.rest else []

/-- The results of `n` calls of a function that reads from a file, and the file afterwards. -/
def calls (next : FileIn → Str × FileIn) : Nat → FileIn → List Str × FileIn
  | 0, f => ([], f)
  | n + 1, f => ((next f).1 :: (calls next n (next f).2).1, (calls next n (next f).2).2)

end Marley.TextFile
