import Verif.Model.Reaction

/-!
# Reading lines of text files (src/marley_utils.cc)

The regular expression is a predicate on lines, files are as in Model/Reaction.  The number of lines is assumed to fit into an `int`.
-/

set_option autoImplicit false

namespace Marley.TextFile
open Marley Marley.Json
open Marley.Reaction (FileIn getLine)

/-- The loop of `get_next_line` (src/marley_utils.cc:441-451); every pass reads a character or ends. -/
def nextLineLoop (rx : Str → Bool) (wanted : Bool) : Nat → FileIn → Str × FileIn
  | 0, f => ([], f)
  | n + 1, f =>
    if f.good then
      let r := getLine f.rest
      if rx r.1 == wanted then r else nextLineLoop rx wanted n r.2
    else ([], f)

/-- `get_next_line` (src/marley_utils.cc:436-456). -/
def nextLine (rx : Str → Bool) (wanted : Bool) (f : FileIn) : Str × FileIn := nextLineLoop rx wanted (f.rest.length + 2) f

/-- The loop of the second version (src/marley_utils.cc:467-479). -/
def countLoop (rx : Str → Bool) (wanted : Bool) : Nat → FileIn → Nat → Str × FileIn × Nat
  | 0, f, k => ([], f, k)
  | n + 1, f, k =>
    if f.good then
      let r := getLine f.rest
      let k := k + 1
      if rx r.1 == wanted then (r.1, r.2, k) else countLoop rx wanted n r.2 k
    else ([], f, k)

/-- `get_next_line` with `num_lines` (src/marley_utils.cc:460-484). -/
def nextLineCount (rx : Str → Bool) (wanted : Bool) (f : FileIn) : Str × FileIn × Nat :=
  countLoop rx wanted (f.rest.length + 2) f 0

end Marley.TextFile
