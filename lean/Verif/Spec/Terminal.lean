import Verif.Model.Json

/-!
# A terminal

What a person sees of the characters sent to a terminal: rows of characters, and a
cursor.  Rows are as long as needed and there is no last row (on a real terminal lines
that are too long wrap around, and the screen scrolls).  Only the control sequences used
by the program are known.
-/

set_option autoImplicit false

namespace Marley.Terminal
open Marley.Json (Str)

/-- What the next character means. -/
inductive Mode where
  | plain | escape | control
  deriving DecidableEq, Repr

/-- A terminal. -/
structure Screen where
  rows : Nat → Str
  row : Nat
  col : Nat
  mode : Mode

/-- Writing `c` over what is in column `n`. -/
def over (l : Str) (n : Nat) (c : Char) : Str :=
  l.take n ++ List.replicate (n - l.length) ' ' ++ c :: l.drop (n + 1)

/-- Replacing a row. -/
def setRow (f : Nat → Str) (r : Nat) (l : Str) : Nat → Str := fun i => if i = r then l else f i

/-- A character arrives.  ESC [ K erases from the cursor to the end of the row, ESC [ F
moves to the start of the row above. -/
def Screen.recv (s : Screen) (c : Char) : Screen :=
  match s.mode with
  | .plain =>
    if c = '\n' then { s with row := s.row + 1, col := 0 }
    else if c = '\x1b' then { s with mode := .escape }
    else { s with rows := setRow s.rows s.row (over (s.rows s.row) s.col c), col := s.col + 1 }
  | .escape => { s with mode := if c = '[' then .control else .plain }
  | .control =>
    if c = 'K' then
      { s with rows := setRow s.rows s.row ((s.rows s.row).take s.col), mode := .plain }
    else if c = 'F' then { s with row := s.row - 1, col := 0, mode := .plain }
    else { s with mode := .plain }

/-- A text arrives. -/
def Screen.show (s : Screen) (t : Str) : Screen := t.foldl Screen.recv s

/-- Characters that stand for themselves. -/
def Printable (t : Str) : Prop := ∀ c ∈ t, c ≠ '\n' ∧ c ≠ '\x1b'

end Marley.Terminal
