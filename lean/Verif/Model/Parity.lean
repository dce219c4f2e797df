import Verif.Model.Basic

/-!
# Model of `marley::Parity`

include/marley/Parity.hh and src/Parity.cc.
-/

set_option autoImplicit false

namespace Marley

/-- `marley::Parity` (include/marley/Parity.hh:25, 104): a single boolean
`is_positive_`. -/
structure Parity where
  /-- `is_positive_` (include/marley/Parity.hh:104). -/
  isPositive : Bool
  deriving DecidableEq, Repr, Inhabited

namespace Parity

/-- Default constructor (include/marley/Parity.hh:30): positive parity. -/
def default : Parity := ⟨true⟩

/-- Constructor from `bool` (include/marley/Parity.hh:35-36). -/
def ofBool (b : Bool) : Parity := ⟨b⟩

/-- Constructor from `int` (src/Parity.cc:24-29). -/
def ofInt (i : Int) : Res Parity :=
  if i = 1 then .ok ⟨true⟩
  else if i = -1 then .ok ⟨false⟩
  else .error .marleyError

/-- Assignment from `int` (src/Parity.cc:34-43).  Returns the new value of
`*this`; on error `*this` keeps its old value, which is not part of the
result. -/
def assignInt (_old : Parity) (i : Int) : Res Parity :=
  if i = 1 then .ok ⟨true⟩
  else if i = -1 then .ok ⟨false⟩
  else .error .marleyError

/-- `operator bool` (include/marley/Parity.hh:44). -/
def toBool (p : Parity) : Bool := p.isPositive

/-- Unary minus (include/marley/Parity.hh:47-49): flipped copy. -/
def neg (p : Parity) : Parity := ⟨!p.isPositive⟩

/-- `operator!` (include/marley/Parity.hh:52-55): flips the object in place;
the model returns the new value. -/
def flip (p : Parity) : Parity := ⟨!p.isPositive⟩

/-- Product of two parities (include/marley/Parity.hh:72-75). -/
def mul (p q : Parity) : Parity := ⟨p.isPositive == q.isPositive⟩

/-- Product with an `int` (include/marley/Parity.hh:77-81 and 109-113). -/
def mulInt (p : Parity) (i : Int) : Int := if p.isPositive then i else -i

/-- `operator int` (include/marley/Parity.hh:86-89). -/
def toInt (p : Parity) : Int := if p.isPositive then 1 else -1

/-- `to_char` (include/marley/Parity.hh:92-95). -/
def toChar (p : Parity) : Char := if p.isPositive then '+' else '-'

/-- `from_char` (src/Parity.cc:45-50). -/
def ofChar (c : Char) : Res Parity :=
  if c = '+' then .ok ⟨true⟩
  else if c = '-' then .ok ⟨false⟩
  else .error .marleyError

/-- White space as skipped by `std::ws` in the "C" locale. Used at src/Parity.cc:55. -/
def isSpace (c : Char) : Bool :=
  c = ' ' || c = '\n' || c = '\t' || c = '\r' || c = '\x0b' || c = '\x0c'

/-- `operator<<` (include/marley/Parity.hh:115-119). -/
def print (p : Parity) : List Char := [p.toChar]

/-- `operator>>` (src/Parity.cc:52-62): skip white space, read one character.
Result: the new parity (`none` when the stream failed and the object keeps its
old value) and the rest of the stream. -/
def read (s : List Char) : Res (Option Parity × List Char) :=
  match s.dropWhile isSpace with
  | [] => .ok (none, [])
  | c :: rest =>
    match ofChar c with
    | .ok p => .ok (some p, rest)
    | .error e => .error e

end Parity
end Marley
