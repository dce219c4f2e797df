/-!
# Outcomes of C++ calls

Shared by all parts of the model.  No file of /repo is modelled here; this is
the vocabulary in which throwing and undefined behaviour are expressed.
-/

set_option autoImplicit false

namespace Marley

/-- How a C++ call can fail to return normally.  `marleyError` stands for
`marley::Error` (include/marley/Error.hh:25-57), the `std::` ones for the
standard exceptions the library lets escape.  `ub` is *not* an exception: it
marks executions for which the C++ standard prescribes nothing. -/
inductive Exc where
  /-- `marley::Error` was thrown. -/
  | marleyError
  /-- `std::out_of_range` (from `.at()`, `std::stoi`, ...). -/
  | outOfRange
  /-- `std::invalid_argument` (from `std::stoi`, `std::stod`, ...). -/
  | invalidArgument
  /-- `std::range_error`. -/
  | rangeError
  /-- `std::runtime_error`. -/
  | runtimeError
  /-- Undefined behaviour. -/
  | ub
  deriving DecidableEq, Repr

/-- Result of a C++ call that may throw. See include/marley/Error.hh:25-57. -/
abbrev Res (α : Type _) := Except Exc α

/-- The call returned normally. See include/marley/Error.hh:25-57. -/
def Res.isOk {α} : Res α → Bool
  | .ok _ => true
  | .error _ => false

instance {α} [DecidableEq α] : DecidableEq (Res α) := fun a b =>
  match a, b with
  | .ok x, .ok y => if h : x = y then isTrue (by rw [h]) else isFalse (fun h' => h (by cases h'; rfl))
  | .error x, .error y => if h : x = y then isTrue (by rw [h]) else isFalse (fun h' => h (by cases h'; rfl))
  | .ok _, .error _ => isFalse (fun h => by cases h)
  | .error _, .ok _ => isFalse (fun h => by cases h)

end Marley
