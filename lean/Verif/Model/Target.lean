import Verif.Model.Utils

/-!
# Target atoms and targets (src/TargetAtom.cc, src/Target.cc)

A target atom is its PDG code (include/marley/TargetAtom.hh:98); atoms are
compared by it (TargetAtom.hh:58-77).
-/

set_option autoImplicit false

namespace Marley.Target
open Marley
open Marley.Json (Str intText)

variable {K : Type}

/-- The constructor from a code and `check_pdg_validity` (src/TargetAtom.cc:23-25,
46-51). -/
def atom (pdg : Int) : Res Int :=
  if Pdg.getA pdg ≤ 0 then .error .marleyError else .ok pdg

/-- The constructor from Z and A (src/TargetAtom.cc:27-30). -/
def atomZA (Z A : Int) : Res Int := atom (Pdg.nucleusPid Z A)

/-- `to_string` (src/TargetAtom.cc:40-44); `.at` throws for an element without a
symbol. -/
def atomName (pdg : Int) : Res Str :=
  match Utils.elementSymbol (Pdg.getZ pdg) with
  | .error e => .error e
  | .ok s => .ok (intText (Pdg.getA pdg) ++ s)

/-- `throw marley::Error(... + nuc.to_string() + ...)`: the message needs the
name of the atom, and looking it up may throw first. Used at src/Target.cc:73, 92. -/
def throwNaming {α : Type} (a : Int) : Res α :=
  match atomName a with
  | .error e => .error e
  | .ok _ => .error .marleyError

/-- The loop adding up the fractions (src/Target.cc:66-77).  `warn`: some log
stream takes warnings, so that the name of an atom with fraction zero is needed.
-/
def sumFractions [Zero K] [Add K] [LT K] [DecidableLT K] [DecidableEq K] (warn : Bool) :
    K → List (Int × K) → Res K
  | sum, [] => .ok sum
  | sum, (a, f) :: t =>
    if f < 0 then throwNaming a
    else if f = 0 ∧ warn = true then
      match atomName a with
      | .error e => .error e
      | .ok _ => sumFractions warn (sum + f) t
    else sumFractions warn (sum + f) t

/-- `map[key] = value` for a key that is not there, the entries being in order of
the keys. Used at src/Target.cc:87-95. -/
def insert (a : Int) (f : K) : List (Int × K) → List (Int × K)
  | [] => [(a, f)]
  | (b, g) :: t => if a < b then (a, f) :: (b, g) :: t else (b, g) :: insert a f t

/-- The loop filling the map (src/Target.cc:87-95). -/
def fill : List (Int × K) → List (Int × K) → Res (List (Int × K))
  | m, [] => .ok m
  | m, (a, f) :: t =>
    if (m.lookup a).isSome then throwNaming a else fill (insert a f m) t

/-- `initialize` (src/Target.cc:52-96), called by the constructor from two lists
(46-50): the map of atom fractions. -/
def make [DivisionRing K] [LT K] [DecidableLT K] [LE K] [DecidableLE K] [DecidableEq K]
    (warn : Bool) (atoms : List Int) (fracs : List K) : Res (List (Int × K)) :=
  if atoms.length ≠ fracs.length then .error .marleyError
  else if atoms.length = 0 then .error .marleyError
  else
    match sumFractions warn 0 (atoms.zip fracs) with
    | .error e => .error e
    | .ok sum =>
      if sum ≤ 0 then .error .marleyError
      else fill [] (atoms.zip (fracs.map (· / sum)))

/-- `Target(int pdg)` (src/Target.cc:23-25, 35-44). -/
def single [DivisionRing K] [LT K] [DecidableLT K] [LE K] [DecidableLE K] [DecidableEq K]
    (warn : Bool) (pdg : Int) : Res (List (Int × K)) :=
  match atom pdg with
  | .error e => .error e
  | .ok a => make warn [a] [1]

/-- `Target(int Z, int A)` (src/Target.cc:27-33). -/
def singleZA [DivisionRing K] [LT K] [DecidableLT K] [LE K] [DecidableLE K] [DecidableEq K]
    (warn : Bool) (Z A : Int) : Res (List (Int × K)) := single warn (Pdg.nucleusPid Z A)

/-- `atom_fraction` (src/Target.cc:98-105). -/
def fraction [Zero K] (m : List (Int × K)) (a : Int) : K :=
  match m.lookup a with
  | some f => f
  | none => 0

/-- `contains` (src/Target.cc:107-109). -/
def contains [Zero K] [DecidableEq K] (m : List (Int × K)) (a : Int) : Bool :=
  decide (fraction m a ≠ 0)

/-- `has_single_nuclide` (include/marley/Target.hh:66-67). -/
def hasSingleNuclide (m : List (Int × K)) : Bool := m.length == 1

end Marley.Target
