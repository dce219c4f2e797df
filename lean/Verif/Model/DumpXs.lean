import Verif.Model.EventReader

/-!
# Model of the example program `mardumpxs` (examples/executables/mardumpxs.cc)

The configuration file is a function from names to the JSON document and the total cross
section of the generator that is made from it (`JSONConfig`, `create_generator` and
`Generator::total_xs` have models of their own).  Messages are left out.
-/

set_option autoImplicit false

namespace Marley.DumpXs
open Marley Marley.Json Marley.Out Marley.Rdr

variable {K : Type}

/-- `get_double_dump_param` (examples/executables/mardumpxs.cc:50-63): the value that the variable has
afterwards. -/
def getDouble (ofLong : Int → K) (j : JVal K) (key : Str) (value : K) : Res K :=
  if hasKey j key then
    match at? j key with
    | .error e => .error e
    | .ok v =>
      match Event.toDouble? ofLong v with
      | some x => .ok x
      | none => .error .marleyError
  else .ok value

/-- `get_int_dump_param` (examples/executables/mardumpxs.cc:65-78); the `long` is assigned to an `int`. -/
def getInt (j : JVal K) (key : Str) (value : Int) : Res Int :=
  if hasKey j key then
    match at? j key with
    | .error e => .error e
    | .ok v =>
      match toLong? v with
      | some n => .ok (Event.wrap32 n)
      | none => .error .marleyError
  else .ok value

/-- The loop (examples/executables/mardumpxs.cc:145-166) with the number of steps still to do: the text written to the file.
`num` is the text of a double. -/
def dumpLoop [DivisionRing K] (num : K → Str) (xs : Int → K → Res K) (pdg : Int) (delta : K) :
    Nat → K → Str → Res Str
  | 0, _, text => .ok text
  | n + 1, KE, text =>
    let KE := KE + delta
    match xs pdg KE with
    | .error e => .error e
    | .ok x => dumpLoop num xs pdg delta n KE (text ++ num KE ++ ' ' :: num (x * unitFactor) ++ ['\n'])

/-- What follows the configuration of the generator (examples/executables/mardumpxs.cc:118-168) with the default values of
lines 40-45.  The step is not used if the number of steps is zero, so it does not matter what the division gives then. -/
def dump [DivisionRing K] (num : K → Str) (ofLong : Int → K) (j : JVal K) (xs : Int → K → Res K) : Res Str :=
  match getDouble ofLong j "xsec_dump_KEmin".toList 0 with
  | .error e => .error e
  | .ok KEmin =>
    match getDouble ofLong j "xsec_dump_KEmax".toList 100 with
    | .error e => .error e
    | .ok KEmax =>
      match getInt j "xsec_dump_steps".toList 10000 with
      | .error e => .error e
      | .ok steps =>
        match getInt j "xsec_dump_pdg".toList 12 with
        | .error e => .error e
        | .ok pdg => dumpLoop num xs pdg ((KEmax - KEmin) / (steps : K)) steps.toNat KEmin []

/-- How the program ends: with the usage message, without having been allowed to overwrite the
output file, with the output file as given, or with an exception that nobody catches (the output
file has been emptied by then). See examples/executables/mardumpxs.cc:82-169. -/
inductive Ended where
  | usage
  | aborted
  | finished (text : Str)
  | crashed (e : Exc)

/-- `main` (examples/executables/mardumpxs.cc:82-169) with the arguments after the name of the program, what is in the output
file (`none` if it cannot be read) and the lines that the user types. -/
def mardumpxs [DivisionRing K] (num : K → Str) (ofLong : Int → K) (config : Str → Res (JVal K × (Int → K → Res K)))
    (existing : Str → Option Str) (input : List Str) : List Str → Ended
  | out :: name :: _ =>
    if (existing out).isSome ∧ promptYesNo input = false then .aborted
    else
      match config name with
      | .error e => .crashed e
      | .ok (j, xs) =>
        match dump num ofLong j xs with
        | .error e => .crashed e
        | .ok text => .finished text
  | _ => .usage

end Marley.DumpXs
