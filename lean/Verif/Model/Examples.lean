import Verif.Model.EventReader
import Verif.Model.Source

/-!
# Model of the example programs for Geant4 and of the minimal examples

`marg4` (examples/marg4) lets Geant4 track the final particles of events, `efr` and `evgen`
(examples/executables/minimal) print events.  What Geant4 does with the particles, its geometry
and physics are left out.  Geant4's loop over the events calls the generator action and then the event
action for each of them.  Counters of events are assumed not to overflow.
-/

set_option autoImplicit false

namespace Marley.Examples
open Marley Marley.Json Marley.Out Marley.Rdr

variable {K γ : Type}

/-! ## `MarleyPrimaryGeneratorAction` -/

/-- A `G4PrimaryParticle` with what is set here (examples/marg4/src/MarleyPrimaryGeneratorAction.cc:74-78). -/
structure Primary (K : Type) where
  pdg : Int
  px : K
  py : K
  pz : K
  E : K
  charge : Int

/-- A `G4PrimaryVertex` (examples/marg4/src/MarleyPrimaryGeneratorAction.cc:61). -/
structure Vertex (K : Type) where
  x : K
  y : K
  z : K
  t0 : K
  primaries : List (Primary K)

/-- The loop over the final particles (examples/marg4/src/MarleyPrimaryGeneratorAction.cc:71-82). -/
def primaryLoop : List (Particle K) → Vertex K → Vertex K
  | [], v => v
  | fp :: t, v =>
    let particle : Primary K := ⟨fp.pdg, fp.px, fp.py, fp.pz, fp.E, 0⟩
    let particle := { particle with charge := fp.charge }
    primaryLoop t { v with primaries := v.primaries ++ [particle] }

/-- `GeneratePrimaries` (examples/marg4/src/MarleyPrimaryGeneratorAction.cc:58-88) for an event that has
vertices already. -/
def generatePrimaries [Zero K] (create : γ → Option (Res (Event K × γ))) (anEvent : List (Vertex K)) (g : γ) :
    Option (Res (List (Vertex K) × γ)) :=
  match create g with
  | none => none
  | some (.error x) => some (.error x)
  | some (.ok (ev, g)) => some (.ok (anEvent ++ [primaryLoop ev.final ⟨0, 0, 0, 0, []⟩], g))

/-! ## `EventAction` -/

/-- `BeginOfEventAction` (examples/marg4/src/EventAction.cc:25-32): what is printed, and the counter afterwards. -/
def beginOfEvent (count : Nat) : Str × Nat :=
  (if count % 100 = 0 then "Beginning event #".toList ++ natText count ++ ['\n'] else [], count + 1)

/-! ## `marg4` -/

/-- `BeamOn` (as used in examples/marg4/src/marg4.cc:111): the events given to Geant4, what is printed, and
how it ends. -/
def beamOn [Zero K] (create : γ → Option (Res (Event K × γ))) :
    Nat → Nat → γ → Option (List (List (Vertex K)) × Str × Res γ)
  | 0, _, g => some ([], [], .ok g)
  | n + 1, count, g =>
    match generatePrimaries create [] g with
    | none => none
    | some (.error x) => some ([], [], .error x)
    | some (.ok (a, g)) =>
      let w := beginOfEvent count
      match beamOn create n w.2 g with
      | none => none
      | some (l, t, r) => some (a :: l, w.1 ++ t, r)

/-- The sign that `std::stoi` skips (as used in examples/marg4/src/marg4.cc:37). -/
def signOf : Str → Bool × Str
  | '-' :: t => (true, t)
  | '+' :: t => (false, t)
  | t => (false, t)

/-- `std::stoi` with the position of the first character that is not used
(as used in examples/marg4/src/marg4.cc:36-37). -/
def stoiPos (s : Str) : Res (Int × Nat) :=
  let w := signOf (skipBlank s)
  let digits := w.2.takeWhile isDigit
  if digits = [] then .error .invalidArgument
  else match Source.stoi w.1 digits with
    | .error e => .error e
    | .ok v => .ok (v, s.length - (w.2.length - digits.length))

/-- `get_num_events` (examples/marg4/src/marg4.cc:34-58). -/
def numEvents (arg : Str) : Option Int :=
  match stoiPos arg with
  | .error _ => none
  | .ok (x, pos) => if pos < arg.length then none else if x < 0 then none else some x

/-- How the program ends. See examples/marg4/src/marg4.cc:63-114. -/
inductive Ending (K : Type) where
  | usage
  | badNumber
  | failed (x : Exc)
  | ran (events : List (List (Vertex K))) (text : Str) (x : Option Exc)

/-- `main` (examples/marg4/src/marg4.cc:63-114); the arguments without the name of the program.
`generator` stands for the constructor of the generator action
(examples/marg4/src/MarleyPrimaryGeneratorAction.cc:41-56). -/
def marg4 [Zero K] (generator : Str → Res γ) (create : γ → Option (Res (Event K × γ))) (args : List Str) :
    Option (Ending K) :=
  match args with
  | number :: config :: _ =>
    match numEvents number with
    | none => some .badNumber
    | some n =>
      match generator config with
      | .error x => some (.failed x)
      | .ok g =>
        match beamOn create n.toNat 0 g with
        | none => none
        | some (l, t, r) =>
          some (.ran l ("Simulating ".toList ++ intText n ++ " events . . .\n".toList ++ t)
            (match r with | .ok _ => none | .error x => some x))
  | _ => some .usage

/-! ## `evgen` -/

/-- The loop (examples/executables/minimal/evgen.cc:16-19): what is printed, and how it ends. -/
def evgenLoop (F : DblFmt K) (create : γ → Option (Res (Event K × γ))) : Nat → γ → Option (Str × Res γ)
  | 0, g => some ([], .ok g)
  | n + 1, g =>
    match create g with
    | none => none
    | some (.error x) => some ([], .error x)
    | some (.ok (ev, g)) =>
      match evgenLoop F create n g with
      | none => none
      | some (t, r) => some (Event.print F ev ++ ['\n'] ++ t, r)

/-- `main` (examples/executables/minimal/evgen.cc:11-21), for any configuration. -/
def evgen (F : DblFmt K) (generator : Res γ) (create : γ → Option (Res (Event K × γ))) : Option (Str × Res Unit) :=
  match generator with
  | .error x => some ([], .error x)
  | .ok g =>
    match evgenLoop F create 10 g with
    | none => none
    | some (t, .ok _) => some (t, .ok ())
    | some (t, .error x) => some (t, .error x)

/-! ## `efr` -/

/-- The loop (examples/executables/minimal/efr.cc:19-21); `operator>>` and the condition as in
include/marley/EventFileReader.hh:61-64.  What is printed, and the exception that ends it, if any. -/
def efrLoop [DivisionRing K] (F : TextFmt K) (ofLong : Int → K) (d : OnDisk) :
    Nat → Sys K → Option (Str × Option Fail)
  | 0, _ => none
  | n + 1, s =>
    match nextEvent F ofLong d s with
    | (_, .error x) => some ([], some x)
    | (s, .ok (_, e)) =>
      match good s.reader with
      | .error x => some ([], some x)
      | .ok false => some ([], none)
      | .ok true =>
        match efrLoop F ofLong d n s with
        | none => none
        | some (t, r) => some (Event.print F.dbl e ++ ['\n'] ++ t, r)

/-- `main` (examples/executables/minimal/efr.cc:6-24) with the name of a file; `num` prints a number. -/
def efr [DivisionRing K] (num : K → Str) (F : TextFmt K) (ofLong : Int → K) (d : OnDisk) (logging : Bool)
    (fuel : Nat) : Option (Str × Option Fail) :=
  match fluxXsec F ofLong d false ⟨logging, fresh⟩ with
  | (_, .error x) => some ([], some x)
  | (s, .ok x) =>
    match efrLoop F ofLong d fuel s with
    | none => none
    | some (t, r) =>
      some ("flux-averaged total cross section = ".toList ++ num x ++ " * 10^{-42} cm^2 / atom\n".toList ++ t, r)

end Marley.Examples
