import Verif.Model.Listing

/-!
# Specification vocabulary for the listing of an event (C117)
-/

set_option autoImplicit false

namespace Marley.Listing
open Marley Marley.Json

variable {K : Type}

/-- How numbers are printed: without blanks and line breaks, different numbers differently. -/
structure Plainly (num : K → Str) : Prop where
  inj : Function.Injective num
  blank : ∀ x, ' ' ∉ num x

/-- A line with some words and numbers. -/
def row (l : List Str) : Str := l.flatten ++ ['\n']

/-- The lines about a particle. -/
def particleRows (num : K → Str) (p : Particle K) : Str :=
  row [chars%"  particle with PDG code = ", intText p.pdg, chars%" has total energy ", num p.E, chars%" MeV,"] ++
  row [chars%"    3-momentum = (", num p.px, chars%" MeV, ", num p.py, chars%" MeV, ", num p.pz, chars%" MeV),"] ++
  row [chars%"    mass = ", num p.mass, chars%" MeV, and charge = ", intText p.charge, chars%" times the proton charge."]

/-- Spin and parity in the usual notation. -/
def spinParity (twoJ : Int) (positive : Bool) : Str :=
  (if 2 ∣ twoJ then intText (twoJ / 2) else intText twoJ ++ ['/', '2']) ++ [if positive then '+' else '-']

/-- The number of the event and a blank, if there is one. -/
def number : Option Nat → Str
  | some k => natText k ++ [' ']
  | none => []

/-- The lines about an event, with its number if there is one. -/
def eventRows (num : K → Str) (e : Event K) (n : Option Nat) : Str :=
  row [] ++
  row [chars%"*** MARLEY Event ", number n, chars%"has ",
    natText e.initial.length, chars%" initial particles and ", natText e.final.length, chars%" final particles. ***"] ++
  row [chars%"The residual nucleus initially had excitation energy ", num e.Ex, chars%" MeV and spin-parity ",
    spinParity e.twoJ e.parity.isPositive] ++
  row [chars%"Initial particles"] ++ (e.initial.map (particleRows num)).flatten ++
  row [chars%"Final particles"] ++ (e.final.map (particleRows num)).flatten

/-- The number that is shown. -/
def shown (n : Int) : Option Nat := if n < 0 then none else some n.toNat

end Marley.Listing
