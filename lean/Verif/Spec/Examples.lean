import Verif.Model.Examples
import Verif.Spec.EventReader
import Verif.Spec.OutputFile

/-!
# Specification vocabulary for the example programs (C114)
-/

set_option autoImplicit false

namespace Marley.Examples
open Marley Marley.Json Marley.Out Marley.Rdr

variable {K γ : Type}

/-- The generator makes these events, one after the other. -/
inductive MakesEvents (create : γ → Option (Res (Event K × γ))) : γ → List (Event K) → γ → Prop
  | nil (g : γ) : MakesEvents create g [] g
  | cons (g g1 g' : γ) (e : Event K) (es : List (Event K)) : create g = some (.ok (e, g1)) →
      MakesEvents create g1 es g' → MakesEvents create g (e :: es) g'

/-- A primary particle of Geant4 is a particle of MARLEY. -/
structure SameParticle (p : Particle K) (q : Primary K) : Prop where
  code : q.pdg = p.pdg
  energy : q.E = p.E
  momentum : q.px = p.px ∧ q.py = p.py ∧ q.pz = p.pz
  charge : q.charge = p.charge

/-- An event of Geant4 has the final particles of an event of MARLEY, in the same order, and all start at the
origin at time zero. -/
def Hands [Zero K] (e : Event K) (a : List (Vertex K)) : Prop :=
  ∃ v, a = [v] ∧ v.x = 0 ∧ v.y = 0 ∧ v.z = 0 ∧ v.t0 = 0 ∧ List.Forall₂ SameParticle e.final v.primaries

/-- All primary particles of an event of Geant4. -/
def primaries (a : List (Vertex K)) : List (Primary K) := a.flatMap (·.primaries)

/-- The messages of a run of `n` events: one for every hundredth, beginning with the first. -/
def messages (n : Nat) : Str :=
  ((List.range n).filter (fun k => 100 ∣ k)).flatMap (fun k => "Beginning event #".toList ++ natText k ++ ['\n'])

/-- The number that decimal digits stand for. -/
def decimal (digits : Str) : Nat := digits.foldl (fun n c => 10 * n + (c.toNat - '0'.toNat)) 0

/-- The text is a number of events: blanks, perhaps a sign, digits; not negative and at most 2³¹ - 1. -/
def IsCount (arg : Str) (n : Int) : Prop :=
  ∃ blanks sign digits : Str, arg = blanks ++ sign ++ digits ∧ (∀ c ∈ blanks, isSpace c) ∧ digits ≠ [] ∧
    (∀ c ∈ digits, isDigit c) ∧ (sign = [] ∨ sign = ['+'] ∨ sign = ['-'] ∧ decimal digits = 0) ∧
    n = decimal digits ∧ decimal digits < 2 ^ 31

/-- Events as printed by the minimal examples: each in the ASCII format, followed by an empty line. -/
def printed (F : DblFmt K) (es : List (Event K)) : Str := es.flatMap (fun e => Event.print F e ++ ['\n'])

end Marley.Examples
