import Verif.Model.EventPrograms
import Verif.Spec.RootOutput
import Verif.Spec.EventReader

/-!
# Specification vocabulary for the programs that read event files (C108)
-/

set_option autoImplicit false

namespace Marley.Prog
open Marley Marley.Json Marley.Out Marley.RootOut Marley.Rdr

variable {K : Type}

/-- What is in an input file: events, each with the cross section in natural units that the
reader reports with it, and how it ends, `none` for a proper end, `some x` if an exception is thrown
instead of giving a further event. -/
structure Contents (K : Type) where
  events : List (Event K × K)
  ending : Option Fail

/-- A new reader of the file, asked for one event after the other and for other things in
between, answers accordingly. -/
def Gives [DivisionRing K] (F : TextFmt K) (ofLong : Int → K) (R : RootIO K) (d : OnDisk) (c : Contents K) : Prop :=
  ∃ b : Book K, b.rest = c.events ∧ b.ended = false ∧ ∀ (logging : Bool) (ops : List Op),
    ops = [] ∨ ops.head? = some .next →
    (ops.count .next ≤ c.events.length →
      (answersRoot F ofLong R d (freshRoot logging) ops).1 = expected b ops) ∧
    (ops.count .next = c.events.length →
      (c.ending = none → (answersRoot F ofLong R d (freshRoot logging) (ops ++ [.next, .good])).1 =
        expected b (ops ++ [.next, .good])) ∧
      ∀ x, c.ending = some x → (answersRoot F ofLong R d (freshRoot logging) (ops ++ [.next])).1 =
        expected b ops ++ [.fail x])

/-- The kinetic energy, never negative. -/
def kineticEnergy [DivisionRing K] [LinearOrder K] (p : Particle K) : K :=
  if p.mass ≤ p.E then p.E - p.mass else 0

/-- The row that describes an event: the projectile, the target, the ejectile, the residue, the
state of the residue before it decays, all other final particles, and the cross section in
10⁻⁴² cm².  There is none if the event has no such particles. -/
def summary [DivisionRing K] [LinearOrder K] : Event K × K → Option (Row K)
  | (⟨v :: t :: _, l :: r :: ps, Ex, twoJ, parity⟩, x) => some
    { pdgv := v.pdg
      Ev := v.E
      KEv := kineticEnergy v
      pxv := v.px
      pyv := v.py
      pzv := v.pz
      pdgt := t.pdg
      Mt := t.mass
      pdgl := l.pdg
      El := l.E
      KEl := kineticEnergy l
      pxl := l.px
      pyl := l.py
      pzl := l.pz
      pdgr := r.pdg
      Er := r.E
      KEr := kineticEnergy r
      pxr := r.px
      pyr := r.py
      pzr := r.pz
      Ex := Ex
      twoJ := twoJ
      parity := if parity.isPositive then 1 else -1
      np := ps.length
      pdgp := ps.map (·.pdg)
      Ep := ps.map (·.E)
      KEp := ps.map kineticEnergy
      pxp := ps.map (·.px)
      pyp := ps.map (·.py)
      pzp := ps.map (·.pz)
      xsec := x * squareInverseMeV }
  | _ => none

/-- The rows for some files, or the exception: an event without a row ends the program, and so
does a file without a proper end. -/
def rowsOf [DivisionRing K] [LinearOrder K] : List (Contents K) → Except Fail (List (Row K))
  | [] => .ok []
  | c :: l =>
    match c.events.mapM summary with
    | none => .error (.exc .outOfRange)
    | some rows =>
      match c.ending with
      | some x => .error x
      | none => (rowsOf l).map (rows ++ ·)

/-- The spin in the usual notation. -/
def spinText (twoJ : Int) : Str :=
  if 2 ∣ twoJ then intText (twoJ / 2) else intText twoJ ++ ['/', '2']

/-- The three lines about a particle; `num` is the text of a number. -/
def particleLines (num : K → Str) (p : Particle K) : List Str :=
  ["  particle with PDG code = ".toList ++ intText p.pdg ++ " has total energy ".toList ++ num p.E ++ " MeV,".toList,
   "    3-momentum = (".toList ++ num p.px ++ " MeV, ".toList ++ num p.py ++ " MeV, ".toList ++ num p.pz ++
     " MeV),".toList,
   "    mass = ".toList ++ num p.mass ++ " MeV, and charge = ".toList ++ intText p.charge ++
     " times the proton charge.".toList]

/-- The lines about event number `n`. -/
def eventLines (num : K → Str) (e : Event K) (n : Nat) : List Str :=
  [[], "*** Event ".toList ++ natText n ++ " has ".toList ++ natText e.initial.length ++
     " initial particles and ".toList ++ natText e.final.length ++ " final particles. ***".toList,
   "The residual nucleus initially had excitation energy ".toList ++ num e.Ex ++ " MeV and spin-parity ".toList ++
     spinText e.twoJ ++ [if e.parity.isPositive then '+' else '-'],
   "Initial particles".toList] ++ e.initial.flatMap (particleLines num) ++
  ["Final particles".toList] ++ e.final.flatMap (particleLines num)

/-- Lines as text. -/
def unlines (l : List Str) : Str := l.flatMap (· ++ ['\n'])

/-- All events of some files, or the exception that keeps the program from reading them. -/
def allEvents : List (Contents K) → Except Fail (List (Event K))
  | [] => .ok []
  | c :: l =>
    match c.ending with
    | some x => .error x
    | none => (allEvents l).map (c.events.map (·.1) ++ ·)

end Marley.Prog
