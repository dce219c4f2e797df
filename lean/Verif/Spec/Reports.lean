import Verif.Model.Reports
import Verif.Props.Utils

/-!
# What a reader gets from the reports

The readers here know the layout of the lines only: words are separated by
blanks, cells by `&`, rows by newlines.
-/

set_option autoImplicit false

namespace Marley.Props
open Marley Marley.Reports
open Marley.Json (Str natText intText)
open Marley.Scheme (Gamma Level Scheme)

variable {K : Type}

/-- The pieces of a text between the separators `d`. -/
def cut (d : Char) : Str → List Str
  | [] => [[]]
  | c :: s => if c = d then [] :: cut d s else (c :: (cut d s).headD []) :: (cut d s).tail

/-- The text of a number has at least one character, and neither blanks nor
characters with a meaning in the tables. -/
def PlainText (t : Str) : Prop :=
  t ≠ [] ∧ ' ' ∉ t ∧ '\n' ∉ t ∧ '&' ∉ t ∧ '\\' ∉ t ∧ '{' ∉ t ∧ '}' ∉ t

/-- What a reader learns of a level: energy, spin-parity, and for every gamma its
energy, the energy of the level it leads to and its relative intensity. -/
structure LevelFacts where
  energy : Str
  spin : Str
  gammas : List (Str × Str × Str)
  deriving DecidableEq

/-- The facts are those of the decay scheme, in order; `spin` is the way spins and
parities are written. -/
def Tells (p : K → Str) (spin : Int → Parity → Str) (s : Scheme K) (facts : List LevelFacts) : Prop :=
  List.Forall₂ (fun (l : Nat × Level K) t => t.energy = p l.2.energy ∧
    t.spin = spin l.2.twoJ l.2.parity ∧
    List.Forall₂ (fun g u => ∃ m ∈ s.levels, g.dest = some m.1 ∧
      u = (p g.energy, p m.2.energy, p g.ri)) l.2.gammas t.gammas) s.levels facts

/-- Every gamma leads to a level of the scheme. -/
def AllLead (s : Scheme K) : Prop :=
  ∀ l ∈ s.levels, ∀ g ∈ l.2.gammas, ∃ m ∈ s.levels, g.dest = some m.1

/-- The way a level's spin and parity should be written (`spinParityNotation`). -/
def rightSpin (twoJ : Int) (P : Parity) : Str := spinParityNotation twoJ.toNat P.isPositive

/-- Reading the lines of a report from the end: the intensity just read, the
gammas of the level not yet reached, the levels. -/
def readReportLines : List Str → Str × List (Str × Str × Str) × List LevelFacts
  | [] => ([], [], [])
  | line :: t =>
    let r := readReportLines t
    let w := cut ' ' line
    if w.head? = some chars%"Level" then ([], [], ⟨w.getD 2 [], w.getD 6 [], r.2.1⟩ :: r.2.2)
    else if w.getD 2 [] = chars%"has" then ([], (w.getD 7 [], w.getD 13 [], r.1) :: r.2.1, r.2.2)
    else (w.getD 7 [], r.2.1, r.2.2)

/-- Reading a report. -/
def readReport (t : Str) : List LevelFacts := (readReportLines (cut '\n' t)).2.2

/-- The content of a cell: without blanks, up to the commands ending the row. -/
def cellText (c : Str) : Str := (c.filter (· ≠ ' ')).takeWhile (· ≠ '\\')

/-- Reading rows from the end: the gammas of the level not yet reached, the levels.
A row starts a level if its first cell is not empty, and has a gamma if the third
is not. -/
def readRows : List Str → List (Str × Str × Str) × List LevelFacts
  | [] => ([], [])
  | row :: t =>
    let r := readRows t
    let c := (cut '&' row).map cellText
    let g := if c.getD 2 [] = [] then r.1 else (c.getD 2 [], c.getD 4 [], c.getD 3 []) :: r.1
    if c.getD 0 [] = [] then (g, r.2) else ([], ⟨c.getD 0 [], c.getD 1 [], g⟩ :: r.2)

/-- The lines of a text that ends with a newline. -/
def linesOf (t : Str) : List Str := (cut '\n' t).dropLast

/-- Five cells in each row; each but the last ends with a row break. -/
def WellFormedRows (rows : List Str) : Prop :=
  (∀ r ∈ rows, (cut '&' r).length = 5) ∧
  (∀ r ∈ rows.dropLast, ['\\', '\\'] <:+: r) ∧ (∀ r ∈ rows.getLast?, '\\' ∉ r)

/-- Depth of braces after a text; `none` if a brace is closed that is not open. -/
def depth : Nat → Str → Option Nat
  | n, [] => some n
  | n, c :: s =>
    if c = '{' then depth (n + 1) s
    else if c = '}' then (match n with | 0 => none | k + 1 => depth k s)
    else depth n s

/-- The beginning of the captions: nuclide with mass number `A` and symbol `sym`. -/
def captionText (A sym : Str) : Str :=
  chars%"{\\textbf{Levels and $\\boldsymbol{\\gamma}$ transitions \n for \\isotope[\\boldsymbol{" ++
    (A ++ (chars%"}]{\\textbf{" ++ (sym ++ chars%"}} \n")))

/-- The document around the rows. -/
def document (A sym rows : Str) : Str :=
  latexTable1 ++ (captionText A sym ++ (chars%"}}\\\\\n" ++ (latexTable2 ++
    (captionText A sym ++ (chars%" -- \\textit{continued}}} \\\\\n" ++ (latexTable3 ++
      (rows ++ (latexTable4 ++ ['\n']))))))))

/-- Reading the text of a target: mass number in the first three columns, symbol in
the next two, the fraction after the equals sign. -/
def readTarget (t : Str) : List (Str × Str × Str) :=
  (cut '\n' t).map (fun l =>
    ((l.take 3).filter (· ≠ ' '), ((l.drop 3).take 2).filter (· ≠ ' '), l.drop 8))

/-- An entry of the usual kind: a nuclide of an element with a symbol. -/
def Nuclide (pdg : Int) : Prop :=
  ∃ (Z A : Int) (sym : Str), Utils.elementSymbol Z = .ok sym ∧ 1 ≤ A ∧ A ≤ 999 ∧
    pdg = Pdg.nucleusPid Z A

/-- What a reader learns of a decay channel: what is emitted, the energy of the
final level unless it is in the continuum, the width. -/
def readChannel (line : Str) : Str × Option Str × Str :=
  let w := cut ' ' line
  (w.getD 2 [], if w.getD 5 [] = chars%"level" then some (w.getD 7 []) else none,
    w.getD (w.length - 2) [])

/-- The name of what a channel emits. -/
def emittedName : Decay.Kind → Option Str
  | .fragLevel f _ | .fragCont f _ =>
    if f = 2112 then some ['n'] else if f = 2212 then some ['p']
    else if f = 1000010020 then some ['d'] else if f = 1000010030 then some ['t']
    else if f = 1000020030 then some ['h'] else if f = 1000020040 then some ['α'] else none
  | .gamLevel _ | .gamCont _ => some chars%"gamma-ray"

/-- The energy of the final level of a channel. -/
def finalLevel : Decay.Kind → Option ℝ
  | .fragLevel _ l | .gamLevel l => some l.energy
  | .fragCont _ _ | .gamCont _ => none

/-- A spin in decimal notation. -/
def decimalSpin (twoJ : Nat) : Str :=
  natText (twoJ / 2) ++ if twoJ % 2 = 0 then [] else ['.', '5']

end Marley.Props
