import Verif.Model.Reaction

/-!
# Specifications for reaction files (C31-C33)
-/

set_option autoImplicit false

namespace Marley.Props
open Marley Marley.Reaction
open Marley.Json (Str isSpace isDigit intText)
open Marley.Scheme (Level closestLevel levelAt exDbl exInt)

/-- How the proton number of the nucleus changes in a process. -/
def protonChange : Proc → Int
  | .neutrinoCC => 1
  | .antiNeutrinoCC => -1
  | _ => 0

/-- A matrix element as listed in a file: energy, strength, type. -/
structure Entry where
  energy : ℝ
  strength : ℝ
  type : Int

/-- What a matrix element says, without its level. -/
def entryOf (m : MatEl) : Entry := ⟨m.energy, m.strength, m.type⟩

/-- A complete line of a reaction file: a comment, or a matrix element with blanks
before and between the numbers (texts `en` and `st`) and anything after them. -/
inductive FileLine where
  | comment (text : Str)
  | data (lead en gap1 st gap2 tail : Str) (e : Entry)

/-- `w` is a numeral that the library reads as `x` when a blank follows. -/
def Numeral (f : DblFmt ℝ) (w : Str) (x : ℝ) : Prop :=
  (∃ c t, w = c :: t ∧ numStart c = true) ∧ (∀ c ∈ w, c ≠ '\n') ∧
  ∀ c t, isSpace c = true → f.read (w ++ c :: t) = some (x, c :: t)

/-- Blanks within a line. -/
def Blanks (s : Str) : Prop := ∀ c ∈ s, isSpace c = true ∧ c ≠ '\n'

/-- The text of a line without its newline. -/
def FileLine.text : FileLine → Str
  | .comment t => '#' :: t
  | .data lead en g1 st g2 tail e => lead ++ (en ++ (g1 ++ (st ++ (g2 ++ (intText e.type ++ tail)))))

/-- Lines considered. -/
def FileLine.Ok (f : DblFmt ℝ) : FileLine → Prop
  | .comment t => ∀ c ∈ t, c ≠ '\n' ∧ c ≠ '\r'
  | .data lead en g1 st g2 tail e => Blanks lead ∧ Blanks g1 ∧ g1 ≠ [] ∧ Blanks g2 ∧ g2 ≠ [] ∧
      (∀ c ∈ tail, c ≠ '\n') ∧ (∀ c ∈ tail.head?, isDigit c = false) ∧
      Numeral f en e.energy ∧ Numeral f st e.strength ∧
      intMin ≤ e.type ∧ e.type ≤ intMax

/-- The matrix elements listed on some lines. -/
def listed : List FileLine → List Entry
  | [] => []
  | .comment _ :: l => listed l
  | .data _ _ _ _ _ _ e :: l => e :: listed l

/-- The text of some lines, each with its newline. -/
def linesText : List FileLine → Str
  | [] => []
  | l :: ls => l.text ++ '\n' :: linesText ls

/-- A file for a nuclear process: comments, the header, and lines. -/
def nuclearFile (comments : List Str) (code pdgB : Int) (ls : List FileLine) : Str :=
  linesText (comments.map .comment) ++
    (intText code ++ ' ' :: (intText pdgB ++ '\n' :: linesText ls))

/-- The level `l` (address `a`) of the scheme is closest in energy to `E`. -/
def ClosestIn (s : Scheme.Scheme ℝ) (E : ℝ) (a : Nat) (l : Level ℝ) : Prop :=
  (a, l) ∈ s.levels ∧ ∀ m ∈ s.levels, |E - l.energy| ≤ |E - m.2.energy|

/-- `m'` is `m` with the level it should have: none above the threshold,
otherwise a closest one. -/
def Matched (s : Scheme.Scheme ℝ) (threshold : ℝ) (m m' : MatEl) : Prop :=
  entryOf m' = entryOf m ∧
  (threshold < m.energy → m'.level = none) ∧
  (m.energy ≤ threshold → ∃ a l, m'.level = some (a, l) ∧ ClosestIn s m.energy a l)

/-- No level is used by both. -/
def NoShared (x y : MatEl) : Prop := ∀ a ∈ x.level.map (·.1), a ∉ y.level.map (·.1)

end Marley.Props
