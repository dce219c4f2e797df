import Verif.Model.Talys

/-!
# Specification of files in TALYS format (C96, C97)
-/

set_option autoImplicit false

namespace Marley.Props
open Marley Marley.Talys Marley.Scheme
open Marley.Json (Str natText intText isDigit isSpace)

variable {K : Type}

/-- A listed gamma: the number of the final level and the branching ratio. -/
structure TGamma (K : Type) where
  final : Nat
  ratio : K

/-- A listed level. -/
structure TLevel (K : Type) where
  energy : K
  twoJ : Int
  parity : Parity
  gammas : List (TGamma K)

/-- Nothing but blanks. -/
def IsGap (b : Str) : Prop := ∀ c ∈ b, c = ' '

/-- The text is one of the number. -/
def DblText (f : DblFmt K) (t : Str) (x : K) : Prop :=
  (∃ c u, t = c :: u ∧ isSpace c = false) ∧
  ∀ c rest, isSpace c = true → f.read (t ++ c :: rest) = some (x, c :: rest)

/-- Nothing follows, or a blank. -/
def Ends (t : Str) : Prop := t = [] ∨ ∃ u, t = ' ' :: u

/-- The line of a level: its number, energy, spin, parity and number of gammas. -/
def LevelRecord [Field K] (f : DblFmt K) (i : Nat) (l : TLevel K) (line : Str) : Prop :=
  '\n' ∉ line ∧ ∃ b0 b1 b2 b3 b4 tE tJ tail,
    IsGap b0 ∧ IsGap b1 ∧ IsGap b2 ∧ IsGap b3 ∧ IsGap b4 ∧ Ends tail ∧
    DblText f tE l.energy ∧ DblText f tJ (l.twoJ / 2) ∧
    line = b0 ++ (natText i ++ ' ' :: (b1 ++ (tE ++ ' ' :: (b2 ++ (tJ ++ ' ' :: (b3 ++
      (intText l.parity.toInt ++ ' ' :: (b4 ++ (natText l.gammas.length ++ tail))))))))) 

/-- The line of a gamma: the final level and the branching ratio. -/
def GammaRecord (f : DblFmt K) (g : TGamma K) (line : Str) : Prop :=
  '\n' ∉ line ∧ ∃ b0 b1 tB tail, IsGap b0 ∧ IsGap b1 ∧ DblText f tB g.ratio ∧
    line = b0 ++ (natText g.final ++ ' ' :: (b1 ++ (tB ++ ' ' :: tail)))

/-- The lines of the levels, numbered from `i`, each followed by the lines of its gammas. -/
def Records [Field K] (f : DblFmt K) : Nat → List (TLevel K) → List Str → Prop
  | _, [], lines => lines = []
  | i, l :: ls, lines => ∃ line gs rest, lines = line :: (gs ++ rest) ∧ LevelRecord f i l line ∧
      List.Forall₂ (GammaRecord f) l.gammas gs ∧ Records f (i + 1) ls rest

/-- The name of a nuclide: the mass number with three characters and the symbol of the element
with two. -/
def IsName (Z A : Nat) (name : Str) : Prop :=
  ∃ sym, Utils.elementSymbol Z = .ok sym ∧
    name = List.replicate (3 - (natText A).length) ' ' ++ natText A ++
      (sym ++ List.replicate (2 - sym.length) ' ')

/-- The first line of a data set with `n` excited levels: four numbers in 18 columns, 57
blanks and the name. -/
def Header (Z A n : Nat) (line : Str) : Prop :=
  ∃ (b0 b1 b2 b3 b4 name : Str) (total : Nat), IsGap b0 ∧ IsGap b1 ∧ IsGap b2 ∧ IsGap b3 ∧ IsGap b4 ∧
    (total : Int) ≤ intMax ∧ IsName Z A name ∧
    (b0 ++ (natText Z ++ ' ' :: (b1 ++ (natText A ++ ' ' :: (b2 ++ (natText total ++
      ' ' :: (b3 ++ (natText n ++ b4))))))) : Str).length = 18 ∧
    line = b0 ++ (natText Z ++ ' ' :: (b1 ++ (natText A ++ ' ' :: (b2 ++ (natText total ++
      ' ' :: (b3 ++ (natText n ++ b4))))))) ++ (List.replicate 57 ' ' ++ name)

/-- The line could be taken for the first one of the data for the nuclide: 18 digits or blanks,
57 blanks and the name. -/
def LooksLike (Z A : Nat) (line : Str) : Prop :=
  ∃ fields name, fields.length = 18 ∧ (∀ c ∈ fields, isDigit c = true ∨ c = ' ') ∧ IsName Z A name ∧
    line = fields ++ (List.replicate 57 ' ' ++ name)

/-- A file with these lines. -/
def fileText (lines : List Str) : Str := lines.flatMap (fun l => l ++ ['\n'])

/-- The energy of a listed level. -/
def energyAt [Zero K] (Ls : List (TLevel K)) (k : Nat) : K :=
  match Ls[k]? with
  | some l => l.energy
  | none => 0

/-- The level as it should be stored: the gammas with positive branching ratios, whose energies
are those between the two levels. -/
def levelOf' [Field K] [LinearOrder K] (Ls : List (TLevel K)) (next : Nat) (l : TLevel K) : Level K :=
  ⟨l.energy, l.twoJ, l.parity, (l.gammas.filter (fun g => decide (0 < g.ratio))).map
    (fun g => ⟨l.energy - energyAt Ls g.final, g.ratio, some (next + g.final)⟩)⟩

/-- The levels stored for the first ones of the list. -/
def stored [Field K] [LinearOrder K] (Ls : List (TLevel K)) (next : Nat) (done : List (TLevel K)) : List (Nat × Level K) :=
  done.mapIdx (fun i l => (next + i, levelOf' Ls next l))

/-- The gammas that occur lead to levels that are not listed later. -/
def GoodGammas [Zero K] [LT K] (i : Nat) (l : TLevel K) : Prop :=
  ∀ g ∈ l.gammas, 0 < g.ratio → g.final ≤ i

/-- Numbers that fit. -/
def Fits (l : TLevel K) : Prop :=
  intMin ≤ l.twoJ ∧ l.twoJ ≤ intMax ∧ (l.gammas.length : Int) ≤ intMax ∧
    ∀ g ∈ l.gammas, (g.final : Int) ≤ intMax

end Marley.Props
