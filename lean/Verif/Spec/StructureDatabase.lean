import Verif.Model.StructureDatabase

/-!
# What the properties of the structure database say
-/

set_option autoImplicit false

namespace Marley.Props
open Marley Marley.Structure
open Marley.Json (Str isSpace isDigit)

variable {K : Type}

/-- Operations that take the scheme of that nuclide out of the database. -/
def Removes (pid : Int) : Op K → Prop
  | .remove p => p = pid
  | .emplace p _ => p = pid
  | .clear => True
  | _ => False

/-- Reading a double does not make the text longer. -/
def Shrinks (f : DblFmt K) : Prop := ∀ s x t, f.read s = some (x, t) → t.length ≤ s.length

/-- A line of the table. -/
structure JpiLine where
  pdg : Int
  twoJ : Int
  parity : Parity
  /-- white space between the code and the spin, before the parity, and after it -/
  gap1 : Str
  gap2 : Str
  gap3 : Str

/-- A line that can be read. -/
structure JpiLine.Valid (l : JpiLine) : Prop where
  pdg : intMin ≤ l.pdg ∧ l.pdg ≤ intMax
  twoJ : intMin ≤ l.twoJ ∧ l.twoJ ≤ intMax
  gap1 : l.gap1 ≠ []
  blank1 : ∀ c ∈ l.gap1, isSpace c = true
  blank2 : ∀ c ∈ l.gap2, isSpace c = true
  blank3 : ∀ c ∈ l.gap3, isSpace c = true

/-- Its text. -/
def JpiLine.text (l : JpiLine) : Str :=
  Json.intText l.pdg ++ l.gap1 ++ Json.intText l.twoJ ++ l.gap2 ++ [l.parity.toChar] ++ l.gap3

/-- The entry for a code: the last line for it. -/
def lastLine (lines : List JpiLine) (pdg : Int) : Option (Int × Parity) :=
  (lines.reverse.find? (fun l => l.pdg = pdg)).map (fun l => (l.twoJ, l.parity))

/-- The text of the file. -/
def tableText (lines : List JpiLine) : Str := (lines.map JpiLine.text).flatten

/-- Both tables are complete: the spins are those of the file, and the fragments
are the six light particles with the spins of the file. -/
def Complete (lines : List JpiLine) (st : Static) : Prop :=
  (∀ pdg, st.jpi.lookup pdg = lastLine lines pdg) ∧
    ∀ f, st.frags.lookup f = if f ∈ [2112, 2212, 1000010020, 1000010030, 1000020030, 1000020040] then
      (lastLine lines f).map (fun x => ⟨f, x.1, x.2⟩) else none

/-- The answer the file gives. -/
def RightAnswer (lines : List JpiLine) : Call → Answer → Prop
  | .spin pdg, .spin x => lastLine lines pdg = some x
  | .fragment pdg, .fragment f => f =
      if pdg ∈ [2112, 2212, 1000010020, 1000010030, 1000020030, 1000020040] then
        (lastLine lines pdg).map (fun x => ⟨pdg, x.1, x.2⟩) else none
  | .all, .all fs => ∀ pdg, fs.lookup pdg =
      if pdg ∈ [2112, 2212, 1000010020, 1000010030, 1000020030, 1000020040] then
        (lastLine lines pdg).map (fun x => ⟨pdg, x.1, x.2⟩) else none
  | _, _ => False

end Marley.Props
