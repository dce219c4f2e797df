import Verif.Model.Json
import Mathlib.Algebra.Notation.Defs

/-!
# Formatted input and output of numbers through C++ streams

The stream operators used by `Event`, `Particle`, `Level`, `Gamma`,
`DecayScheme`, ... for reading numbers.  The text of a stream is the list of
characters still to be read.  No file of /repo is modelled here; this is the
part of the C++ standard library ("C" locale) on which those operators rest.
-/

set_option autoImplicit false

namespace Marley
open Json (Str isDigit digitsVal natText intText)

/-- Skip leading white space (`std::ws`, and the first step of every formatted
extraction). Used at src/Parity.cc:55, src/Particle.cc:116-117. -/
def skipBlank (s : Str) : Str := s.dropWhile Json.isSpace

/-- An optional sign in front of an integer. Used at src/Particle.cc:116-117. -/
def splitSign2 : Str → Bool × Str
  | [] => (false, [])
  | c :: t => if c = '-' then (true, t) else if c = '+' then (false, t) else (false, c :: t)

/-- Smallest 32-bit `int`. Used at src/Particle.cc:116-117. -/
def intMin : Int := -2147483648
/-- Largest 32-bit `int`. Used at src/Particle.cc:116-117. -/
def intMax : Int := 2147483647

/-- `in >> n` for an `int n`: skip white space, optional sign, the longest run
of digits.  `none`: the stream has failed (no digits, or out of range).
Used at src/Particle.cc:116-117, src/Event.cc:249, 409. -/
def readInt (s : Str) : Option (Int × Str) :=
  let r := splitSign2 (skipBlank s)
  let ds := r.2.takeWhile isDigit
  if ds = [] then none
  else
    let n : Int := if r.1 then -(digitsVal ds : Int) else digitsVal ds
    if intMin ≤ n ∧ n ≤ intMax then some (n, r.2.dropWhile isDigit) else none

/-- Conversion between doubles and text as done by `operator<<` with a fixed
format and by `operator>>`.  `read` is applied after white space was skipped.
Used at src/Particle.cc:116-117, src/Event.cc:249, 441. -/
structure DblFmt (K : Type) where
  /-- `out << x` -/
  print : K → Str
  /-- `in >> x` (white space already skipped) -/
  read : Str → Option (K × Str)

/-- `in >> x` for a `double x`. Used at src/Particle.cc:116-117, src/Event.cc:249, 441. -/
def DblFmt.get {K} (f : DblFmt K) (s : Str) : Option (K × Str) := f.read (skipBlank s)

/-- First characters a number can have for `operator>>` (libstdc++ accepts
neither `inf` nor `nan`). Used at src/Particle.cc:116-117. -/
def numStart (c : Char) : Bool := isDigit c || c = '+' || c = '-' || c = '.'

/-- What is assumed of the standard library's conversion of doubles: the text
of a double starts with a character of a number, reading it back gives the same
double provided a blank follows, and text that does not start like a number is
refused.  (With 17 significant digits this is true for every finite double.). See src/Event.cc:232, 320. -/
structure DblFmt.Lawful {K : Type} (f : DblFmt K) : Prop where
  head : ∀ x, ∃ c t, f.print x = c :: t ∧ numStart c = true
  read_print : ∀ x c t, Json.isSpace c = true → f.read (f.print x ++ c :: t) = some (x, c :: t)
  read_nil : f.read [] = none
  read_bad : ∀ c t, numStart c = false → f.read (c :: t) = none

/-- The literal text `0.` (written by `dump_hepevt_particle`) is read as zero. See src/Event.cc:444. -/
def DblFmt.LawfulZero {K : Type} [Zero K] (f : DblFmt K) : Prop :=
  ∀ c t, Json.isSpace c = true → f.read (['0', '.'] ++ c :: t) = some (0, c :: t)

end Marley
