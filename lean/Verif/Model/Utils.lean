import Verif.Model.Pdg
import Verif.Model.Parity
import Verif.Model.Json
import Mathlib.Algebra.Field.Defs
import Mathlib.Analysis.SpecialFunctions.Pow.Real

/-!
# Model of the small helper functions

include/marley/marley_utils.hh, src/marley_utils.cc, src/Level.cc,
src/NuclearReaction.cc (Coulomb mode names).
-/

set_option autoImplicit false

namespace Marley.Utils
open Json (Str natText intText)

/-! ## Strings -/

/-- `whitespace` (include/marley/marley_utils.hh:241). -/
def whitespace : Str := [' ', '\x0c', '\n', '\r', '\t', '\x0b']

/-- `pad_left_inplace` (include/marley/marley_utils.hh:282-288). -/
def padLeft (s : Str) (len : Nat) (c : Char) : Str :=
  if len > s.length then List.replicate (len - s.length) c ++ s else s

/-- `pad_right_inplace` (include/marley/marley_utils.hh:290-296). -/
def padRight (s : Str) (len : Nat) (c : Char) : Str :=
  if len > s.length then s ++ List.replicate (len - s.length) c else s

/-- `find_first_not_of` of the standard library, with `none` for `npos`.
Used at include/marley/marley_utils.hh:313, 341. -/
def findFirstNotOf (s delims : Str) : Option Nat :=
  match s with
  | [] => none
  | c :: s => if c ∈ delims then (findFirstNotOf s delims).map (· + 1) else some 0

/-- `find_last_not_of` of the standard library, with `none` for `npos`.
Used at include/marley/marley_utils.hh:246, 306, 328. -/
def findLastNotOf (s delims : Str) : Option Nat :=
  match findFirstNotOf s.reverse delims with
  | none => none
  | some k => some (s.length - 1 - k)

/-- `trim_right_inplace` and `trim_right_copy` (include/marley/marley_utils.hh:
303-308, 325-336). -/
def trimRight (s delims : Str) : Str :=
  match findLastNotOf s delims with
  | none => []
  | some e => s.take (e + 1)

/-- `trim_left_inplace` and `trim_left_copy` (include/marley/marley_utils.hh:
310-315, 338-349). -/
def trimLeft (s delims : Str) : Str :=
  match findFirstNotOf s delims with
  | none => []
  | some b => s.drop b

/-- `trim_inplace` and `trim_copy` (include/marley/marley_utils.hh:317-321,
351-355). -/
def trim (s delims : Str) : Str := trimLeft (trimRight s delims) delims

/-- `std::getline(ss, token, delim)`: `none` when nothing is left (the stream
fails), else the token and the rest. Used at include/marley/marley_utils.hh:366. -/
def getline (s : Str) (d : Char) : Option (Str × Str) :=
  match s with
  | [] => none
  | c :: t => some ((c :: t).takeWhile (· ≠ d), ((c :: t).dropWhile (· ≠ d)).drop 1)

/-- `split_string` (include/marley/marley_utils.hh:360-370).  `fuel` bounds the
number of tokens; each one consumes a character, so the length is enough. -/
def splitLoop (d : Char) : Nat → Str → List Str
  | 0, _ => []
  | n + 1, s =>
    match getline s d with
    | none => []
    | some (tok, rest) => tok :: splitLoop d n rest

/-- `split_string` (include/marley/marley_utils.hh:360-370). -/
def splitString (s : Str) (d : Char) : List Str := splitLoop d (s.length + 1) s

/-- `::toupper` in the "C" locale. Used at include/marley/marley_utils.hh:275. -/
def toUpper (c : Char) : Char :=
  if 'a' ≤ c ∧ c ≤ 'z' then Char.ofNat (c.toNat - 32) else c

/-- `::tolower` in the "C" locale. Used at src/DecayScheme.cc:162, include/marley/marley_utils.hh:259. -/
def toLower (c : Char) : Char :=
  if 'A' ≤ c ∧ c ≤ 'Z' then Char.ofNat (c.toNat + 32) else c

/-! ## Spin and parity -/

/-- `Level::spin_parity_string` (src/Level.cc:74-79), also used in the same form
by `DecayScheme::print_report` (src/DecayScheme.cc:267-275).  The integer
division truncates. -/
def spinParityString (twoJ : Int) (π : Parity) : Str :=
  let str := intText (twoJ.tdiv 2)
  let str := if twoJ.tmod 2 ≠ 0 then str ++ ['/', '2'] else str
  str ++ [π.toChar]

/-! ## Neutrino names -/

/-- `string_to_neutrino_pdg` (src/marley_utils.cc:490-502): the flag and the
output argument. -/
def stringToNeutrinoPdg (s : Str) : Bool × Int :=
  if s = ['v', 'e'] then (true, 12)
  else if s = ['v', 'e', 'b', 'a', 'r'] then (true, -12)
  else if s = ['v', 'u'] then (true, 14)
  else if s = ['v', 'u', 'b', 'a', 'r'] then (true, -14)
  else if s = ['v', 't'] then (true, 16)
  else if s = ['v', 't', 'b', 'a', 'r'] then (true, -16)
  else (false, 0)

/-- `neutrino_pdg_to_string` (src/marley_utils.cc:504-518). -/
def neutrinoPdgToString (pdg : Int) : Str :=
  if pdg = 12 then ['v', 'e']
  else if pdg = -12 then ['v', 'e', 'b', 'a', 'r']
  else if pdg = 14 then ['v', 'u']
  else if pdg = -14 then ['v', 'u', 'b', 'a', 'r']
  else if pdg = 16 then ['v', 't']
  else if pdg = -16 then ['v', 't', 'b', 'a', 'r']
  else ['?']

/-! ## Coulomb modes -/

/-- `CoulombMode` (include/marley/NuclearReaction.hh:57-58). -/
inductive CoulombMode where
  | noCorrection | fermiFunction | ema | mema | fermiAndEma | fermiAndMema
  deriving DecidableEq, Repr

/-- `coulomb_mode_string_map_` (src/NuclearReaction.cc:37-46), in map order. -/
def coulombModeMap : List (CoulombMode × Str) :=
  [(.noCorrection, ['n', 'o', 'n', 'e']), (.fermiFunction, ['F', 'e', 'r', 'm', 'i']),
   (.ema, ['E', 'M', 'A']), (.mema, ['M', 'E', 'M', 'A']),
   (.fermiAndEma, ['F', 'e', 'r', 'm', 'i', '-', 'E', 'M', 'A']),
   (.fermiAndMema, ['F', 'e', 'r', 'm', 'i', '-', 'M', 'E', 'M', 'A'])]

/-- `coulomb_mode_from_string` (src/NuclearReaction.cc:738-746). -/
def coulombModeFromString (s : Str) : Res CoulombMode :=
  match coulombModeMap.find? (fun p => s = p.2) with
  | some p => .ok p.1
  | none => .error .marleyError

/-- `string_from_coulomb_mode` (src/NuclearReaction.cc:749-754). -/
def stringFromCoulombMode (m : CoulombMode) : Res Str :=
  match coulombModeMap.find? (fun p => m = p.1) with
  | some p => .ok p.2
  | none => .error .marleyError

/-! ## Element symbols -/

/-- `element_symbols` (src/marley_utils.cc:573-693). -/
def elementSymbols : List (Int × Str) :=
  [(0, ['N', 'n']), (1, ['H']), (2, ['H', 'e']), (3, ['L', 'i']), (4, ['B', 'e']), (5, ['B']),
   (6, ['C']), (7, ['N']), (8, ['O']), (9, ['F']), (10, ['N', 'e']), (11, ['N', 'a']),
   (12, ['M', 'g']), (13, ['A', 'l']), (14, ['S', 'i']), (15, ['P']), (16, ['S']),
   (17, ['C', 'l']), (18, ['A', 'r']), (19, ['K']), (20, ['C', 'a']), (21, ['S', 'c']),
   (22, ['T', 'i']), (23, ['V']), (24, ['C', 'r']), (25, ['M', 'n']), (26, ['F', 'e']),
   (27, ['C', 'o']), (28, ['N', 'i']), (29, ['C', 'u']), (30, ['Z', 'n']), (31, ['G', 'a']),
   (32, ['G', 'e']), (33, ['A', 's']), (34, ['S', 'e']), (35, ['B', 'r']), (36, ['K', 'r']),
   (37, ['R', 'b']), (38, ['S', 'r']), (39, ['Y']), (40, ['Z', 'r']), (41, ['N', 'b']),
   (42, ['M', 'o']), (43, ['T', 'c']), (44, ['R', 'u']), (45, ['R', 'h']), (46, ['P', 'd']),
   (47, ['A', 'g']), (48, ['C', 'd']), (49, ['I', 'n']), (50, ['S', 'n']), (51, ['S', 'b']),
   (52, ['T', 'e']), (53, ['I']), (54, ['X', 'e']), (55, ['C', 's']), (56, ['B', 'a']),
   (57, ['L', 'a']), (58, ['C', 'e']), (59, ['P', 'r']), (60, ['N', 'd']), (61, ['P', 'm']),
   (62, ['S', 'm']), (63, ['E', 'u']), (64, ['G', 'd']), (65, ['T', 'b']), (66, ['D', 'y']),
   (67, ['H', 'o']), (68, ['E', 'r']), (69, ['T', 'm']), (70, ['Y', 'b']), (71, ['L', 'u']),
   (72, ['H', 'f']), (73, ['T', 'a']), (74, ['W']), (75, ['R', 'e']), (76, ['O', 's']),
   (77, ['I', 'r']), (78, ['P', 't']), (79, ['A', 'u']), (80, ['H', 'g']), (81, ['T', 'l']),
   (82, ['P', 'b']), (83, ['B', 'i']), (84, ['P', 'o']), (85, ['A', 't']), (86, ['R', 'n']),
   (87, ['F', 'r']), (88, ['R', 'a']), (89, ['A', 'c']), (90, ['T', 'h']), (91, ['P', 'a']),
   (92, ['U']), (93, ['N', 'p']), (94, ['P', 'u']), (95, ['A', 'm']), (96, ['C', 'm']),
   (97, ['B', 'k']), (98, ['C', 'f']), (99, ['E', 's']), (100, ['F', 'm']), (101, ['M', 'd']),
   (102, ['N', 'o']), (103, ['L', 'r']), (104, ['R', 'f']), (105, ['D', 'b']), (106, ['S', 'g']),
   (107, ['B', 'h']), (108, ['H', 's']), (109, ['M', 't']), (110, ['D', 's']), (111, ['R', 'g']),
   (112, ['C', 'n']), (114, ['F', 'l']), (116, ['L', 'v'])]

/-- `atomic_numbers` (src/marley_utils.cc:697-817). -/
def atomicNumbers : List (Str × Int) :=
  [(['N', 'n'], 0), (['H'], 1), (['H', 'e'], 2), (['L', 'i'], 3), (['B', 'e'], 4), (['B'], 5),
   (['C'], 6), (['N'], 7), (['O'], 8), (['F'], 9), (['N', 'e'], 10), (['N', 'a'], 11),
   (['M', 'g'], 12), (['A', 'l'], 13), (['S', 'i'], 14), (['P'], 15), (['S'], 16),
   (['C', 'l'], 17), (['A', 'r'], 18), (['K'], 19), (['C', 'a'], 20), (['S', 'c'], 21),
   (['T', 'i'], 22), (['V'], 23), (['C', 'r'], 24), (['M', 'n'], 25), (['F', 'e'], 26),
   (['C', 'o'], 27), (['N', 'i'], 28), (['C', 'u'], 29), (['Z', 'n'], 30), (['G', 'a'], 31),
   (['G', 'e'], 32), (['A', 's'], 33), (['S', 'e'], 34), (['B', 'r'], 35), (['K', 'r'], 36),
   (['R', 'b'], 37), (['S', 'r'], 38), (['Y'], 39), (['Z', 'r'], 40), (['N', 'b'], 41),
   (['M', 'o'], 42), (['T', 'c'], 43), (['R', 'u'], 44), (['R', 'h'], 45), (['P', 'd'], 46),
   (['A', 'g'], 47), (['C', 'd'], 48), (['I', 'n'], 49), (['S', 'n'], 50), (['S', 'b'], 51),
   (['T', 'e'], 52), (['I'], 53), (['X', 'e'], 54), (['C', 's'], 55), (['B', 'a'], 56),
   (['L', 'a'], 57), (['C', 'e'], 58), (['P', 'r'], 59), (['N', 'd'], 60), (['P', 'm'], 61),
   (['S', 'm'], 62), (['E', 'u'], 63), (['G', 'd'], 64), (['T', 'b'], 65), (['D', 'y'], 66),
   (['H', 'o'], 67), (['E', 'r'], 68), (['T', 'm'], 69), (['Y', 'b'], 70), (['L', 'u'], 71),
   (['H', 'f'], 72), (['T', 'a'], 73), (['W'], 74), (['R', 'e'], 75), (['O', 's'], 76),
   (['I', 'r'], 77), (['P', 't'], 78), (['A', 'u'], 79), (['H', 'g'], 80), (['T', 'l'], 81),
   (['P', 'b'], 82), (['B', 'i'], 83), (['P', 'o'], 84), (['A', 't'], 85), (['R', 'n'], 86),
   (['F', 'r'], 87), (['R', 'a'], 88), (['A', 'c'], 89), (['T', 'h'], 90), (['P', 'a'], 91),
   (['U'], 92), (['N', 'p'], 93), (['P', 'u'], 94), (['A', 'm'], 95), (['C', 'm'], 96),
   (['B', 'k'], 97), (['C', 'f'], 98), (['E', 's'], 99), (['F', 'm'], 100), (['M', 'd'], 101),
   (['N', 'o'], 102), (['L', 'r'], 103), (['R', 'f'], 104), (['D', 'b'], 105), (['S', 'g'], 106),
   (['B', 'h'], 107), (['H', 's'], 108), (['M', 't'], 109), (['D', 's'], 110), (['R', 'g'], 111),
   (['C', 'n'], 112), (['F', 'l'], 114), (['L', 'v'], 116)]

/-- `element_symbols.at(Z)`. Used at src/marley_utils.cc:344. -/
def elementSymbol (Z : Int) : Res Str :=
  match elementSymbols.lookup Z with
  | some s => .ok s
  | none => .error .outOfRange

/-- `atomic_numbers.at(s)`. Used at src/marley_utils.cc:567. -/
def atomicNumber (s : Str) : Res Int :=
  match atomicNumbers.lookup s with
  | some z => .ok z
  | none => .error .outOfRange

/-- Mass number part of `nuc_id` (src/marley_utils.cc:331-341). -/
def nucIdMass (A : Nat) : Str :=
  if A < 10 then ' ' :: ' ' :: natText A
  else if A < 100 then ' ' :: natText A
  else natText A

/-- `nuc_id` (src/marley_utils.cc:324-354). -/
def nucId (Z A : Int) : Res Str :=
  if Z < 0 ∨ A < 1 ∨ A > 999 then .error .marleyError
  else
    match elementSymbol Z with
    | .error e => .error e
    | .ok sym =>
      let sym := sym.map toUpper
      let sym := if sym.length = 1 then sym ++ [' '] else sym
      .ok (nucIdMass A.toNat ++ sym)

/-- `x.back() = tolower(x.back())`. Used at src/marley_utils.cc:534, 539, 558, 563. -/
def lowerLast : Str → Str
  | [] => []
  | [c] => [toLower c]
  | c :: s => c :: lowerLast s

/-- The regular expression search `[0-9]+` (src/marley_utils.cc:551-552): the
text after the first maximal run of digits; empty when there is no digit (the
suffix of an unsuccessful match is empty). -/
def afterDigits (s : Str) : Str :=
  (s.dropWhile (fun c => !Json.isDigit c)).dropWhile Json.isDigit

/-- `nucid_to_Z` (src/marley_utils.cc:545-568). -/
def nucidToZ (s : Str) : Res Int :=
  if s.length ≠ 5 then
    let e := afterDigits s
    let e := if e.length > 1 then lowerLast e else e
    atomicNumber e
  else
    let s := lowerLast s
    atomicNumber (trimRight (s.drop (s.length - 2)) whitespace)

/-- The first maximal run of digits (src/marley_utils.cc:526-528); empty when there is no digit. -/
def firstDigits (s : Str) : Str :=
  (s.dropWhile (fun c => !Json.isDigit c)).takeWhile Json.isDigit

/-- `nucid_to_symbol` (src/marley_utils.cc:523-541). -/
def nucidToSymbol (s : Str) : Str :=
  if s.length ≠ 5 then
    let z := firstDigits s
    let e := afterDigits s
    let e := if e.length > 1 then lowerLast e else e
    z ++ e
  else trim (lowerLast s) whitespace

/-! ## Arithmetic -/

/-- `ipow` (include/marley/marley_utils.hh:201-205), with 32-bit `unsigned`.
Overflow of `T` is not modelled. -/
def ipow {T : Type} [Ring T] (num : T) : Nat → T
  | 0 => 1
  | p + 1 => if p + 1 ≥ 32 then 0 else num * ipow num p

/-- `real_sqrt` (src/marley_utils.cc:301-308). -/
noncomputable def realSqrt (x : ℝ) : ℝ := if x < 0 then 0 else Real.sqrt x

/-- Division of doubles; `none` when the divisor is zero (the result is then an
infinity or NaN). Used at src/marley_utils.cc:268-293. -/
noncomputable def fdiv (a b : ℝ) : Option ℝ := if b = 0 then none else some (a / b)

/-- `solve_quadratic_equation` (src/marley_utils.cc:268-293): `(solPlus,
solMinus)`. -/
noncomputable def solveQuadratic (A B C : ℝ) : Option (ℝ × ℝ) := do
  let c ← fdiv C A
  let b ← fdiv B (2 * A)
  let discr := b * b - c
  if b > 0 then
    let solMinus := -b - realSqrt discr
    let solPlus ← fdiv c solMinus
    return (solPlus, solMinus)
  else
    let solPlus := -b + realSqrt discr
    let solMinus ← fdiv c solPlus
    return (solPlus, solMinus)

end Marley.Utils
