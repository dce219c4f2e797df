import Verif.Model.DecayScheme
import Verif.Model.Utils
import Mathlib.Algebra.Order.Floor.Defs

/-!
# Decay schemes in TALYS format (src/DecayScheme.cc:147-262, 429-464,
src/StructureDatabase.cc:73-121)
-/

set_option autoImplicit false

namespace Marley.Talys
open Marley
open Marley.Json (Str isDigit)
open Marley.Scheme

variable {K : Type}

/-! ## Lines -/

/-- The text of a file cut at the newlines, as `std::getline` does (src/DecayScheme.cc:179, 205).  There is always a last piece, which is empty if
the file ends with a newline. -/
def pieces : Str → List Str
  | [] => [[]]
  | c :: s =>
    if c = '\n' then [] :: pieces s
    else match pieces s with
      | [] => [[c]]
      | p :: ps => (c :: p) :: ps

/-- `std::getline(file_in, line)` (src/DecayScheme.cc:205, 233) for a file whose remaining pieces are given (none: the stream
is not good any more): the pieces left and the value of `line`, which does not change if the
stream was not good. -/
def getline (ps : List Str) (old : Str) : List Str × Str :=
  match ps with
  | [] => ([], old)
  | p :: ps => (ps, p)

/-- The regular expression for the first line of a data set (src/DecayScheme.cc:164): 18 digits
or blanks, 57 blanks and the name. -/
def isNuclideLine (id : Str) (line : Str) : Bool :=
  (line.take 18).length == 18 && (line.take 18).all (fun c => isDigit c || c == ' ') &&
    line.drop 18 == List.replicate 57 ' ' ++ id

/-- The loop looking for the first line (src/DecayScheme.cc:179-184): that line and the pieces
after it.  Reading an empty last piece fails. -/
def findLine (id : Str) : List Str → Option (Str × List Str)
  | [] => none
  | [p] => if p = [] then none else if isNuclideLine id p then some (p, []) else none
  | p :: ps => if isNuclideLine id p then some (p, ps) else findLine id ps

/-! ## Records -/

/-- The number of excited levels (src/DecayScheme.cc:196-200); `none`: no value.  The three
numbers before it go to a dummy variable. -/
def excitedLevels (line : Str) : Option Int :=
  let a := exInt (some line) none
  let b := exInt a.1 a.2
  let c := exInt b.1 b.2
  (exInt c.1 none).2

/-- The variables of a level record (src/DecayScheme.cc:214-216) that are used: energy, spin,
parity and number of gammas; `none` if one of them has no value. -/
def levelFields [Zero K] (f : DblFmt K) (line : Str) : Option (K × K × Int × Int) :=
  let n := exInt (some line) none
  let e := exDbl f n.1 none
  let j := exDbl f e.1 none
  let p := exInt j.1 none
  let g := exInt p.1 none
  match e.2, j.2, p.2, g.2 with
  | some e, some j, some p, some g => some (e, j, p, g)
  | _, _, _, _ => none

/-- The variables of a gamma record (src/DecayScheme.cc:243-245): final level and branching
ratio. -/
def gammaFields [Zero K] (f : DblFmt K) (line : Str) : Option (Int × K) :=
  let i := exInt (some line) none
  let b := exDbl f i.1 none
  match i.2, b.2 with
  | some i, some b => some (i, b)
  | _, _ => none

/-- `std::round` (src/DecayScheme.cc:220) as an integer. -/
def roundInt [Field K] [LinearOrder K] [FloorRing K] (x : K) : Int :=
  if 0 ≤ x then ⌊x + 1 / 2⌋ else ⌈x - 1 / 2⌉

/-- `int twoJ = std::round(2 * spin)` (src/DecayScheme.cc:220); a value that does not fit is
undefined behaviour. -/
def twoJOf [Field K] [LinearOrder K] [FloorRing K] (spin : K) : Res Int :=
  let n := roundInt (2 * spin)
  if intMin ≤ n ∧ n ≤ intMax then .ok n else .error .ub

/-- The loop over the gammas (src/DecayScheme.cc:230-258) of the level with energy `E` at
address `a`.  Using a variable without a value is undefined behaviour. -/
def gammaLoop [Field K] [LinearOrder K] (f : DblFmt K) (a : Nat) (E : K) :
    Nat → Scheme K → List Str → Str → Res (Scheme K × List Str × Str)
  | 0, s, ps, line => .ok (s, ps, line)
  | n + 1, s, ps, line =>
    let r := getline ps line
    match gammaFields f r.2 with
    | none => .error .ub
    | some (i, br) =>
      if br > 0 then
        match pointerAt s i with
        | .error e => .error e
        | .ok p =>
          match levelAt s p with
          | none => .error .ub
          | some l => gammaLoop f a E n (addGamma s a ⟨E - l.energy, br, some p⟩) r.1 r.2
      else gammaLoop f a E n s r.1 r.2

/-- The loop over the levels (src/DecayScheme.cc:202-259). -/
def levelLoop [Field K] [LinearOrder K] [FloorRing K] (f : DblFmt K) :
    Nat → Scheme K → List Str → Str → Res (Scheme K × List Str × Str)
  | 0, s, ps, line => .ok (s, ps, line)
  | n + 1, s, ps, line =>
    let r := getline ps line
    match levelFields f r.2 with
    | none => .error .ub
    | some (E, spin, pi, ng) =>
      match twoJOf spin with
      | .error e => .error e
      | .ok twoJ =>
        match Parity.ofInt pi with
        | .error e => .error e
        | .ok parity =>
          let a := addLevel s ⟨E, twoJ, parity, []⟩
          match gammaLoop f a.2 E ng.toNat a.1 r.1 r.2 with
          | .error e => .error e
          | .ok (s, ps, line) => levelLoop f n s ps line

/-- The name of the nuclide as it is looked for (src/DecayScheme.cc:158-162). -/
def talysId (Z A : Int) : Res Str :=
  match Utils.nucId Z A with
  | .error e => .error e
  | .ok id => .ok (Utils.lowerLast id)

/-- `parse_talys` (src/DecayScheme.cc:153-262), for a scheme without levels; `text` are the
contents of the file, `none` if it cannot be read. -/
def parse [Field K] [LinearOrder K] [FloorRing K] (f : DblFmt K) (Z A : Int) (next : Nat)
    (text : Option Str) : Res (Scheme K) :=
  match talysId Z A with
  | .error e => .error e
  | .ok id =>
    match text with
    | none => .error .marleyError
    | some text =>
      match findLine id (pieces text) with
      | none => .error .marleyError
      | some (line, ps) =>
        match excitedLevels line with
        | none => .error .ub
        | some n =>
          match levelLoop f (n + 1).toNat (Scheme.empty Z A next) ps line with
          | .error e => .error e
          | .ok (s, _, _) => .ok s

/-! ## All nuclides of a file -/

/-- The regular expression for any nuclide (src/StructureDatabase.cc:84): 18 digits or blanks,
56 blanks, 4 digits or blanks, two characters, which are not ends of lines. -/
def isAnyNuclideLine (line : Str) : Bool :=
  line.length == 80 && (line.take 18).all (fun c => isDigit c || c == ' ') &&
    (line.drop 18).take 56 == List.replicate 56 ' ' &&
    ((line.drop 74).take 4).all (fun c => isDigit c || c == ' ') &&
    (line.drop 78).all (fun c => c != '\n' && c != '\r')

/-- The conversion of a `double` to an `int` (src/StructureDatabase.cc:116); `none` (undefined behaviour) if the integral part
does not fit. -/
def truncInt [Field K] [LinearOrder K] [FloorRing K] (x : K) : Option Int :=
  let n := if 0 ≤ x then ⌊x⌋ else ⌈x⌉
  if intMin ≤ n ∧ n ≤ intMax then some n else none

/-- The body of the loop (src/StructureDatabase.cc:110-116); `Z` and `A` keep their values from
one line to the next. -/
def nuclideOf [Field K] [LinearOrder K] [FloorRing K] (f : DblFmt K) (line : Str)
    (Z A : Option K) : Res (Int × Option K × Option K) :=
  let z := exDbl f (some line) Z
  let a := exDbl f z.1 A
  match z.2, a.2 with
  | some x, some y => match truncInt x, truncInt y with
    | some m, some n => .ok (Pdg.nucleusPid m n, z.2, a.2)
    | _, _ => .error .ub
  | _, _ => .error .ub

/-- The loop of `find_all_nuclides` (src/StructureDatabase.cc:107-118).  The set is the list of
the codes that are inserted. -/
def nuclideLoop [Field K] [LinearOrder K] [FloorRing K] (f : DblFmt K) :
    List Str → Option K → Option K → Res (List Int)
  | [], _, _ => .ok []
  | p :: ps, Z, A =>
    if ps = [] ∧ p = [] then .ok []
    else if isAnyNuclideLine p then
      match nuclideOf f p Z A with
      | .error e => .error e
      | .ok (pdg, Z, A) => match nuclideLoop f ps Z A with
        | .error e => .error e
        | .ok l => .ok (pdg :: l)
    else nuclideLoop f ps Z A

/-- `find_all_nuclides` (src/StructureDatabase.cc:73-121) for the TALYS format. -/
def findAllNuclides [Field K] [LinearOrder K] [FloorRing K] (f : DblFmt K) (text : Option Str) :
    Res (List Int) :=
  match text with
  | none => .error .marleyError
  | some text => nuclideLoop f (pieces text) none none

end Marley.Talys
