import Verif.Model.Generator
import Verif.Model.Grid
import Verif.Model.Json
import Verif.Model.Utils
import Mathlib.Analysis.SpecialFunctions.Pow.Real

/-!
# Model of `marley::NeutrinoSource` and of the source part of `marley::JSONConfig`

src/NeutrinoSource.cc, include/marley/NeutrinoSource.hh, src/JSONConfig.cc.  Numbers are
real numbers; a value that would be an infinity or NaN is `none`.  The sources read
from ROOT files are in `Verif/Model/RootSource.lean`; messages are not modelled.
-/

set_option autoImplicit false

namespace Marley.Source
open Marley Marley.Gen Marley.Sampling Marley.Json Marley.Utils
open Marley.Grid (Interp Extrap Points)

/-! ## Sources -/

/-- `pids_` (src/NeutrinoSource.cc:32-39; the codes are
include/marley/marley_utils.hh:41-48). -/
def pids : List Int := [12, -12, 14, -14, 16, -16]

/-- `pdg_is_allowed` (include/marley/NeutrinoSource.hh:290-291). -/
def allowed (pdg : Int) : Bool := pids.contains pdg

/-- The energy spectrum of a source: the data members of the classes derived from
`NeutrinoSource` (include/marley/NeutrinoSource.hh:113, 145-149, 179-187, 212-215,
280).  A normalisation constant that is not a finite number is `none`. -/
inductive Spectrum where
  | mono (energy : ℝ)
  | fermiDirac (Emin Emax temperature eta : ℝ) (C : Option ℝ)
  | betaFit (Emin Emax Emean beta : ℝ) (C : Option ℝ)
  | function (Emin Emax : ℝ) (f : ℝ → Option ℝ) (integral : Option ℝ)
  | decayAtRest
  | grid (g : Grid.Grid)

/-- A neutrino source (include/marley/NeutrinoSource.hh:88). -/
structure Source where
  pid : Int
  spectrum : Spectrum

/-- `m_mu_` (include/marley/NeutrinoSource.hh:241-242 with
include/marley/marley_utils.hh:83, 90). -/
noncomputable def mMu : ℝ := 113428.9267 * 0.000931494061

/-- `get_Emin` (include/marley/NeutrinoSource.hh:245, 296, 301, 304, 307, 314, 318-319);
undefined for a grid without points. -/
noncomputable def Emin : Spectrum → Res ℝ
  | .mono E => .ok E
  | .fermiDirac a _ _ _ _ => .ok a
  | .betaFit a _ _ _ _ => .ok a
  | .function a _ _ _ => .ok a
  | .decayAtRest => .ok 0
  | .grid g => match g.points.head? with
    | none => .error .ub
    | some p => .ok p.1

/-- `get_Emax` (include/marley/NeutrinoSource.hh:246, 295, 300, 303, 306, 313, 316-317). -/
noncomputable def Emax : Spectrum → Res ℝ
  | .mono E => .ok E
  | .fermiDirac _ b _ _ _ => .ok b
  | .betaFit _ b _ _ _ => .ok b
  | .function _ b _ _ => .ok b
  | .decayAtRest => .ok (mMu / 2)
  | .grid g => match g.points.getLast? with
    | none => .error .ub
    | some p => .ok p.1

/-- `std::pow` on doubles. Used at src/NeutrinoSource.cc:98-100. -/
noncomputable def fpow (x e : ℝ) : Option ℝ :=
  open Classical in
  if x < 0 ∧ ¬ ∃ n : ℤ, e = n then none
  else if x = 0 ∧ e < 0 then none
  else some (x ^ e)

/-- The formula of src/NeutrinoSource.cc:68-69. -/
noncomputable def fdFormula (T eta : ℝ) (C : Option ℝ) (E : ℝ) : Option ℝ := do
  let c ← C
  let a ← fdiv c (T ^ 4)
  let q ← fdiv E T
  some (a * (E ^ 2 / (1 + Real.exp (q - eta))))

/-- The formula of src/NeutrinoSource.cc:98-100. -/
noncomputable def bfFormula (Emean beta : ℝ) (C : Option ℝ) (E : ℝ) : Option ℝ :=
  if E = 0 ∧ beta < 1 then some 0
  else do
    let c ← C
    let q ← fdiv E Emean
    let p ← fpow q (beta - 1)
    let r ← fdiv (-beta * E) Emean
    some (c * p * Real.exp r)

/-- `pdf` (src/NeutrinoSource.cc:66-70, 95-101, 128-141,
include/marley/NeutrinoSource.hh:297-298, 308-311, 320-321). -/
noncomputable def Source.pdf (s : Source) (E : ℝ) : Res (Option ℝ) :=
  match s.spectrum with
  | .mono e => .ok (some (if e = E then 1 else 0))
  | .fermiDirac a b T eta C => if E < a ∨ E > b then .ok (some 0) else .ok (fdFormula T eta C E)
  | .betaFit a b m beta C => if E < a ∨ E > b then .ok (some 0) else .ok (bfFormula m beta C E)
  | .function a b f n =>
    if E < a ∨ E > b then .ok (some 0)
    else .ok (do let y ← f E; let d ← n; fdiv y d)
  | .decayAtRest =>
    if E < 0 ∨ E > mMu / 2 then .ok (some 0)
    else
      let m4 := 1 / (mMu * mMu * mMu * mMu)
      if s.pid.natAbs = 12 then .ok (some (96 * E ^ 2 * m4 * (mMu - 2 * E)))
      else .ok (some (16 * E ^ 2 * m4 * (3 * mMu - 4 * E)))
  | .grid g => Grid.interpolate g E

/-- A density for use by the numerical methods: what is not a number is not followed.
Used at src/NeutrinoSource.cc:58-59, 87-88. -/
noncomputable def numeric (f : ℝ → Res (Option ℝ)) (x : ℝ) (_ : Unit) : Res (ℝ × Unit) :=
  match f x with
  | .error e => .error e
  | .ok none => .error .ub
  | .ok (some y) => .ok (y, ())

/-- The integral computed during construction (src/NeutrinoSource.cc:58-59, 87-88,
110). -/
noncomputable def integral (f : ℝ → Res (Option ℝ)) (a b : ℝ) : Option ℝ :=
  match numIntegrate (numeric f) a b () with
  | .error _ => none
  | .ok (v, _) => some v

/-- The normalisation constant (src/NeutrinoSource.cc:63, 92). -/
noncomputable def normOf (f : ℝ → Res (Option ℝ)) (a b : ℝ) : Option ℝ := do
  let n ← integral f a b
  fdiv 1 n

/-- Constructor of `MonoNeutrinoSource` (include/marley/NeutrinoSource.hh:293-294,
src/NeutrinoSource.cc:22-28). -/
def mkMono (pid : Int) (E : ℝ) : Res Source :=
  if allowed pid then .ok ⟨pid, .mono E⟩ else .error .marleyError

/-- Constructor of `FermiDiracNeutrinoSource` (src/NeutrinoSource.cc:50-64). -/
noncomputable def mkFermiDirac (pid : Int) (a b T eta : ℝ) : Res Source :=
  if allowed pid then
    .ok ⟨pid, .fermiDirac a b T eta (normOf (Source.pdf ⟨pid, .fermiDirac a b T eta (some 1)⟩) a b)⟩
  else .error .marleyError

/-- Constructor of `BetaFitNeutrinoSource` (src/NeutrinoSource.cc:72-93). -/
noncomputable def mkBetaFit (pid : Int) (a b m beta : ℝ) : Res Source :=
  if allowed pid then
    if beta < 1 then .error .marleyError
    else .ok ⟨pid, .betaFit a b m beta (normOf (Source.pdf ⟨pid, .betaFit a b m beta (some 1)⟩) a b)⟩
  else .error .marleyError

/-- Constructor of `FunctionNeutrinoSource` (src/NeutrinoSource.cc:103-113).  The
function is a pure function. -/
noncomputable def mkFunction (pid : Int) (a b : ℝ) (f : ℝ → Option ℝ) : Res Source :=
  if allowed pid then .ok ⟨pid, .function a b f (integral (fun x => .ok (f x)) a b)⟩
  else .error .marleyError

/-- Constructor of `DecayAtRestNeutrinoSource` (src/NeutrinoSource.cc:115-126). -/
def mkDecayAtRest (pid : Int) : Res Source :=
  if allowed pid then
    if pid.natAbs ≠ 12 ∧ pid.natAbs ≠ 14 then .error .marleyError else .ok ⟨pid, .decayAtRest⟩
  else .error .marleyError

/-- `std::nextafter(0., infinity)` (src/NeutrinoSource.cc:160-161): the smallest positive
double. -/
noncomputable def tiny : ℝ := 2 ^ (-1074 : ℤ)

/-- The loop of `check_for_errors` (src/NeutrinoSource.cc:151-166): the points with zero
energies replaced, and the sum of the densities. -/
noncomputable def checkLoop : Points → Res (Points × ℝ)
  | [] => .ok ([], 0)
  | (E, y) :: l =>
    if E < 0 then .error .marleyError
    else if y < 0 then .error .marleyError
    else
      match checkLoop l with
      | .error e => .error e
      | .ok (l, sum) => .ok ((if E = 0 then tiny else E, y) :: l, y + sum)

/-- `check_for_errors` (src/NeutrinoSource.cc:145-170). -/
noncomputable def checkForErrors (g : Grid.Grid) : Res Grid.Grid :=
  if g.points.length < 2 then .error .marleyError
  else
    match checkLoop g.points with
    | .error e => .error e
    | .ok (l, sum) => if sum ≤ 0 then .error .marleyError else .ok { g with points := l }

/-- Constructor of `GridNeutrinoSource` from a grid
(include/marley/NeutrinoSource.hh:323-324). -/
noncomputable def mkGrid (pid : Int) (g : Grid.Grid) : Res Source :=
  if allowed pid then
    match checkForErrors g with
    | .error e => .error e
    | .ok g => .ok ⟨pid, .grid g⟩
  else .error .marleyError

/-- Constructor of `GridNeutrinoSource` from vectors
(include/marley/NeutrinoSource.hh:326-329); the grid vanishes outside its range
(include/marley/InterpolationGrid.hh:119-122). -/
noncomputable def mkGridVectors (pid : Int) (Es ys : List ℝ) (m : Interp) : Res Source :=
  if allowed pid then
    match Grid.ofVectors Es ys m .zero with
    | .error e => .error e
    | .ok g => mkGrid pid g
  else .error .marleyError

/-! ## Sampling -/

variable {G : Type}

/-- `sample_incident_neutrino` (src/NeutrinoSource.cc:41-48): energy, species, the new
value of the static variable `max` and the state of the engine.  `none` for the static
variable is `UNKNOWN_MAX`, its initial value.  The defaults of `rejection_sample` are
include/marley/Generator.hh:93-94. -/
noncomputable def sampleIncident (A : Arith) (E : Engine G) (fuel : Nat) (s : Source)
    (max : Option ℝ) (g : G) : Option (Res (ℝ × Int × Option ℝ × G)) :=
  match Emin s.spectrum, Emax s.spectrum with
  | .ok a, .ok b =>
    match rejectionSample A E fuel (numeric s.pdf) a b max 1.01 1e-8 g () with
    | none => none
    | some (.error e) => some (.error e)
    | some (.ok r) => some (.ok (r.x, s.pid, some r.fmax, r.gen))
  | _, _ => some (.error .ub)

/-- Sampling from several sources, one after the other, in one program. See src/NeutrinoSource.cc:41-48. -/
noncomputable def sampleHistory (A : Arith) (E : Engine G) (fuel : Nat) :
    List Source → Option ℝ → G → Option (Res (List ℝ × Option ℝ × G))
  | [], max, g => some (.ok ([], max, g))
  | s :: l, max, g =>
    match sampleIncident A E fuel s max g with
    | none => none
    | some (.error e) => some (.error e)
    | some (.ok (x, _, max, g)) =>
      match sampleHistory A E fuel l max g with
      | none => none
      | some (.error e) => some (.error e)
      | some (.ok (xs, max, g)) => some (.ok (x :: xs, max, g))

/-! ## Configuration -/

/-- `std::stoi` on a nonempty string of digits with an optional sign. Used at src/JSONConfig.cc:127, 496. -/
def stoi (neg : Bool) (digits : Str) : Res Int :=
  let v : Int := if neg then -(digitsVal digits : Int) else digitsVal digits
  if -2147483648 ≤ v ∧ v ≤ 2147483647 then .ok v else .error .outOfRange

/-- Matching `[0-9]+` (src/JSONConfig.cc:493). -/
def allDigits (s : Str) : Bool := !s.isEmpty && s.all isDigit

/-- `neutrino_pdg` (src/JSONConfig.cc:118-139). -/
def neutrinoPdg (nu : Str) : Res Int :=
  let (neg, body) := match nu with
    | '-' :: t => (true, t)
    | '+' :: t => (false, t)
    | t => (false, t)
  if allDigits body then
    match stoi neg body with
    | .error e => .error e
    | .ok pdg => if allowed pdg then .ok pdg else .error .marleyError
  else
    match stringToNeutrinoPdg nu with
    | (true, pdg) => .ok pdg
    | (false, _) => .error .marleyError

/-- `get_interpolation_method` (src/JSONConfig.cc:489-522). -/
def interpolationMethod (rule : Str) : Res Interp :=
  if allDigits rule then
    match stoi false rule with
    | .error e => .error e
    | .ok n =>
      if n = 1 then .ok .constant
      else if n = 2 then .ok .linearLinear
      else if n = 3 then .ok .linearLog
      else if n = 4 then .ok .logLinear
      else if n = 5 then .ok .logLog
      else .ok .constant
  else if rule = "const".toList ∨ rule = "constant".toList then .ok .constant
  else if rule = "lin".toList ∨ rule = "linlin".toList then .ok .linearLinear
  else if rule = "log".toList ∨ rule = "loglog".toList then .ok .logLog
  else if rule = "linlog".toList then .ok .linearLog
  else if rule = "loglin".toList then .ok .logLinear
  else .error .marleyError

/-- `to_double(ok)` (include/marley/JSON.hh:376-382); `none` is `ok = false`. -/
noncomputable def toDouble? : JVal ℝ → Option ℝ
  | .float x => some x
  | .int n => some (longToDouble n)
  | _ => none

/-- `source_get_double` (src/JSONConfig.cc:55-66). -/
noncomputable def getNumber (j : JVal ℝ) (k : Str) : Res ℝ :=
  if hasKey j k then
    match at? j k with
    | .error e => .error e
    | .ok v => match toDouble? v with
      | none => .error .marleyError
      | some x => .ok x
  else .error .marleyError

/-- A number that may be missing (src/JSONConfig.cc:599-601, 623-625). -/
noncomputable def getNumberOr (j : JVal ℝ) (k : Str) (d : ℝ) : Res ℝ :=
  if hasKey j k then getNumber j k else .ok d

/-- The loop of `get_vector` (src/JSONConfig.cc:83-93). -/
noncomputable def numbers : List (JVal ℝ) → Res (List ℝ)
  | [] => .ok []
  | v :: l =>
    match toDouble? v with
    | none => .error .marleyError
    | some x => match numbers l with
      | .error e => .error e
      | .ok xs => .ok (x :: xs)

/-- `get_vector` (src/JSONConfig.cc:68-96). -/
noncomputable def getVector (j : JVal ℝ) (k : Str) : Res (List ℝ) :=
  if hasKey j k then
    match at? j k with
    | .error e => .error e
    | .ok (.arr l) => numbers l
    | .ok _ => .error .marleyError
  else .error .marleyError

/-- A string that must be present (src/JSONConfig.cc:552-562, 564-572). -/
def getText (j : JVal ℝ) (k : Str) : Res Str :=
  if hasKey j k then
    match at? j k with
    | .error e => .error e
    | .ok v => toStringOrThrow v
  else .error .marleyError

/-- The conversion of bin weights to densities (src/JSONConfig.cc:665-674); the list
of energies ends with `Emax` and that of weights with 0. -/
noncomputable def densities : List ℝ → List ℝ → Res (List ℝ)
  | E :: E' :: Es, w :: ws =>
    if E' - E ≤ 0 then .error .marleyError
    else
      match densities (E' :: Es) ws with
      | .error e => .error e
      | .ok ys => .ok (w / (E' - E) :: ys)
  | _, ws => .ok ws

/-- The histogram branch (src/JSONConfig.cc:642-681), given the arrays and `Emax`. -/
noncomputable def histogram (pdg : Int) (Es ws : List ℝ) (Emax : ℝ) : Res Source :=
  match densities (Es ++ [Emax]) (ws ++ [0]) with
  | .error e => .error e
  | .ok ys => mkGridVectors pdg (Es ++ [Emax]) ys .constant

/-- The source described by a specification of given type (src/JSONConfig.cc:577-697).
Types read from ROOT files are in `rootBuild`. -/
noncomputable def build (type : Str) (pdg : Int) (j : JVal ℝ) : Res Source :=
  if type = "mono".toList ∨ type = "monoenergetic".toList then do
    let E ← getNumber j "energy".toList
    if E ≤ 0 then .error .marleyError else mkMono pdg E
  else if type = "dar".toList ∨ type = "decay-at-rest".toList then mkDecayAtRest pdg
  else if type = "fd".toList ∨ type = "fermi-dirac".toList ∨ type = "fermi_dirac".toList then do
    let a ← getNumber j "Emin".toList
    let b ← getNumber j "Emax".toList
    let T ← getNumber j "temperature".toList
    let eta ← getNumberOr j "eta".toList 0
    if a < 0 then .error .marleyError
    else if T ≤ 0 then .error .marleyError
    else if b ≤ a then .error .marleyError
    else mkFermiDirac pdg a b T eta
  else if type = "bf".toList ∨ type = "beta".toList ∨ type = "beta-fit".toList then do
    let a ← getNumber j "Emin".toList
    let b ← getNumber j "Emax".toList
    let m ← getNumber j "Emean".toList
    let beta ← getNumberOr j "beta".toList 4.5
    if a < 0 then .error .marleyError
    else if m ≤ 0 then .error .marleyError
    else if b ≤ a then .error .marleyError
    else mkBetaFit pdg a b m beta
  else if type = "hist".toList ∨ type = "histogram".toList then do
    let Es ← getVector j "E_bin_lefts".toList
    let ws ← getVector j "weights".toList
    if Es.length ≠ ws.length then .error .marleyError
    else do
      let b ← getNumber j "Emax".toList
      if b ≤ 0 then .error .marleyError else histogram pdg Es ws b
  else if type = "grid".toList then do
    let Es ← getVector j "energies".toList
    let ys ← getVector j "prob_densities".toList
    let rule ← if hasKey j "rule".toList then getText j "rule".toList else .ok "linlin".toList
    let m ← interpolationMethod rule
    mkGridVectors pdg Es ys m
  else .error .marleyError

/-- The source described by the value of the key `source` (src/JSONConfig.cc:542-697). -/
noncomputable def fromSpec (j : JVal ℝ) : Res (Option Source) :=
  match j with
  | .null => .ok none
  | j => do
    let type ← getText j "type".toList
    let nu ← getText j "neutrino".toList
    let pdg ← neutrinoPdg nu
    let s ← build type pdg j
    .ok (some s)

end Marley.Source
