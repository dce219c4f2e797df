import Verif.Model.Reaction
import Verif.Model.FileManager
import Verif.Model.Source
import Verif.Model.Rotation

/-!
# Job configurations (src/JSONConfig.cc): direction, cut-offs, reactions, target

The configuration is a JSON value; doubles are real numbers.  The text of log
messages is not modelled, except that a message that is written may have to look
up the name of an atom, which can throw.
-/

set_option autoImplicit false

namespace Marley.Job
open Marley
open Marley.Json (Str JVal hasKey at? jsonEscape toLong?)
open Marley.Source (toDouble?)
open Marley.Reaction (Reaction Proc)

/-- What a configuration is read with: the file system, the default search path,
the contents of files (`none`: cannot be read), the nuclear data used by reaction
files, and whether the logger writes messages.  The nuclear data are those of the
structure database of the generator; that it keeps what it has read does not show
(C55). See src/JSONConfig.cc:141-149. -/
structure Env where
  fs : Files.FileSys
  path : Str
  text : Str → Option Str
  ctx : Reaction.Ctx
  log : Bool

/-- `to_string()` (include/marley/JSON.hh:354-362): the escaped text, empty for a
value that is not a string. -/
def textOf : JVal ℝ → Str
  | .str s => jsonEscape s
  | _ => []

/-- `process_type()` (include/marley/Reaction.hh:85) of both kinds
(src/ElectronReaction.cc:32). -/
def procOf : Reaction → Proc
  | .nuclear r => r.proc
  | .electron _ => .nuElectronElastic

/-- `pdg_a()` (include/marley/Reaction.hh:90). -/
def projectileOf : Reaction → Int
  | .nuclear r => r.pdgA
  | .electron r => r.pdgA

/-- `atomic_target()` (include/marley/NuclearReaction.hh:60-61,
include/marley/ElectronReaction.hh:42-43); the first constructs a new atom. -/
def targetOf : Reaction → Res Int
  | .nuclear r => Target.atom r.pdgB
  | .electron r => .ok r.atom

/-- A message naming an atom is written (include/marley/TargetAtom.hh:103-107). -/
def logAtom (log : Bool) (a : Int) : Res Unit :=
  if log then
    match Target.atomName a with
    | .error e => .error e
    | .ok _ => .ok ()
  else .ok ()

/-- The reactions of one listed file (src/JSONConfig.cc:376-393). -/
noncomputable def loadListed (v : Env) (name : JVal ℝ) : Res (List Reaction) :=
  let full := Files.findFileIn v.fs (textOf name) v.path
  if full = [] then .error .marleyError
  else
    match Reaction.load v.ctx (v.text full) with
    | .error e => .error e
    | .ok rs => if rs = [] then .error .marleyError else .ok rs

/-- The loop over the listed files (src/JSONConfig.cc:374-424).  `loaded` are the
pairs of atom and process already seen.  The result are the reactions added to the
generator; `add_reaction` cannot fail here because normalisation is switched off
(src/JSONConfig.cc:157). -/
noncomputable def reactionLoop (v : Env) : List (Int × Proc) → List (JVal ℝ) → Res (List Reaction)
  | _, [] => .ok []
  | loaded, name :: names =>
    match loadListed v name with
    | .error e => .error e
    | .ok [] => .error .ub
    | .ok (r :: rs) =>
      match targetOf r with
      | .error e => .error e
      | .ok a =>
        match logAtom v.log a with
        | .error e => .error e
        | .ok () =>
          if (a, procOf r) ∈ loaded then reactionLoop v loaded names
          else
            match reactionLoop v (loaded ++ [(a, procOf r)]) names with
            | .error e => .error e
            | .ok rest => .ok (r :: rs ++ rest)

/-- `prepare_reactions` (src/JSONConfig.cc:350-439) for a generator without
reactions: the reactions it has afterwards. -/
noncomputable def prepareReactions (v : Env) (j : JVal ℝ) : Res (List Reaction) :=
  if hasKey j "reactions".toList then
    match at? j "reactions".toList with
    | .error e => .error e
    | .ok .null => .ok []
    | .ok (.arr []) => .error .marleyError
    | .ok (.arr names) => reactionLoop v [] names
    | .ok _ => .error .marleyError
  else .error .marleyError

/-- One component of the direction (src/JSONConfig.cc:315-328). -/
noncomputable def component (d : JVal ℝ) (k : Str) (old : ℝ) : Res ℝ :=
  if hasKey d k then
    match at? d k with
    | .error e => .error e
    | .ok x => match toDouble? x with
      | none => .error .marleyError
      | some x => .ok x
  else .ok old

/-- `prepare_direction` (src/JSONConfig.cc:302-348), acting on the rotator of the
generator; `set_neutrino_direction` is src/Generator.cc:442-456. -/
noncomputable def prepareDirection (r : Rot.Rotator) (j : JVal ℝ) : Res Rot.Rotator :=
  if hasKey j "direction".toList then
    match at? j "direction".toList with
    | .error e => .error e
    | .ok (.obj m) =>
      match component (.obj m) ['x'] r.dir.x with
      | .error e => .error e
      | .ok x => match component (.obj m) ['y'] r.dir.y with
        | .error e => .error e
        | .ok y => match component (.obj m) ['z'] r.dir.z with
          | .error e => .error e
          | .ok z => r.setDirection ⟨x, y, z⟩
    | .ok (.str s) =>
      if jsonEscape s = "isotropic".toList then .ok { r with randomize := true }
      else .error .marleyError
    | .ok _ => .error .marleyError
  else .ok r

/-- Conversion of a `long` to an `int` of 32 bits. Used at src/JSONConfig.cc:451-484. -/
def toInt32 (n : Int) : Int := (n + 2 ^ 31) % 2 ^ 32 - 2 ^ 31

/-- One of the cut-offs of `prepare_structure` (src/JSONConfig.cc:451-484); `least`
is the smallest allowed value, `old` the one kept if the key is missing. -/
def cutoff (j : JVal ℝ) (k : Str) (least old : Int) : Res Int :=
  if hasKey j k then
    match at? j k with
    | .error e => .error e
    | .ok x => match toLong? x with
      | none => .error .marleyError
      | some n => if toInt32 n < least then .error .marleyError else .ok (toInt32 n)
  else .ok old

/-- `prepare_structure` (src/JSONConfig.cc:441-486): the two cut-offs, of fragments
and of gamma rays. -/
def prepareStructure (j : JVal ℝ) (old : Int × Int) : Res (Int × Int) :=
  match cutoff j "fragment_lmax".toList 0 old.1 with
  | .error e => .error e
  | .ok f => match cutoff j "gamma_lmax".toList 1 old.2 with
    | .error e => .error e
    | .ok g => .ok (f, g)

/-- The atoms of the reactions as an ordered set (src/JSONConfig.cc:735-738). -/
def insertAtom (a : Int) : List Int → List Int
  | [] => [a]
  | b :: t => if a < b then a :: b :: t else if a = b then b :: t else b :: insertAtom a t

/-- The loop filling that set (src/JSONConfig.cc:736-738). -/
def atomSet : List Int → List Reaction → Res (List Int)
  | s, [] => .ok s
  | s, r :: rs =>
    match targetOf r with
    | .error e => .error e
    | .ok a => atomSet (insertAtom a s) rs

/-- The loop over the listed nuclides (src/JSONConfig.cc:788-807). -/
noncomputable def listedAtoms : List (JVal ℝ × JVal ℝ) → Res (List (Int × ℝ))
  | [] => .ok []
  | (n, f) :: t =>
    match toLong? n with
    | none => .error .marleyError
    | some n => match Target.atom (toInt32 n) with
      | .error e => .error e
      | .ok a => match toDouble? f with
        | none => .error .marleyError
        | some x => match listedAtoms t with
          | .error e => .error e
          | .ok r => .ok ((a, x) :: r)

/-- The explicit specification (src/JSONConfig.cc:747-786). -/
noncomputable def explicitAtoms (spec : JVal ℝ) : Res (List (Int × ℝ)) :=
  match spec with
  | .obj m =>
    if hasKey (.obj m : JVal ℝ) "nuclides".toList then
      match at? (.obj m : JVal ℝ) "nuclides".toList with
      | .error e => .error e
      | .ok (.arr ns) =>
        if hasKey (.obj m : JVal ℝ) "atom_fractions".toList then
          match at? (.obj m : JVal ℝ) "atom_fractions".toList with
          | .error e => .error e
          | .ok (.arr fs) =>
            if ns.length ≠ fs.length then .error .marleyError
            else if ns.length < 1 then .error .marleyError
            else listedAtoms (ns.zip fs)
          | .ok _ => .error .marleyError
        else .error .marleyError
      | .ok _ => .error .marleyError
    else .error .marleyError
  | _ => .error .marleyError

/-- The messages about the target (src/JSONConfig.cc:811-818), which name its atoms. -/
def logAtoms (log : Bool) : List Int → Res Unit
  | [] => .ok ()
  | a :: t =>
    match logAtom log a with
    | .error e => .error e
    | .ok () => logAtoms log t

/-- Creating the target (src/JSONConfig.cc:809-819). -/
noncomputable def finishTarget (log : Bool) (l : List (Int × ℝ)) : Res (Option (List (Int × ℝ))) :=
  match Target.make log (l.map (·.1)) (l.map (·.2)) with
  | .error e => .error e
  | .ok t => match logAtoms log (t.map (·.1)) with
    | .error e => .error e
    | .ok () => .ok (some t)

/-- `prepare_target` (src/JSONConfig.cc:715-820); `none`: the target is left alone. -/
noncomputable def prepareTarget (log : Bool) (j : JVal ℝ) (rs : List Reaction) :
    Res (Option (List (Int × ℝ))) :=
  if hasKey j "target".toList then
    match at? j "target".toList with
    | .error e => .error e
    | .ok spec => match explicitAtoms spec with
      | .error e => .error e
      | .ok l => finishTarget log l
  else if rs = [] then .ok none
  else
    match atomSet [] rs with
    | .error e => .error e
    | .ok atoms => finishTarget log (atoms.map (fun a => (a, 1)))

end Marley.Job
