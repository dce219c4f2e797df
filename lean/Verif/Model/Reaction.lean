import Verif.Model.DecayScheme
import Verif.Model.MassTable
import Verif.Model.Target

/-!
# Reactions and reaction files (src/Reaction.cc, src/NuclearReaction.cc,
src/ElectronReaction.cc)

Doubles are real numbers; a mass that is not a number is `none`.
-/

set_option autoImplicit false

namespace Marley.Reaction
open Marley
open Marley.Json (Str)
open Marley.Scheme (Level exDbl exInt closestLevel levelAt)

/-- `ProcessType` (include/marley/Reaction.hh:46-51); `other` for an integer that
is none of the four (the value of such a cast is unspecified; the code treats it
as unrecognised). -/
inductive Proc where
  | neutrinoCC | antiNeutrinoCC | nc | nuElectronElastic | other
  deriving DecidableEq, Repr

/-- `static_cast<ProcType>(n)` (src/Reaction.cc:316). -/
def Proc.ofInt (n : Int) : Proc :=
  if n = 0 then .neutrinoCC else if n = 1 then .antiNeutrinoCC else if n = 2 then .nc
  else if n = 3 then .nuElectronElastic else .other

/-- `proc_type_to_nu_pdg.at` (src/Reaction.cc:47-67), also `get_projectiles`
(src/Reaction.cc:283-285). -/
def projectiles : Proc → Res (List Int)
  | .neutrinoCC => .ok [12, 14, 16]
  | .antiNeutrinoCC => .ok [-12, -14, -16]
  | .nc => .ok [12, 14, 16, -12, -14, -16]
  | .nuElectronElastic => .ok [12, 14, 16, -12, -14, -16]
  | .other => .error .outOfRange

/-- `get_ejectile_pdg` (src/Reaction.cc:258-277). -/
def ejectile (pdgA : Int) (p : Proc) : Res Int :=
  match projectiles p with
  | .error e => .error e
  | .ok l =>
    if pdgA ∈ l then
      if p = .neutrinoCC then .ok (pdgA - 1)
      else if p = .antiNeutrinoCC then .ok (pdgA + 1)
      else .ok pdgA
    else .error .marleyError

/-- `MatrixElement` (include/marley/MatrixElement.hh:167-182).  `level`: the
address and the contents of the final level (levels do not change after they are
read), `none` for a null pointer. -/
structure MatEl where
  energy : ℝ
  strength : ℝ
  type : Int
  level : Option (Nat × Level ℝ)

/-- `level_energy()` (include/marley/MatrixElement.hh:80-87). -/
def MatEl.levelEnergy (m : MatEl) : ℝ :=
  match m.level with
  | some l => l.2.energy
  | none => m.energy

/-- What the loader gets from the structure database, the mass table and the
logger. Used at src/Reaction.cc:79, 94, 102, 158. -/
structure Ctx where
  /-- `get_decay_scheme` -/
  scheme : Int → Res (Option (Scheme.Scheme ℝ))
  /-- the mass table -/
  table : Mass.Table
  /-- the codes of the fragments of the structure database -/
  frags : List Int
  /-- `get_gs_spin_parity` -/
  gs : Int → Res (Int × Parity)
  /-- conversion of doubles -/
  fmt : DblFmt ℝ
  /-- some log stream takes warnings -/
  warn : Bool

/-- Do the spins and parities fit the transition (src/Reaction.cc:139-149)? -/
def rulesOk (type twoJi : Int) (Pi : Parity) (twoJf : Int) (Pf : Parity) : Bool :=
  if type = 0 then decide (twoJi = twoJf ∧ Pi = Pf)
  else if type = 1 then
    decide (Pi = Pf ∧ ¬ (twoJf < ((twoJi - 2).natAbs : Int) ∨ twoJf > twoJi + 2))
  else true

/-- The warning (src/Reaction.cc:152-165): atoms are made for both nuclides, and
their names are looked up if the message is written. -/
def rulesWarning (warn : Bool) (pdgB pdgD : Int) : Res Unit :=
  match Target.atom pdgB with
  | .error e => .error e
  | .ok _ => match Target.atom pdgD with
    | .error e => .error e
    | .ok _ =>
      if warn then
        match Target.atomName pdgD with
        | .error e => .error e
        | .ok _ => match Target.atomName pdgB with
          | .error e => .error e
          | .ok _ => .ok ()
      else .ok ()

/-- The loop of `set_level_ptrs` (src/Reaction.cc:105-189): `done` are the matrix
elements already dealt with.  A scheme without levels gives a null pointer that
is then dereferenced. -/
noncomputable def setLoop (warn : Bool) (pdgB pdgD : Int) (s : Scheme.Scheme ℝ) (threshold : ℝ)
    (twoJi : Int) (Pi : Parity) : List MatEl → List MatEl → Res (List MatEl)
  | done, [] => .ok done
  | done, m :: rest =>
    if m.energy > threshold then
      setLoop warn pdgB pdgD s threshold twoJi Pi (done ++ [{ m with level := none }]) rest
    else
      match closestLevel s m.energy with
      | .error e => .error e
      | .ok none => .error .ub
      | .ok (some a) =>
        match levelAt s a with
        | none => .error .ub
        | some l =>
          match (if rulesOk m.type twoJi Pi l.twoJ l.parity then .ok ()
              else rulesWarning warn pdgB pdgD : Res Unit) with
          | .error e => .error e
          | .ok _ =>
            if (done ++ m :: rest).any (fun x => x.level.map (·.1) == some a) then
              .error .marleyError
            else setLoop warn pdgB pdgD s threshold twoJi Pi
              (done ++ [{ m with level := some (a, l) }]) rest

/-- `set_level_ptrs` (src/Reaction.cc:71-190). -/
noncomputable def setLevelPtrs (c : Ctx) (pdgB pdgD : Int) (ms : List MatEl) : Res (List MatEl) :=
  match c.scheme pdgD with
  | .error e => .error e
  | .ok none => .ok ms
  | .ok (some s) =>
    if pdgD ≠ Pdg.nucleusPid s.Z s.A then .error .marleyError
    else
      match Mass.unboundThresholdPid c.table c.frags pdgD with
      | .error e => .error e
      | .ok threshold =>
        match c.gs pdgB with
        | .error e => .error e
        | .ok (twoJi, Pi) => setLoop c.warn pdgB pdgD s threshold twoJi Pi [] ms

/-- The data members of a nuclear reaction (include/marley/NuclearReaction.hh:221-243,
include/marley/Reaction.hh:118-137).  `mb` and `md` (the ground-state mass of the
residue) are `none` if they are not numbers. -/
structure Nuclear where
  proc : Proc
  pdgA : Int
  pdgB : Int
  pdgC : Int
  pdgD : Int
  qD : Int
  Zi : Int
  Ai : Int
  Zf : Int
  Af : Int
  ma : ℝ
  mb : Option ℝ
  mc : ℝ
  md : Option ℝ
  elements : List MatEl

/-- The constructor of `NuclearReaction` (src/NuclearReaction.cc:65-114).  The
description (719-735) needs the symbols of both elements; its text is `describeNuclear`
in Model/Reports.  The symbols of leptons always exist. -/
noncomputable def makeNuclear (t : Mass.Table) (p : Proc) (pdgA pdgB pdgC pdgD qD : Int)
    (ms : List MatEl) : Res Nuclear :=
  let Zi := (pdgB.tmod 10000000).tdiv 10000
  let Zf := (pdgD.tmod 10000000).tdiv 10000
  match Mass.particleMass t pdgA with
  | .error e => .error e
  | .ok ma => match Mass.particleMass t pdgC with
    | .error e => .error e
    | .ok mc =>
      match (if pdgB > 1000000000 then Mass.atomicMassPid t pdgB true
          else (Mass.particleMass t pdgB).map some : Res (Option ℝ)) with
      | .error e => .error e
      | .ok mb =>
        match (if pdgD > 1000000000 then
              match Mass.atomicMassPid t pdgD true with
              | .error e => .error e
              | .ok m => match Mass.particleMass t Mass.ELECTRON with
                | .error e => .error e
                | .ok me => .ok (m.map (fun x => x - qD * me))
            else (Mass.particleMass t pdgD).map some : Res (Option ℝ)) with
        | .error e => .error e
        | .ok md => match Utils.elementSymbol Zi with
          | .error e => .error e
          | .ok _ => match Utils.elementSymbol Zf with
            | .error e => .error e
            | .ok _ => .ok ⟨p, pdgA, pdgB, pdgC, pdgD, qD, Zi, (pdgB.tmod 10000).tdiv 10, Zf,
                (pdgD.tmod 10000).tdiv 10, ma, mb, mc, md, ms⟩

/-- The data members of a reaction on electrons (include/marley/ElectronReaction.hh:63-73,
include/marley/Reaction.hh:118-137). -/
structure Electron where
  pdgA : Int
  pdgC : Int
  atom : Int
  g1 : ℝ
  g2 : ℝ
  ma : ℝ
  mb : ℝ
  mc : ℝ
  md : ℝ

/-- `sin2thetaw` (include/marley/marley_utils.hh:75). -/
noncomputable def sin2thetaw : ℝ := 0.23155

/-- `set_coupling_constants` (src/ElectronReaction.cc:59-84). -/
noncomputable def couplings (pdgA : Int) : Res (ℝ × ℝ) :=
  if pdgA = 12 then .ok (1 / 2 + sin2thetaw, sin2thetaw)
  else if pdgA = -12 then .ok (sin2thetaw, 1 / 2 + sin2thetaw)
  else if pdgA = 14 ∨ pdgA = 16 then .ok (-(1 / 2) + sin2thetaw, sin2thetaw)
  else if pdgA = -14 ∨ pdgA = -16 then .ok (sin2thetaw, -(1 / 2) + sin2thetaw)
  else .error .marleyError

/-- The constructor of `ElectronReaction` (src/ElectronReaction.cc:29-57). -/
noncomputable def makeElectron (t : Mass.Table) (pdgA atom : Int) : Res Electron :=
  match Target.atom atom with
  | .error e => .error e
  | .ok atom => match ejectile pdgA .nuElectronElastic with
    | .error e => .error e
    | .ok pdgC => match Mass.particleMass t pdgA with
      | .error e => .error e
      | .ok ma => match Mass.particleMass t Mass.ELECTRON with
        | .error e => .error e
        | .ok me => match Mass.particleMass t pdgC with
          | .error e => .error e
          | .ok mc => match couplings pdgA with
            | .error e => .error e
            | .ok (g1, g2) => .ok ⟨pdgA, pdgC, atom, g1, g2, ma, me, mc, me⟩

/-- A reaction. See include/marley/Reaction.hh:118-130. -/
inductive Reaction where
  | nuclear (r : Nuclear)
  | electron (r : Electron)

/-! ## Files -/

/-- An input file: what has not been read, and `good()`. Used at src/marley_utils.cc:436-456. -/
structure FileIn where
  rest : Str
  good : Bool

/-- `std::getline(file, line)` for a file that is good: reaching the end sets
`eofbit`. Used at src/marley_utils.cc:443, 469. -/
def getLine (s : Str) : Str × FileIn :=
  if '\n' ∈ s then (s.takeWhile (· ≠ '\n'), ⟨(s.dropWhile (· ≠ '\n')).drop 1, true⟩)
  else (s, ⟨[], false⟩)

/-- `std::regex_match(line, "#.*")` (src/Reaction.cc:294); a dot matches neither a
newline nor a carriage return. -/
def isComment : Str → Bool
  | [] => false
  | c :: t => c = '#' && t.all (fun d => d ≠ '\n' && d ≠ '\r')

/-- `get_next_line(file, rx, false)` (src/marley_utils.cc:436-456) with the regular
expression of comments; every pass reads a character or ends. -/
def nextLine : Nat → FileIn → Str × FileIn
  | 0, f => ([], f)
  | n + 1, f =>
    if f.good then
      let r := getLine f.rest
      if isComment r.1 then nextLine n r.2 else r
    else ([], f)

/-- With enough passes. See src/marley_utils.cc:436-456. -/
def getNextLine (f : FileIn) : Str × FileIn := nextLine (f.rest.length + 2) f

/-- The loop reading matrix elements (src/Reaction.cc:368-395).  `old`: the energy
on the line before (at first the lowest double, below every energy considered here).  Variables that were not read have no value; using them is
undefined. -/
noncomputable def readElements (fmt : DblFmt ℝ) : Nat → Option ℝ → FileIn → Res (List MatEl)
  | 0, _, _ => .ok []
  | n + 1, old, f =>
    let r := getNextLine f
    if r.2.good then
      let e := exDbl fmt (some r.1) none
      let s := exDbl fmt e.1 none
      let t := exInt s.1 none
      match e.2 with
      | none => .error .ub
      | some energy =>
        if ∃ o ∈ old, o ≥ energy then .error .marleyError
        else
          match s.2, t.2 with
          | some strength, some type =>
            match readElements fmt n (some energy) r.2 with
            | .error e => .error e
            | .ok ms => .ok (⟨energy, strength, type, none⟩ :: ms)
          | _, _ => .error .ub
    else .ok []

/-- All integers at the beginning of a line (src/Reaction.cc:327). -/
def readInts : Nat → Str → List Int
  | 0, _ => []
  | n + 1, s => match readInt s with
    | none => []
    | some (i, s) => i :: readInts n s

/-- The loop over projectiles for electrons (src/Reaction.cc:329-332). -/
noncomputable def electronReactions (t : Mass.Table) (atom : Int) : List Int → Res (List Reaction)
  | [] => .ok []
  | a :: l => match makeElectron t a atom with
    | .error e => .error e
    | .ok r => match electronReactions t atom l with
      | .error e => .error e
      | .ok rs => .ok (.electron r :: rs)

/-- The loop over the atoms of a line (src/Reaction.cc:327-333). -/
noncomputable def atomReactions (t : Mass.Table) : List Int → Res (List Reaction)
  | [] => .ok []
  | a :: l =>
    match projectiles .nuElectronElastic with
    | .error e => .error e
    | .ok ps => match electronReactions t a ps with
      | .error e => .error e
      | .ok rs => match atomReactions t l with
        | .error e => .error e
        | .ok rs' => .ok (rs ++ rs')

/-- The loop over lines for electrons (src/Reaction.cc:324-344); `line` is what is
left of the current line. -/
noncomputable def electronLines (t : Mass.Table) : Nat → Str → FileIn → Res (List Reaction)
  | 0, _, _ => .ok []
  | n + 1, line, f =>
    match atomReactions t (readInts (line.length + 1) line) with
    | .error e => .error e
    | .ok rs =>
      let r := getNextLine f
      if r.1 = [] then .ok rs
      else match electronLines t n r.1 r.2 with
        | .error e => .error e
        | .ok rs' => .ok (rs ++ rs')

/-- Residue and its charge (src/Reaction.cc:404-435). -/
def residue (p : Proc) (pdgB : Int) : Res (Int × Int) :=
  let Zi := Pdg.getZ pdgB
  let A := Pdg.getA pdgB
  match p with
  | .nc => .ok (pdgB, 0)
  | .neutrinoCC =>
    if A - Zi ≤ 0 then .error .marleyError else .ok (Pdg.nucleusPid (Zi + 1) A, 1)
  | .antiNeutrinoCC =>
    if Zi ≤ 0 then .error .marleyError else .ok (Pdg.nucleusPid (Zi - 1) A, -1)
  | _ => .error .marleyError

/-- The loop over projectiles (src/Reaction.cc:445-450). -/
noncomputable def nuclearReactions (t : Mass.Table) (p : Proc) (pdgB pdgD qD : Int)
    (ms : List MatEl) : List Int → Res (List Reaction)
  | [] => .ok []
  | a :: l => match ejectile a p with
    | .error e => .error e
    | .ok c => match makeNuclear t p a pdgB c pdgD qD ms with
      | .error e => .error e
      | .ok r => match nuclearReactions t p pdgB pdgD qD ms l with
        | .error e => .error e
        | .ok rs => .ok (.nuclear r :: rs)

/-- `load_from_file` (src/Reaction.cc:287-453), given the text of the file (`none`
if it cannot be read). -/
noncomputable def load (c : Ctx) (file : Option Str) : Res (List Reaction) :=
  match file with
  | none => .error .marleyError
  | some text =>
    let r := getNextLine ⟨text, true⟩
    let ty := exInt (some r.1) none
    match ty.2 with
    | none => .error .ub
    | some n =>
      let p := Proc.ofInt n
      if p = .nuElectronElastic then
        electronLines c.table (text.length + 2) (ty.1.getD []) r.2
      else
        let b := exInt ty.1 none
        match readElements c.fmt (text.length + 2) none r.2 with
        | .error e => .error e
        | .ok ms =>
          match b.2 with
          | none => .error .ub
          | some pdgB =>
            match residue p pdgB with
            | .error e => .error e
            | .ok (pdgD, qD) =>
              match setLevelPtrs c pdgB pdgD ms with
              | .error e => .error e
              | .ok ms =>
                match projectiles p with
                | .error e => .error e
                | .ok l => nuclearReactions c.table p pdgB pdgD qD ms l

end Marley.Reaction
