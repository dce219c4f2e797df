import Verif.Model.JobConfig
import Verif.Model.CrossSection

/-!
# Making a generator from a job configuration (src/JSONConfig.cc:141-299)

The parts are those of `Model/JobConfig.lean` and `Model/Source.lean`.  Messages are not
modelled, except for looking up names, which can throw.
-/

set_option autoImplicit false

namespace Marley.Job
open Marley
open Marley.Json (Str JVal hasKey at? toLong?)
open Marley.Reaction (Reaction)
open Marley.Gen (Gen Src Rx)
open Marley.Source (toDouble? fromSpec)

variable {G : Type}

/-- What a generator is made with: the files and nuclear data, what surrounds reactions,
the seeding of the random engine, and the system time. See src/JSONConfig.cc:141-149. -/
structure Setup (G : Type) where
  env : Env
  xs : Xs.Env G
  init : List Nat → G
  clock : Nat

/-- Conversion of a `long` to an unsigned integer of 64 bits. Used at src/JSONConfig.cc:146. -/
def toUInt64 (n : Int) : Nat := (n % 2 ^ 64).toNat

/-- The seed (src/JSONConfig.cc:143-149). -/
def seedOf (clock : Nat) (j : JVal ℝ) : Res Nat :=
  if hasKey j "seed".toList then
    match at? j "seed".toList with
    | .error e => .error e
    | .ok x => match toLong? x with
      | none => .error .marleyError
      | some n => .ok (toUInt64 n)
  else .ok clock

/-- The source as the generator sees it.  If the density is not a number at some energy,
the outcome is `.ub` (what follows from that is not modelled).
See src/Generator.cc:47, include/marley/NeutrinoSource.hh:103-104. -/
noncomputable def srcOf (s : Source.Source) : Res Src :=
  match Source.Emin s.spectrum, Source.Emax s.spectrum with
  | .ok a, .ok b =>
    open Classical in
    if h : ∀ E, ∃ y, s.pdf E = .ok (some y) then .ok ⟨s.pid, a, b, fun E => (h E).choose⟩
    else .error .ub
  | _, _ => .error .ub

/-- The source of a new generator, a monoenergetic one for electron neutrinos
(src/Generator.cc:47, include/marley/NeutrinoSource.hh:103-104). -/
noncomputable def defaultSrc : Src := ⟨12, 10, 10, fun E => if (10 : ℝ) = E then 1 else 0⟩

/-- `energy_pdf_max` (src/JSONConfig.cc:531-537): the bound given, if any. -/
noncomputable def pdfMaxOf (j : JVal ℝ) (old : Option ℝ) : Res (Option ℝ) :=
  if hasKey j "energy_pdf_max".toList then
    match at? j "energy_pdf_max".toList with
    | .error e => .error e
    | .ok x => match toDouble? x with
      | none => .error .marleyError
      | some y => .ok (some y)
  else .ok old

/-- `weight_flux` (src/JSONConfig.cc:702-708). -/
def weightFluxOf (spec : JVal ℝ) (old : Bool) : Res Bool :=
  if hasKey spec "weight_flux".toList then
    match at? spec "weight_flux".toList with
    | .error e => .error e
    | .ok (.bool b) => .ok b
    | .ok _ => .error .marleyError
  else .ok old

/-- `prepare_neutrino_source` (src/JSONConfig.cc:525-713). -/
noncomputable def prepareSource (g : Gen G) (j : JVal ℝ) : Res (Gen G) :=
  match pdfMaxOf j g.pdfMaxDefault with
  | .error e => .error e
  | .ok m =>
    let g := { g with pdfMaxDefault := m }
    if hasKey j "source".toList then
      match at? j "source".toList with
      | .error e => .error e
      | .ok spec =>
        match fromSpec spec with
        | .error e => .error e
        | .ok none => .ok g
        | .ok (some s) =>
          match weightFluxOf spec g.weightFlux with
          | .error e => .error e
          | .ok b =>
            match srcOf s with
            | .error e => .error e
            | .ok src =>
              match { g with weightFlux := b }.setSource src with
              | (_, .error e) => .error e
              | (g, .ok ()) => .ok g
    else .ok g

/-- `do_deexcitations` (src/JSONConfig.cc:168-177). -/
def deexciteOf (j : JVal ℝ) (old : Bool) : Res Bool :=
  if hasKey j "do_deexcitations".toList then
    match at? j "do_deexcitations".toList with
    | .error e => .error e
    | .ok (.bool b) => .ok b
    | .ok _ => .ok old
  else .ok old

/-- Whether there are to be no reactions (src/JSONConfig.cc:182-184). -/
def noReactions (j : JVal ℝ) : Res Bool :=
  if hasKey j "reactions".toList then
    match at? j "reactions".toList with
    | .error e => .error e
    | .ok .null => .ok true
    | .ok _ => .ok false
  else .ok false

/-- The Coulomb mode (src/JSONConfig.cc:195-203). -/
def coulombModeOf (j : JVal ℝ) : Res Utils.CoulombMode :=
  if hasKey j "coulomb_mode".toList then
    match at? j "coulomb_mode".toList with
    | .error e => .error e
    | .ok (.str s) => Utils.coulombModeFromString (textOf (.str s))
    | .ok _ => .error .marleyError
  else .ok .fermiAndMema

/-- A reaction with its Coulomb mode (src/JSONConfig.cc:210-219) as the generator sees
it.  A mass that is not a number gives `.ub` (what follows from that is not modelled). -/
noncomputable def rxOf (xs : Xs.Env G) (mode : Utils.CoulombMode) : Reaction → Res (Rx G)
  | .nuclear r => match Xs.Nuc.of r mode with
    | none => .error .ub
    | some n => .ok (n.rx xs)
  | .electron r => .ok (Xs.elRx xs r)

/-- All reactions. See src/JSONConfig.cc:210-219. -/
noncomputable def rxsOf (xs : Xs.Env G) (mode : Utils.CoulombMode) : List Reaction → Res (List (Rx G))
  | [] => .ok []
  | r :: rs => match rxOf xs mode r with
    | .error e => .error e
    | .ok x => match rxsOf xs mode rs with
      | .error e => .error e
      | .ok l => .ok (x :: l)

/-- The loop describing the active reactions (src/JSONConfig.cc:244-282), which makes the
target atom of each reaction and needs the name of the atom if it is a reaction on
electrons. -/
noncomputable def describe (pid : Int) (target : List (Int × ℝ)) : List Reaction → Res Unit
  | [] => .ok ()
  | r :: rs =>
    match targetOf r with
    | .error e => .error e
    | .ok a =>
      if projectileOf r = pid ∧ Target.fraction target a > 0 then
        match procOf r with
        | .other => .error .marleyError
        | .nuElectronElastic =>
          match Target.atomName a with
          | .error e => .error e
          | .ok _ => describe pid target rs
        | _ => describe pid target rs
      else describe pid target rs

/-- The target of a generator, if it was configured (src/JSONConfig.cc:819). -/
def withTarget (g : Gen G) (t : Option (List (Int × ℝ))) : Gen G :=
  match t with
  | none => g
  | some t => { g with target := some t }

/-- The second half of `create_generator` (src/JSONConfig.cc:191-298) for a generator with
everything but its reactions `rs`.  The reactions were added one by one, each with a place
for its cross section (src/Generator.cc:406-426).  The generator has a target because
there are reactions. -/
noncomputable def finishGenerator (S : Setup G) (j : JVal ℝ) (g : Gen G) (rs : List Reaction) :
    Res (Gen G) :=
  match coulombModeOf j with
  | .error e => .error e
  | .ok mode =>
    match rxsOf S.xs mode rs with
    | .error e => .error e
    | .ok xs =>
      if ∃ x ∈ xs, x.pdgA = g.source.pid then
        match describe g.source.pid (g.target.getD []) rs with
        | .error e => .error e
        | .ok () =>
          match { g with reactions := xs, values := xs.map (fun _ => 0), frozen := false }.normalize with
          | (_, .error e) => .error e
          | (g, .ok ()) => .ok g
      else .error .marleyError

/-- `create_generator` (src/JSONConfig.cc:141-299): the generator and the cut-offs of its
structure database (include/marley/StructureDatabase.hh:218-231).  While it is being set
up, normalisation is switched off. -/
noncomputable def createGenerator (S : Setup G) (j : JVal ℝ) : Res (Gen G × Int × Int) :=
  match seedOf S.clock j with
  | .error e => .error e
  | .ok seed =>
    let g := { Gen.fresh S.init seed defaultSrc with frozen := true }
    match prepareDirection g.rotator j with
    | .error e => .error e
    | .ok rot =>
      match prepareStructure j (5, 5) with
      | .error e => .error e
      | .ok cuts =>
        match prepareSource { g with rotator := rot } j with
        | .error e => .error e
        | .ok g =>
          match prepareReactions S.env j with
          | .error e => .error e
          | .ok rs =>
            match prepareTarget S.env.log j rs with
            | .error e => .error e
            | .ok t =>
              match deexciteOf j g.deexcite with
              | .error e => .error e
              | .ok b =>
                let g := { withTarget g t with deexcite := b }
                match noReactions j with
                | .error e => .error e
                | .ok true => .ok (g, cuts)
                | .ok false =>
                  match finishGenerator S j g rs with
                  | .error e => .error e
                  | .ok g => .ok (g, cuts)

end Marley.Job
