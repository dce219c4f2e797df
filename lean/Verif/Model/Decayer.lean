import Verif.Model.DecayScheme
import Verif.Model.MassTable
import Verif.Model.StructureDatabase
import Verif.Model.Sampling
import Verif.Model.Generator
import Verif.Model.Chebyshev

/-!
# De-excitation of nuclei (src/ExitChannel.cc, src/HauserFeshbachDecay.cc,
src/NucleusDecayer.cc)

Doubles are real numbers.  The optical model, the level densities and the gamma
strength functions are arbitrary functions that always give a number: that they
can throw is not modelled.  `int` arithmetic is not bounded.  Log messages, and the
flag that skips the sampling of spins in unit tests, are not modelled.
-/

set_option autoImplicit false

namespace Marley.Decay
open Marley
open Marley.Scheme (Scheme Level levelAt closestLevel)
open Marley.Structure (Fragment)
open Marley.Sampling (Arith Engine)

variable {G : Type}

/-- `TransitionType` (include/marley/GammaStrengthFunctionModel.hh:43). -/
inductive Rad where
  | electric
  | magnetic
  deriving DecidableEq, Repr

/-- What the decays use of the mass table and the structure database: the
fragments in the order of the loop over them, the decay schemes by code (`none`: a
null pointer; reading the file may throw), and the models by code.  That the
database keeps what it has read does not show (C55). Used at src/HauserFeshbachDecay.cc:73-77, 143. -/
structure Data where
  mass : Mass.Table
  frags : List Fragment
  scheme : Int → Res (Option (Scheme ℝ))
  /-- nucleus, kinetic energy, fragment, 2j, l, 2s (include/marley/OpticalModel.hh:54-55) -/
  optical : Int → ℝ → Int → Int → Int → Int → ℝ
  /-- nucleus, energy, 2J, parity (include/marley/LevelDensityModel.hh:47) -/
  density : Int → ℝ → Int → Parity → ℝ
  /-- nucleus, type, multipolarity, energy
  (include/marley/GammaStrengthFunctionModel.hh:66-67) -/
  strength : Int → Rad → Int → ℝ → ℝ
  fragLMax : Int
  gamLMax : Int

/-- The members of `ExitChannel` describing the initial nucleus, and the
normalisation factor (include/marley/ExitChannel.hh:128-149). -/
structure Parent where
  pdg : Int
  q : Int
  Ex : ℝ
  twoJ : Int
  P : Parity
  norm : ℝ

/-! ## Widths -/

/-- `FragmentExitChannel::final_nucleus_pdg` (src/ExitChannel.cc:60-72). -/
def remnant (pdgi frag : Int) : Int :=
  Pdg.nucleusPid (Pdg.getZ pdgi - Pdg.getZ frag) (Pdg.getA pdgi - Pdg.getA frag)

/-- `max_Exf` (src/ExitChannel.cc:74-79). -/
noncomputable def maxExf (D : Data) (c : Parent) (frag : Int) : Res (Option ℝ) :=
  match Mass.separationEnergyPid D.mass c.pdg frag true with
  | .error e => .error e
  | .ok s => .ok (s.map (c.Ex - ·))

/-- The loop over `l` (src/ExitChannel.cc:123-138); `term` is the partial width. -/
noncomputable def lLoop (Pi : Parity) (term : Int → ℝ) (hi l : Int) (P : Parity) (w : ℝ) : ℝ :=
  if l ≤ hi then lLoop Pi term hi (l + 1) P.flip (if Pi = P then w + term l else w)
  else w
termination_by (hi + 1 - l).toNat

/-- The loop over `two_j` (src/ExitChannel.cc:113-139). -/
noncomputable def jLoop (Pi PfPa : Parity) (term : Int → Int → ℝ) (twoS hi twoj : Int) (w : ℝ) : ℝ :=
  if twoj ≤ hi then
    let jPlusS := (twoj + twoS).tdiv 2
    let l := |twoj - twoS|.tdiv 2
    let lIsOdd := decide (l.tmod 2 ≠ 0)
    jLoop Pi PfPa term twoS hi (twoj + 2)
      (lLoop Pi (term twoj) jPlusS l (PfPa.mul (Parity.ofBool !lIsOdd)) w)
  else w
termination_by (hi + 1 - twoj).toNat

/-- `get_fragment` of a code (src/StructureDatabase.cc:292-301). -/
def fragment (D : Data) (pid : Int) : Option Fragment := D.frags.find? (fun f => f.pid = pid)

/-- `FragmentDiscreteExitChannel::compute_total_width` (src/ExitChannel.cc:81-140).
A bound on the energy that is not a number gives `.ub`; such channels are not
built. -/
noncomputable def fragDiscreteWidth (D : Data) (c : Parent) (frag : Int) (lev : Level ℝ) : Res ℝ :=
  match fragment D frag with
  | none => .error .ub
  | some f =>
    match maxExf D c frag with
    | .error e => .error e
    | .ok none => .error .ub
    | .ok (some max) =>
      if lev.energy ≥ max then .ok 0
      else
        let KE := max - lev.energy
        .ok (jLoop c.P (lev.parity.mul f.parity)
          (fun twoj l => c.norm * D.optical (remnant c.pdg frag) KE frag twoj l f.twoS)
          f.twoS (c.twoJ + lev.twoJ) |c.twoJ - lev.twoJ| 0)

/-- `get_transition_type` (src/ExitChannel.cc:151-163). -/
def transitionType (Pi : Parity) (mpol : Int) (Pf : Parity) : Rad :=
  let mpolIsOdd := decide (mpol.tmod 2 ≠ 0)
  if Pi = Pf.mul (Parity.ofBool !mpolIsOdd) then .electric else .magnetic

/-- The loop over multipolarities (src/ExitChannel.cc:194-208). -/
noncomputable def mpolLoop (term : Int → ℝ) (hi mpol : Int) (w : ℝ) : ℝ :=
  if mpol ≤ hi then mpolLoop term hi (mpol + 1) (w + term mpol) else w
termination_by (hi + 1 - mpol).toNat

/-- `gamma_energy` (src/ExitChannel.cc:142-148). -/
def gammaEnergy (c : Parent) (Exf : ℝ) : ℝ := c.Ex - Exf

/-- `GammaDiscreteExitChannel::compute_total_width` (src/ExitChannel.cc:165-209). -/
noncomputable def gamDiscreteWidth (D : Data) (c : Parent) (lev : Level ℝ) : ℝ :=
  if lev.energy ≥ c.Ex then 0
  else
    let start := max 1 (|c.twoJ - lev.twoJ|.tdiv 2)
    let stop := (c.twoJ + lev.twoJ).tdiv 2
    mpolLoop (fun mpol => c.norm *
      D.strength c.pdg (transitionType c.P mpol lev.parity) mpol (gammaEnergy c lev.energy))
      stop start 0

/-- `SpinParityWidth` (include/marley/ExitChannel.hh:277-288). -/
structure Entry where
  twoJf : Int
  Pf : Parity
  width : ℝ

/-- The running sum and the table of a differential width. Used at src/ExitChannel.cc:267-272, 356-361. -/
abbrev Acc := ℝ × List Entry

/-- Adding a term (src/ExitChannel.cc:267-272, 356-361). -/
noncomputable def Acc.add (a : Acc) (twoJf : Int) (Pf : Parity) (term : ℝ) : Acc :=
  (a.1 + term, a.2 ++ [⟨twoJf, Pf, term⟩])

/-- The loop over `twoJf` for fragments (src/ExitChannel.cc:257-273). -/
noncomputable def fJfLoop (term : Int → ℝ) (Pf : Parity) (hi twoJf : Int) (a : Acc) : Acc :=
  if twoJf ≤ hi then fJfLoop term Pf hi (twoJf + 2) (a.add twoJf Pf (term twoJf)) else a
termination_by (hi + 1 - twoJf).toNat

/-- The loop over `two_j` (src/ExitChannel.cc:254-274); `term twoj twoJf`. -/
noncomputable def fjLoop (term : Int → Int → ℝ) (Pf : Parity) (twoJi hi twoj : Int) (a : Acc) : Acc :=
  if twoj ≤ hi then
    fjLoop term Pf twoJi hi (twoj + 2) (fJfLoop (term twoj) Pf (twoJi + twoj) |twoJi - twoj| a)
  else a
termination_by (hi + 1 - twoj).toNat

/-- The loop over `l` (src/ExitChannel.cc:252-275); `term l twoj twoJf Pf`. -/
noncomputable def flLoop (term : Int → Int → Int → Parity → ℝ) (twoJi twoS lmax l : Int)
    (Pf : Parity) (a : Acc) : Acc :=
  if l ≤ lmax then
    let twol := 2 * l
    flLoop term twoJi twoS lmax (l + 1) Pf.flip
      (fjLoop (fun twoj twoJf => term l twoj twoJf Pf) Pf twoJi (twol + twoS) |twol - twoS| a)
  else a
termination_by (lmax + 1 - l).toNat

/-- `TINY_OFFSET` (src/ExitChannel.cc:55). -/
noncomputable def tiny : ℝ := 1e-6

/-- `FragmentContinuumExitChannel::differential_width` (src/ExitChannel.cc:211-277):
the sum and the table of spins and parities. -/
noncomputable def fragDiff (D : Data) (c : Parent) (frag : Int) (Emin Exf : ℝ) : Res Acc :=
  match maxExf D c frag with
  | .error e => .error e
  | .ok none => .error .ub
  | .ok (some max) =>
    if max < Emin then .error .marleyError
    else if Exf < Emin - tiny ∨ Exf > max + tiny then .ok (0, [])
    else
      match fragment D frag with
      | none => .error .ub
      | some f =>
        let KE := max - Exf
        let rem := remnant c.pdg frag
        .ok (flLoop (fun l twoj twoJf Pf => c.norm * D.optical rem KE frag twoj l f.twoS
            * D.density rem Exf twoJf Pf)
          c.twoJ f.twoS D.fragLMax 0 (if c.P = f.parity then ⟨true⟩ else ⟨false⟩) (0, []))

/-- The loop over `twoJf` for gamma rays with the loop over the two parities
(src/ExitChannel.cc:341-363). -/
noncomputable def gJfLoop (term : Int → Parity → ℝ) (hi twoJf : Int) (a : Acc) : Acc :=
  if twoJf ≤ hi then
    gJfLoop term hi (twoJf + 2)
      ((a.add twoJf ⟨true⟩ (term twoJf ⟨true⟩)).add twoJf ⟨false⟩ (term twoJf ⟨false⟩))
  else a
termination_by (hi + 1 - twoJf).toNat

/-- The loop over multipolarities (src/ExitChannel.cc:337-364). -/
noncomputable def glLoop (term : Int → Int → Parity → ℝ) (twoJi lmax mpol : Int) (a : Acc) : Acc :=
  if mpol ≤ lmax then
    let twoMpol := 2 * mpol
    glLoop term twoJi lmax (mpol + 1)
      (gJfLoop (term mpol) (twoJi + twoMpol) |twoJi - twoMpol| a)
  else a
termination_by (lmax + 1 - mpol).toNat

/-- `GammaContinuumExitChannel::differential_width` (src/ExitChannel.cc:306-366). -/
noncomputable def gamDiff (D : Data) (c : Parent) (Emin Exf : ℝ) : Res Acc :=
  if c.Ex < Emin then .error .marleyError
  else if Exf < Emin - tiny ∨ Exf > c.Ex + tiny then .ok (0, [])
  else
    .ok (glLoop (fun mpol twoJf Pf => c.norm *
        D.strength c.pdg (transitionType c.P mpol Pf) mpol (gammaEnergy c Exf)
        * D.density c.pdg Exf twoJf Pf)
      c.twoJ D.gamLMax 1 (0, []))

/-! ## Channels -/

/-- The four kinds of exit channels (include/marley/ExitChannel.hh:326-422): the code
of the fragment, the final level, the least energy of the continuum. -/
inductive Kind where
  | fragLevel (frag : Int) (lev : Level ℝ)
  | fragCont (frag : Int) (Emin : ℝ)
  | gamLevel (lev : Level ℝ)
  | gamCont (Emin : ℝ)

/-- A channel with its width. See include/marley/ExitChannel.hh:326-422. -/
structure Exit where
  kind : Kind
  width : ℝ

/-- `emitted_particle_pdg` (include/marley/ExitChannel.hh:192-193, 217-218); the photon
is include/marley/marley_utils.hh:38. -/
def Kind.emitted : Kind → Int
  | .fragLevel f _ | .fragCont f _ => f
  | .gamLevel _ | .gamCont _ => 22

/-- `final_nucleus_pdg` (src/ExitChannel.cc:60-72, include/marley/ExitChannel.hh:223-224). -/
def Kind.final (pdgi : Int) : Kind → Int
  | .fragLevel f _ | .fragCont f _ => remnant pdgi f
  | .gamLevel _ | .gamCont _ => pdgi

/-- `is_continuum` (include/marley/ExitChannel.hh:171, 265). -/
def Kind.continuum : Kind → Bool
  | .fragLevel _ _ | .gamLevel _ => false
  | .fragCont _ _ | .gamCont _ => true

/-- `differential_width` of a continuum channel; the others have none.
See include/marley/ExitChannel.hh:296-305, 393-394. -/
noncomputable def Kind.diff (D : Data) (c : Parent) : Kind → ℝ → Res Acc
  | .fragCont f Emin, x => fragDiff D c f Emin x
  | .gamCont Emin, x => gamDiff D c Emin x
  | _, _ => .error .ub

/-- The bounds of the continuum (include/marley/ExitChannel.hh:296-305, 393-394,
419-420). -/
noncomputable def Kind.bounds (D : Data) (c : Parent) : Kind → Res (ℝ × ℝ)
  | .fragCont f Emin =>
    match maxExf D c f with
    | .error e => .error e
    | .ok none => .error .ub
    | .ok (some max) => .ok (Emin, max)
  | .gamCont Emin => .ok (Emin, c.Ex)
  | _ => .error .ub

/-- `ContinuumExitChannel::compute_total_width` (src/ExitChannel.cc:279-304). -/
noncomputable def contWidth (D : Data) (c : Parent) (k : Kind) : Res ℝ :=
  match k.bounds D c with
  | .error e => .error e
  | .ok (Emin, Emax) =>
    if Emax < Emin then .error .marleyError
    else
      match Gen.numIntegrate (fun x (_ : Unit) => (k.diff D c x).map (fun a => (a.1, ()))) Emin Emax ()
        with
      | .error e => .error e
      | .ok (w, _) => .ok w

/-- The total width and the channels built so far.
See src/HauserFeshbachDecay.cc:121-123, 137-139, 170-172, 187-189. -/
abbrev Channels := ℝ × List Exit

/-- `total_width_ += ec->width(); exit_channels_.push_back(ec)`
(src/HauserFeshbachDecay.cc:121-123, 137-139, 170-172, 187-189). -/
noncomputable def Channels.push (s : Channels) (k : Kind) (w : ℝ) : Channels :=
  (s.1 + w, s.2 ++ [⟨k, w⟩])

/-- The loop over the levels (src/HauserFeshbachDecay.cc:113-126, 164-175). -/
noncomputable def levelLoop (kind : Level ℝ → Kind) (width : Level ℝ → Res ℝ) (max : ℝ) :
    List (Nat × Level ℝ) → Channels → Res Channels
  | [], s => .ok s
  | l :: t, s =>
    if l.2.energy < max then
      match width l.2 with
      | .error e => .error e
      | .ok w => levelLoop kind width max t (s.push (kind l.2) w)
    else .ok s

/-- The lower end of the continuum (src/HauserFeshbachDecay.cc:92, 105, 147, 162). -/
def contMin : Option (Scheme ℝ) → ℝ
  | none => 0
  | some s => match s.levels.getLast? with
    | none => 0
    | some l => l.2.energy

/-- Levels and continuum of one final nucleus (src/HauserFeshbachDecay.cc:90-140,
145-190). -/
noncomputable def addChannels (D : Data) (c : Parent) (ds : Option (Scheme ℝ)) (max : ℝ)
    (lev : Level ℝ → Kind) (width : Level ℝ → Res ℝ) (cont : ℝ → Kind) (s : Channels) :
    Res Channels :=
  match levelLoop lev width max (match ds with | none => [] | some d => d.levels) s with
  | .error e => .error e
  | .ok s =>
    if max > contMin ds then
      match contWidth D c (cont (contMin ds)) with
      | .error e => .error e
      | .ok w => .ok (s.push (cont (contMin ds)) w)
    else .ok s

/-- One pass of the loop over the fragments (src/HauserFeshbachDecay.cc:54-141).  If
the separation energy is not a number all comparisons are false and no channel is
added. -/
noncomputable def addFragment (D : Data) (c : Parent) (f : Fragment) (s : Channels) : Res Channels :=
  match Mass.particleMass D.mass f.pid with
  | .error e => .error e
  | .ok _ =>
    match Mass.separationEnergy D.mass (Pdg.getZ c.pdg) (Pdg.getA c.pdg) f.pid true with
    | .error e => .error e
    | .ok Sa =>
      match D.scheme (remnant c.pdg f.pid) with
      | .error e => .error e
      | .ok ds =>
        match Sa with
        | none => .ok s
        | some Sa =>
          let max := c.Ex - Sa
          if max ≤ 0 then .ok s
          else addChannels D c ds max (.fragLevel f.pid) (fragDiscreteWidth D c f.pid)
            (.fragCont f.pid) s

/-- The loop over the fragments (src/HauserFeshbachDecay.cc:54-141). -/
noncomputable def fragmentLoop (D : Data) (c : Parent) : List Fragment → Channels → Res Channels
  | [], s => .ok s
  | f :: t, s =>
    match addFragment D c f s with
    | .error e => .error e
    | .ok s => fragmentLoop D c t s

/-- The gamma part (src/HauserFeshbachDecay.cc:143-190). -/
noncomputable def addGammas (D : Data) (c : Parent) (s : Channels) : Res Channels :=
  match D.scheme c.pdg with
  | .error e => .error e
  | .ok ds => addChannels D c ds c.Ex .gamLevel (fun l => .ok (gamDiscreteWidth D c l)) .gamCont s

/-- The channels of a given parent (src/HauserFeshbachDecay.cc:52-190). -/
noncomputable def channels (D : Data) (c : Parent) : Res Channels :=
  match fragmentLoop D c D.frags (0, []) with
  | .error e => .error e
  | .ok s => addGammas D c s

/-- The level density of the initial nucleus (src/HauserFeshbachDecay.cc:39-50). -/
def initialDensity (D : Data) (pdg : Int) (Ex : ℝ) (twoJ : Int) (P : Parity) : ℝ :=
  D.density (Pdg.nucleusPid (Pdg.getZ pdg) (Pdg.getA pdg)) Ex twoJ P

/-- The parent of the channels (src/HauserFeshbachDecay.cc:39-50, normalisation
include/marley/ExitChannel.hh:55-60). -/
noncomputable def parent (D : Data) (nucleus : Particle ℝ) (Ex : ℝ) (twoJ : Int) (P : Parity) : Parent :=
  ⟨nucleus.pdg, nucleus.charge, Ex, twoJ, P,
    1 / (2 * Real.pi * initialDensity D nucleus.pdg Ex twoJ P)⟩

/-- `build_exit_channels` (src/HauserFeshbachDecay.cc:33-191).  If the initial level
density vanishes the widths are not finite; the model answers `.ub`. -/
noncomputable def build (D : Data) (nucleus : Particle ℝ) (Ex : ℝ) (twoJ : Int) (P : Parity) :
    Res Channels :=
  if initialDensity D nucleus.pdg Ex twoJ P = 0 then .error .ub
  else channels D (parent D nucleus Ex twoJ P)

/-- `sample_exit_channel` (src/HauserFeshbachDecay.cc:238-259). -/
noncomputable def sampleExit (E : Engine G) (s : Channels) (g : G) : Res (Exit × G) :=
  if s.1 ≤ 0 then .error .marleyError
  else
    match Sampling.pickFrom E (s.2.map (·.width)) g with
    | .error e => .error e
    | .ok (i, g) =>
      match s.2[i]? with
      | none => .error .outOfRange
      | some x => .ok (x, g)

/-! ## Decays -/

/-- `prepare_products` (src/ExitChannel.cc:380-419): the emitted particle and the
residual nucleus.  A mass that is not a number gives `.ub`. -/
noncomputable def prepareProducts (A : Arith) (E : Engine G) (D : Data) (c : Parent) (k : Kind)
    (nucleus : Particle ℝ) (Exf : ℝ) (g : G) : Res ((Particle ℝ × Particle ℝ) × G) :=
  match Mass.particleMass D.mass k.emitted with
  | .error e => .error e
  | .ok m =>
    match Pdg.charge k.emitted with
    | .error e => .error e
    | .ok q =>
      let qf := c.q - Pdg.getZ k.emitted
      match Mass.particleMass D.mass Mass.ELECTRON with
      | .error e => .error e
      | .ok me =>
        match Mass.atomicMassPid D.mass (k.final c.pdg) true with
        | .error e => .error e
        | .ok none => .error .ub
        | .ok (some mAtom) =>
          let mf := mAtom - qf * me + Exf
          let ct := Sampling.uniform A E (-1) 1 true g
          let phi := Sampling.uniform A E 0 (2 * Real.pi) false ct.2
          match Kin.twoBodyDecay nucleus ⟨k.emitted, 0, 0, 0, 0, m, q⟩
              ⟨k.final c.pdg, mf, 0, 0, 0, mf, qf⟩ ct.1 phi.1 with
          | .error e => .error e
          | .ok p => .ok (p, phi.2)

/-- `sample_Exf` (src/ExitChannel.cc:421-445); the number of points is
include/marley/ChebyshevInterpolatingFunction.hh:26, the tolerance
include/marley/Generator.hh:101.  Between the bounds the interpolant always has a
value. -/
noncomputable def sampleExf (A : Arith) (E : Engine G) (fuel : Nat) (D : Data) (c : Parent) (k : Kind)
    (g : G) : Option (Res (ℝ × G)) :=
  match k.bounds D c with
  | .error e => some (.error e)
  | .ok (Emin, Emax) =>
    match Cheb.make (fun x => (k.diff D c x).map (·.1)) Emin Emax 64 with
    | .error e => some (.error e)
    | .ok pdf =>
      (Sampling.inverseTransform A E fuel (fun x => (pdf.cdf.evaluate x).getD 0) Emin Emax 1e-12 g).map
        .ok

/-- `sample_spin_parity` (src/ExitChannel.cc:465-498). -/
noncomputable def sampleSpinParity (E : Engine G) (D : Data) (c : Parent) (k : Kind) (Exf : ℝ) (g : G) :
    Res ((Int × Parity) × G) :=
  match k.diff D c Exf with
  | .error e => .error e
  | .ok a =>
    if a.1 ≤ 0 then .error .marleyError
    else
      match Sampling.pickFrom E (a.2.map (·.width)) g with
      | .error e => .error e
      | .ok (i, g) =>
        match a.2[i]? with
        | none => .error .outOfRange
        | some x => .ok ((x.twoJf, x.Pf), g)

/-- What a decay leaves: energy, spin and parity of the final nucleus, the emitted
particle and the nucleus. See src/ExitChannel.cc:368-378. -/
structure Product where
  Ex : ℝ
  twoJ : Int
  P : Parity
  emitted : Particle ℝ
  nucleus : Particle ℝ

/-- `do_decay` of a channel to a level (src/ExitChannel.cc:368-378). -/
noncomputable def levelDecay (A : Arith) (E : Engine G) (D : Data) (c : Parent) (k : Kind)
    (nucleus : Particle ℝ) (lev : Level ℝ) (g : G) : Res (Product × G) :=
  match prepareProducts A E D c k nucleus lev.energy g with
  | .error e => .error e
  | .ok (p, g) => .ok (⟨lev.energy, lev.twoJ, lev.parity, p.1, p.2⟩, g)

/-- `do_decay` of a channel to the continuum (src/ExitChannel.cc:447-463). -/
noncomputable def contDecay (A : Arith) (E : Engine G) (fuel : Nat) (D : Data) (c : Parent) (k : Kind)
    (nucleus : Particle ℝ) (g : G) : Option (Res (Product × G)) :=
  match sampleExf A E fuel D c k g with
  | none => none
  | some (.error e) => some (.error e)
  | some (.ok (Exf, g)) =>
    match sampleSpinParity E D c k Exf g with
    | .error e => some (.error e)
    | .ok (jp, g) =>
      match prepareProducts A E D c k nucleus Exf g with
      | .error e => some (.error e)
      | .ok (p, g) => some (.ok (⟨Exf, jp.1, jp.2, p.1, p.2⟩, g))

/-- `do_decay` of a channel (src/ExitChannel.cc:368-378, 447-463). -/
noncomputable def Kind.decay (A : Arith) (E : Engine G) (fuel : Nat) (D : Data) (c : Parent)
    (nucleus : Particle ℝ) (k : Kind) (g : G) : Option (Res (Product × G)) :=
  match k with
  | .fragLevel _ lev | .gamLevel lev => some (levelDecay A E D c k nucleus lev g)
  | .fragCont _ _ | .gamCont _ => contDecay A E fuel D c k nucleus g

/-- A Hauser-Feshbach decay (src/HauserFeshbachDecay.cc:25-31, 193-204): the products,
and whether the final nucleus is in the continuum. -/
noncomputable def hfDecay (A : Arith) (E : Engine G) (fuel : Nat) (D : Data) (nucleus : Particle ℝ)
    (Ex : ℝ) (twoJ : Int) (P : Parity) (g : G) : Option (Res ((Product × Bool) × G)) :=
  match build D nucleus Ex twoJ P with
  | .error e => some (.error e)
  | .ok s =>
    match sampleExit E s g with
    | .error e => some (.error e)
    | .ok (x, g) =>
      match x.kind.decay A E fuel D (parent D nucleus Ex twoJ P) nucleus g with
      | none => none
      | some (.error e) => some (.error e)
      | some (.ok (p, g)) => some (.ok ((p, x.kind.continuum), g))

/-! ## Events -/

/-- `do_cascade` (src/DecayScheme.cc:71-141) from the level at address `a`, with its own
random numbers: the event as it is left, and the engine or the exception.
`sample_gamma` is src/Level.cc:29-40.  `none`: more than `n` gammas. -/
noncomputable def cascade (A : Arith) (E : Engine G) (D : Data) (s : Scheme ℝ) (q : Int) :
    Nat → Nat → Event ℝ → G → Option (Event ℝ × Res G)
  | 0, _, _, _ => none
  | n + 1, a, ev, g =>
    match levelAt s a with
    | none => some (ev, .error .ub)
    | some l =>
      if l.gammas = [] then some (ev, .ok g)
      else
        match Sampling.pickFrom E (l.gammas.map (·.ri)) g with
        | .error e => some (ev, .error e)
        | .ok (i, g) =>
          match l.gammas[i]? with
          | none => some (ev, .error .ub)
          | some gam =>
            match gam.dest with
            | none => some (ev, .error .marleyError)
            | some b =>
              match levelAt s b with
              | none => some (ev, .error .ub)
              | some lf =>
                match Mass.atomicMassPid D.mass (Pdg.nucleusPid s.Z s.A) true with
                | .error e => some (ev, .error e)
                | .ok none => some (ev, .error .ub)
                | .ok (some mAtom) =>
                  match Mass.particleMass D.mass Mass.ELECTRON with
                  | .error e => some (ev, .error e)
                  | .ok me =>
                    let m := mAtom + lf.energy - q * me
                    let ct := Sampling.uniform A E (-1) 1 true g
                    let phi := Sampling.uniform A E 0 (2 * Real.pi) false ct.2
                    match ev.final[1]? with
                    | none => some (ev, .error .outOfRange)
                    | some residue =>
                      match Kin.twoBodyDecay residue ⟨22, 0, 0, 0, 0, 0, 0⟩
                          ⟨Pdg.nucleusPid s.Z s.A, m, 0, 0, 0, m, q⟩ ct.1 phi.1 with
                      | .error e => some (ev, .error e)
                      | .ok (gamma, nucleus) =>
                        cascade A E D s q n b (Scheme.emit ev nucleus gamma) phi.2

/-- `CONTINUUM_GS_CUTOFF` (src/NucleusDecayer.cc:39). -/
noncomputable def cutoff : ℝ := 0.001

/-- `EX_TOLERANCE` (src/NucleusDecayer.cc:43). -/
noncomputable def tolerance : ℝ := 1e-5

/-- The loop of decays (src/NucleusDecayer.cc:138-154): the event as it is left, and
the values of `continuum`, `Ex` and the engine, or the exception.  The spin and
parity are not used afterwards. -/
noncomputable def hfLoop (A : Arith) (E : Engine G) (fuel : Nat) (D : Data) :
    Nat → Bool → ℝ → Int → Parity → Event ℝ → G → Option (Event ℝ × Res ((Bool × ℝ) × G))
  | 0, _, _, _, _, _, _ => none
  | n + 1, continuum, Ex, twoJ, P, ev, g =>
    if continuum = true ∧ Ex > cutoff then
      match ev.final[1]? with
      | none => some (ev, .error .outOfRange)
      | some residue =>
        match hfDecay A E fuel D residue Ex twoJ P g with
        | none => none
        | some (.error e) => some (ev, .error e)
        | some (.ok ((p, continuum), g)) =>
          hfLoop A E fuel D n continuum p.Ex p.twoJ p.P (Scheme.emit ev p.nucleus p.emitted) g
    else some (ev, .ok ((continuum, Ex), g))

/-- The gamma cascade at the end (src/NucleusDecayer.cc:157-188).  A null pointer to the
decay scheme is dereferenced. -/
noncomputable def finishGammas (A : Arith) (E : Engine G) (fuel : Nat) (D : Data) (started : Bool)
    (Ex : ℝ) (ev : Event ℝ) (g : G) : Option (Event ℝ × Res G) :=
  match ev.final[1]? with
  | none => some (ev, .error .outOfRange)
  | some residue =>
    match D.scheme residue.pdg with
    | .error e => some (ev, .error e)
    | .ok none => some (ev, .error .ub)
    | .ok (some s) =>
      match closestLevel s Ex with
      | .error e => some (ev, .error e)
      | .ok none => some (ev, .error .marleyError)
      | .ok (some a) =>
        match levelAt s a with
        | none => some (ev, .error .ub)
        | some lev =>
          if started = false ∧ |Ex - lev.energy| > tolerance then some (ev, .error .marleyError)
          else cascade A E D s residue.charge fuel a ev g

/-- The cascade of a nucleus that was found in its initial state
(src/NucleusDecayer.cc:107-188). -/
noncomputable def deexcite (A : Arith) (E : Engine G) (fuel : Nat) (D : Data) (pdg : Int)
    (ev : Event ℝ) (g : G) : Option (Event ℝ × Res G) :=
  match D.scheme pdg with
  | .error e => some (ev, .error e)
  | .ok ds =>
    match Mass.unboundThresholdPid D.mass (D.frags.map (·.pid)) pdg with
    | .error e => some (ev, .error e)
    | .ok threshold =>
      let started := decide (ev.Ex > threshold) || ds.isNone
      match hfLoop A E fuel D fuel started ev.Ex ev.twoJ ev.parity ev g with
      | none => none
      | some (ev, .error e) => some (ev, .error e)
      | some (ev, .ok ((continuum, Ex), g)) =>
        if continuum = false then finishGammas A E fuel D started Ex ev g
        else some (ev, .ok g)

/-- `NucleusDecayer::process_event` (src/NucleusDecayer.cc:46-190): the event as it is
left, and the engine or the exception.  A ground-state mass that is not a number
makes both comparisons false; the model answers `.ub`. -/
noncomputable def process (A : Arith) (E : Engine G) (fuel : Nat) (D : Data) (ev : Event ℝ) (g : G) :
    Option (Event ℝ × Res G) :=
  if ev.Ex = 0 then some (ev, .ok g)
  else if ev.Ex < 0 then some (ev, .error .marleyError)
  else
    match ev.final[1]? with
    | none => some (ev, .error .outOfRange)
    | some residue =>
      if Pdg.isIon residue.pdg = false then some (ev, .ok g)
      else
        match Mass.atomicMassPid D.mass residue.pdg true with
        | .error e => some (ev, .error e)
        | .ok none => some (ev, .error .ub)
        | .ok (some mAtom) =>
          match Mass.particleMass D.mass Mass.ELECTRON with
          | .error e => some (ev, .error e)
          | .ok me =>
            let gs := mAtom - residue.charge * me
            let expected := gs + ev.Ex
            if |residue.mass - expected| > tolerance then
              if |residue.mass - gs| ≤ tolerance then some (ev, .ok g)
              else some (ev, .error .marleyError)
            else deexcite A E fuel D residue.pdg ev g

/-- The decayer as the generator uses it (src/Generator.cc:78-82). -/
noncomputable def decayer (A : Arith) (E : Engine G) (fuel : Nat) (D : Data) (ev : Event ℝ) (g : G) :
    Option (Res (Event ℝ × G)) :=
  (process A E fuel D ev g).map (fun x => x.2.map (x.1, ·))

end Marley.Decay
