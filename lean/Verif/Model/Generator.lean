import Verif.Model.Sampling
import Verif.Model.Rotation
import Verif.Model.Target
import Mathlib.Analysis.SpecialFunctions.Trigonometric.Basic

/-!
# The generator (src/Generator.cc, src/Integrator.cc)

Reactions and the de-excitation are known by what they do: they give cross
sections and make events out of the state of the random engine.  Loops have a
bound on the number of passes, `fuel`; `none` means that the bound was too small.
When a call throws, the cached cross sections are those from before the call (the
code may have changed some of them; they are always computed anew before they are
used).
-/

set_option autoImplicit false
set_option linter.dupNamespace false

namespace Marley.Gen
open Marley Marley.Sampling
open Marley.Json (Str)
open Marley.Rot (V3 Rotator)

variable {G σ : Type}

/-! ## Numerical integration -/

/-- The weights (src/Integrator.cc:36-44). -/
noncomputable def weight (N n : Nat) : ℝ :=
  ((List.range (N + 1)).map (fun k : Nat =>
    let piece := Real.cos (n * k * Real.pi / N) / (1 - (2 * (k : ℝ)) ^ 2)
    if k ≠ 0 ∧ k ≠ N then piece * 2 else piece)).sum / N

/-- The offsets (src/Integrator.cc:28-33); `n` counts from 1. -/
noncomputable def offset (N n : Nat) : ℝ := Real.cos (n * (Real.pi / 2 / N))

/-- Weights and abscissas of `num_integrate` (src/Integrator.cc:47-64), the factor
`A` included.  The two terms that share a weight are listed separately. -/
noncomputable def nodes (N : Nat) (a b : ℝ) : List (ℝ × ℝ) :=
  let A := (b - a) / 2
  let B := (b + a) / 2
  [(A * weight N 0 / 2, a), (A * weight N 0 / 2, b), (A * weight N N, B)] ++
    (List.range (N - 1)).flatMap (fun i =>
      [(A * weight N (i + 1), B + A * offset N (i + 1)),
       (A * weight N (i + 1), B - A * offset N (i + 1))])

/-- Adding up weight times value. Used at src/Integrator.cc:47-64. -/
def weightedSum (f : ℝ → σ → Res (ℝ × σ)) : List (ℝ × ℝ) → ℝ → σ → Res (ℝ × σ)
  | [], acc, s => .ok (acc, s)
  | (w, x) :: l, acc, s =>
    match f x s with
    | .error e => .error e
    | .ok (v, s) => weightedSum f l (acc + w * v) s

/-- `marley_utils::num_integrate` (src/marley_utils.cc:253-260). -/
noncomputable def numIntegrate (f : ℝ → σ → Res (ℝ × σ)) (a b : ℝ) (s : σ) : Res (ℝ × σ) :=
  weightedSum f (nodes 50 a b) 0 s

/-! ## State -/

/-- What the generator needs of a reaction: `pdg_a()`, `atomic_target()`,
`total_xs` and `create_event` (include/marley/Reaction.hh:59-104). -/
structure Rx (G : Type) where
  pdgA : Int
  atom : Int
  totalXs : Int → ℝ → Res ℝ
  create : Int → ℝ → G → Option (Res (Event ℝ × G))

/-- What the generator needs of a neutrino source
(include/marley/NeutrinoSource.hh:49-66). -/
structure Src where
  pid : Int
  Emin : ℝ
  Emax : ℝ
  pdf : ℝ → ℝ

/-- Data members (include/marley/Generator.hh:282-357) except the structure
database.  `pdfMax`: `none` is `UNKNOWN_MAX`. -/
structure Gen (G : Type) where
  seed : Nat
  eng : G
  norm : ℝ
  source : Src
  target : Option (List (Int × ℝ))
  reactions : List (Rx G)
  values : List ℝ
  weightFlux : Bool
  pdfMax : Option ℝ
  pdfMaxDefault : Option ℝ
  frozen : Bool
  rotator : Rotator
  deexcite : Bool

/-- What surrounds the generator: arithmetic, the random engine, the bound on loops
and the de-excitation (`NucleusDecayer::process_event`). See include/marley/Generator.hh:282-357. -/
structure World (G : Type) where
  arith : Arith
  engine : Engine G
  fuel : Nat
  decay : Event ℝ → G → Option (Res (Event ℝ × G))

/-! ## Seeding -/

/-- `std::seed_seq{seed}` (src/Generator.cc:104) keeps every initialiser modulo
2^32. -/
def seedSeq (seed : Nat) : List Nat := [seed % 2 ^ 32]

/-- `reseed` (src/Generator.cc:99-108); `init` is seeding the engine with a seed
sequence. -/
def Gen.reseed (init : List Nat → G) (g : Gen G) (seed : Nat) : Gen G :=
  { g with seed := seed, eng := init (seedSeq seed) }

/-- State of `std::mt19937_64`: 312 words and a position. See include/marley/Generator.hh:286. -/
structure Mt where
  words : List Nat
  pos : Nat

/-- Numbers separated by blanks. Used at src/Generator.cc:110-114. -/
def joinNats : List Nat → Str
  | [] => []
  | [n] => Json.natText n
  | n :: l => Json.natText n ++ ' ' :: joinNats l

/-- `operator<<` of libstdc++ (bits/random.tcc), used by `get_state_string`
(src/Generator.cc:110-114): the words and then the position. -/
def Mt.save (m : Mt) : Str := joinNats (m.words ++ [m.pos])

/-- Reading one unsigned number from a stream; numbers of 2^64 and more fail. Used at src/Generator.cc:91-97. -/
def readNat64 (s : Str) : Option (Nat × Str) :=
  let t := skipBlank s
  let ds := t.takeWhile Json.isDigit
  if ds = [] then none
  else if Json.digitsVal ds < 2 ^ 64 then some (Json.digitsVal ds, t.dropWhile Json.isDigit)
  else none

/-- Reading `n` numbers. Used at src/Generator.cc:91-97. -/
def readNats : Nat → Str → Option (List Nat × Str)
  | 0, s => some ([], s)
  | n + 1, s => match readNat64 s with
    | none => none
    | some (i, s) => match readNats n s with
      | none => none
      | some (l, s) => some (i :: l, s)

/-- `operator>>` of libstdc++, used by `seed_using_state_string`
(src/Generator.cc:91-97), for a string that has all the numbers; `none` for others
(what they leave in the engine is not modelled). -/
def Mt.restore (s : Str) : Option Mt :=
  match readNats 312 s with
  | none => none
  | some (w, s) => match readNat64 s with
    | none => none
    | some (p, _) => some ⟨w, p⟩

/-- `seed_using_state_string` (src/Generator.cc:91-97); `restore` reads the engine
from text. -/
def Gen.restoreFrom (restore : Str → Option G) (g : Gen G) (s : Str) : Option (Gen G) :=
  (restore s).map (fun eng => { g with eng := eng })

/-! ## The density of reacting energies -/

/-- The total cross section of a reaction times the fraction of its atom
(src/Generator.cc:282-291; the same in `total_xs`, 652-661). -/
noncomputable def Gen.weighted (g : Gen G) (r : Rx G) (pdg : Int) (E : ℝ) : Res ℝ :=
  match r.totalXs pdg E with
  | .error e => .error e
  | .ok x => match g.target with
    | none => .ok x
    | some t => .ok (x * Target.fraction t r.atom)

/-- The loop of `E_pdf` (src/Generator.cc:275-299). -/
noncomputable def Gen.pdfLoop (g : Gen G) (E : ℝ) :
    List (Rx G) → Nat → ℝ → List ℝ → Res (ℝ × List ℝ)
  | [], _, acc, vals => .ok (acc, vals)
  | r :: rs, j, acc, vals =>
    match g.weighted r g.source.pid E with
    | .error e => .error e
    | .ok x =>
      if j < vals.length then g.pdfLoop E rs (j + 1) (acc + x) (vals.set j x)
      else .error .outOfRange

/-- `E_pdf` (src/Generator.cc:267-320); the cached cross sections are the state.
Dividing by a zero normalisation gives no number. -/
noncomputable def Gen.ePdf (g : Gen G) (E : ℝ) (vals : List ℝ) : Res (ℝ × List ℝ) :=
  match g.pdfLoop E g.reactions 0 0 vals with
  | .error e => .error e
  | .ok (pdf, vals) =>
    if g.weightFlux then
      if g.norm = 0 then .error .ub else .ok (pdf * g.source.pdf E / g.norm, vals)
    else if pdf ≤ 0 then .ok (0, vals)
    else if g.norm = 0 then .error .ub
    else .ok (g.source.pdf E / g.norm, vals)

/-- The loop of the abundance-weighted `total_xs` (src/Generator.cc:648-665). -/
noncomputable def Gen.totalLoop (g : Gen G) (pdg : Int) (KE : ℝ) : List (Rx G) → ℝ → Res ℝ
  | [], acc => .ok acc
  | r :: rs, acc =>
    match g.weighted r pdg KE with
    | .error e => .error e
    | .ok x => g.totalLoop pdg KE rs (acc + x)

/-- `total_xs(pdg_a, KEa)` (src/Generator.cc:641-668). -/
noncomputable def Gen.totalXs (g : Gen G) (pdg : Int) (KE : ℝ) : Res ℝ :=
  g.totalLoop pdg KE g.reactions 0

/-- The norm computed by `normalize_E_pdf` (src/Generator.cc:130-137, 151-157): the
density, or its integral, with the norm set to one. -/
noncomputable def Gen.newNorm (g : Gen G) : Res (ℝ × List ℝ) :=
  if g.source.Emin = g.source.Emax then { g with norm := 1 }.ePdf g.source.Emin g.values
  else numIntegrate ({ g with norm := 1 }.ePdf) g.source.Emin g.source.Emax g.values

/-- `normalize_E_pdf` (src/Generator.cc:116-166): the state afterwards, and whether it
threw. -/
noncomputable def Gen.normalize (g : Gen G) : Gen G × Res Unit :=
  if g.frozen then (g, .ok ())
  else
    let g := { g with pdfMax := g.pdfMaxDefault }
    match g.newNorm with
    | .error e => ({ g with norm := 1 }, .error e)
    | .ok (n, vals) =>
      ({ g with norm := n, values := vals }, if n ≤ 0 then .error .marleyError else .ok ())

/-! ## Configuration -/

/-- `set_source` (src/Generator.cc:388-404) with a source. -/
noncomputable def Gen.setSource (g : Gen G) (s : Src) : Gen G × Res Unit :=
  let g := { g with source := s }
  if g.reactions.isEmpty then (g, .ok ()) else g.normalize

/-- `set_target` (src/Generator.cc:538-553) with a target. -/
noncomputable def Gen.setTarget (g : Gen G) (t : List (Int × ℝ)) : Gen G × Res Unit :=
  let g := { g with target := some t }
  if g.reactions.isEmpty then (g, .ok ()) else g.normalize

/-- `add_reaction` (src/Generator.cc:406-426) with a reaction. -/
noncomputable def Gen.addReaction (g : Gen G) (r : Rx G) : Gen G × Res Unit :=
  { g with reactions := g.reactions ++ [r], values := g.values ++ [0] }.normalize

/-- `clear_reactions` (src/Generator.cc:428-434). -/
def Gen.clearReactions (g : Gen G) : Gen G × Res Unit :=
  ({ g with reactions := [], values := [], norm := 1 }, .ok ())

/-- `set_weight_flux` (src/Generator.cc:458-460). -/
def Gen.setWeightFlux (g : Gen G) (b : Bool) : Gen G × Res Unit :=
  ({ g with weightFlux := b }, .ok ())

/-- `set_neutrino_direction` (src/Generator.cc:442-456). -/
noncomputable def Gen.setDirection (g : Gen G) (d : V3) : Gen G × Res Unit :=
  match g.rotator.setDirection d with
  | .error e => (g, .error e)
  | .ok r => ({ g with rotator := r }, .ok ())

/-- A generator just constructed (src/Generator.cc:35-52 and the initialisers of
include/marley/Generator.hh:282-357).  `E_pdf_max_` has no initialiser; nothing reads
it before `normalize_E_pdf` has set it. -/
noncomputable def Gen.fresh (init : List Nat → G) (seed : Nat) (s : Src) : Gen G :=
  { seed := seed, eng := init (seedSeq seed), norm := 1, source := s, target := none,
    reactions := [], values := [], weightFlux := true, pdfMax := none, pdfMaxDefault := none,
    frozen := false, rotator := Rotator.fresh ⟨0, 0, 1⟩, deexcite := true }

/-! ## Events -/

/-- `sample_reaction` (src/Generator.cc:322-374): the index of the reaction, the
energy, and the state.  The default safety factor and tolerance are
include/marley/Generator.hh:93-94, 289.  Messages are not modelled. -/
noncomputable def Gen.sampleReaction (W : World G) (g : Gen G) : Option (Res (Nat × ℝ × Gen G)) :=
  if g.reactions.isEmpty then some (.error .marleyError)
  else
    match rejectionSample W.arith W.engine W.fuel g.ePdf g.source.Emin g.source.Emax g.pdfMax 1.01
        1e-8 g.eng g.values with
    | none => none
    | some (.error e) => some (.error e)
    | some (.ok r) =>
      match pickFrom W.engine r.st r.gen with
      | .error e => some (.error e)
      | .ok (i, eng) =>
        if i < g.reactions.length then
          some (.ok (i, r.x, { g with eng := eng, pdfMax := some r.fmax, values := r.st }))
        else some (.error .outOfRange)

/-- Numbers drawn for a random direction (src/ProjectileDirectionRotator.cc:46-49,
88-92): none if the projectile is at rest or no random directions are wanted. -/
noncomputable def direction (W : World G) (r : Rotator) (ev : Event ℝ) (eng : G) : ℝ × ℝ × G :=
  match ev.initial with
  | [] => (0, 0, eng)
  | p :: _ =>
    if Kin.momentum p ≤ 0 ∨ r.randomize = false then (0, 0, eng)
    else
      let c := uniform W.arith W.engine (-1) 1 true eng
      let phi := uniform W.arith W.engine 0 (2 * Real.pi) false c.2
      (c.1, phi.1, phi.2)

/-- De-excitation and rotation (src/Generator.cc:78-85, 621-633). -/
noncomputable def finish (W : World G) (deexcite : Bool) (r : Rotator) (ev : Event ℝ) (eng : G) :
    Option (Res (Event ℝ × Rotator × G)) :=
  match (if deexcite then W.decay ev eng else some (.ok (ev, eng)) : Option (Res (Event ℝ × G))) with
  | none => none
  | some (.error e) => some (.error e)
  | some (.ok (ev, eng)) =>
    let d := direction W r ev eng
    match r.process ev d.1 d.2.1 with
    | .error e => some (.error e)
    | .ok (r, ev) => some (.ok (ev, r, d.2.2))

/-- `create_event()` (src/Generator.cc:67-89). -/
noncomputable def Gen.createEvent (W : World G) (g : Gen G) : Option (Res (Event ℝ × Gen G)) :=
  match g.sampleReaction W with
  | none => none
  | some (.error e) => some (.error e)
  | some (.ok (i, E, g)) =>
    match g.reactions[i]? with
    | none => some (.error .outOfRange)
    | some rx =>
      match rx.create g.source.pid E g.eng with
      | none => none
      | some (.error e) => some (.error e)
      | some (.ok (ev, eng)) =>
        match finish W g.deexcite g.rotator ev eng with
        | none => none
        | some (.error e) => some (.error e)
        | some (.ok (ev, r, eng)) => some (.ok (ev, { g with eng := eng, rotator := r }))

/-- Calling `create_event()` `n` times. See src/marley.cc:470. -/
noncomputable def Gen.createEvents (W : World G) : Nat → Gen G → Option (Res (List (Event ℝ) × Gen G))
  | 0, g => some (.ok ([], g))
  | n + 1, g =>
    match g.createEvent W with
    | none => none
    | some (.error e) => some (.error e)
    | some (.ok (ev, g)) =>
      match Gen.createEvents W n g with
      | none => none
      | some (.error e) => some (.error e)
      | some (.ok (evs, g)) => some (.ok (ev :: evs, g))

/-- `total_xs` for one atom (src/Generator.cc:560-590): the sum, the indices of the
reactions that are open, and their cross sections.  `j` is the index of the first
reaction of the list. -/
noncomputable def openReactions (pdg : Int) (KE : ℝ) (atom : Int) :
    Nat → List (Rx G) → Res (ℝ × List Nat × List ℝ)
  | _, [] => .ok (0, [], [])
  | j, r :: rs =>
    if atom ≠ r.atom then openReactions pdg KE atom (j + 1) rs
    else if pdg ≠ r.pdgA then openReactions pdg KE atom (j + 1) rs
    else
      match r.totalXs pdg KE with
      | .error e => .error e
      | .ok x => match openReactions pdg KE atom (j + 1) rs with
        | .error e => .error e
        | .ok (sum, is, xs) => if x > 0 then .ok (x + sum, j :: is, x :: xs) else .ok (sum, is, xs)

/-- Choosing a reaction in `create_event(pdg_a, KEa, pdg_atom, dir)`
(src/Generator.cc:596-613). -/
noncomputable def Gen.choose (W : World G) (g : Gen G) (pdg : Int) (KE : ℝ) (atom : Int) :
    Res (Rx G × G) :=
  match openReactions pdg KE atom 0 g.reactions with
  | .error e => .error e
  | .ok (sum, is, xs) =>
    if xs.isEmpty ∨ sum ≤ 0 then .error .marleyError
    else
      match pickFrom W.engine xs g.eng with
      | .error e => .error e
      | .ok (k, eng) =>
        match is[k]? with
        | none => .error .outOfRange
        | some j => match g.reactions[j]? with
          | none => .error .outOfRange
          | some r => .ok (r, eng)

/-- `create_event(pdg_a, KEa, pdg_atom, dir)` (src/Generator.cc:593-637).  `rot` is the
static rotator. -/
noncomputable def Gen.createFixed (W : World G) (g : Gen G) (rot : Rotator) (pdg : Int) (KE : ℝ)
    (atom : Int) (dir : V3) : Option (Res (Event ℝ × Rotator × G)) :=
  match g.choose W pdg KE atom with
  | .error e => some (.error e)
  | .ok (rx, eng) =>
    match rx.create pdg KE eng with
    | none => none
    | some (.error e) => some (.error e)
    | some (.ok (ev, eng)) =>
      match (if g.deexcite then W.decay ev eng else some (.ok (ev, eng)) :
          Option (Res (Event ℝ × G))) with
      | none => none
      | some (.error e) => some (.error e)
      | some (.ok (ev, eng)) =>
        match rot.setDirection dir with
        | .error e => some (.error e)
        | .ok rot => finish W false rot ev eng

/-- `flux_averaged_total_xs` (src/Generator.cc:513-536).  A vanishing denominator
gives no number. -/
noncomputable def Gen.fluxAveraged (g : Gen G) : Option ℝ :=
  if g.weightFlux = false then some 0
  else if g.source.Emin = g.source.Emax then Utils.fdiv g.norm (g.source.pdf g.source.Emin)
  else
    match numIntegrate (fun x (_ : Unit) => .ok (g.source.pdf x, ())) g.source.Emin g.source.Emax ()
      with
    | .error _ => none
    | .ok (n, _) => Utils.fdiv g.norm n

end Marley.Gen
