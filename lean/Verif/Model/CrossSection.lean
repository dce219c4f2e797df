import Verif.Model.Val
import Verif.Model.Reaction
import Verif.Model.Kinematics
import Verif.Model.Generator

/-!
# Cross sections and events of nuclear reactions and of scattering on electrons
(src/NuclearReaction.cc, src/ElectronReaction.cc, include/marley/MatrixElement.hh)

Finite doubles are real numbers.  In the partial cross sections of nuclear
reactions infinities and NaN are followed (`Val`), because the code tests for
them.
-/

set_option autoImplicit false

namespace Marley.Xs
open Marley Marley.Reaction Marley.Sampling Marley.Kin
open Marley.Utils (CoulombMode realSqrt fdiv)

variable {G : Type}

/-- `GF` and `GF2` (include/marley/marley_utils.hh:62, 64). -/
noncomputable def GF : ℝ := 1.16637e-11

/-- `Vud` (include/marley/marley_utils.hh:68); `Vud2` (70) is its square. -/
noncomputable def Vud : ℝ := 0.97427

/-- `alpha` (include/marley/marley_utils.hh:109). -/
noncomputable def alpha : ℝ := 7.2973525698e-3

/-- `hbar_c` (include/marley/marley_utils.hh:111). -/
noncomputable def hbarC : ℝ := 197.3269718

/-- `r0` (include/marley/marley_utils.hh:124). -/
noncomputable def r0 : ℝ := 1.2

/-- A nuclear reaction with its Coulomb mode (include/marley/NuclearReaction.hh:239)
whose masses are numbers. -/
structure Nuc where
  proc : Proc
  pdgA : Int
  pdgB : Int
  pdgC : Int
  pdgD : Int
  qD : Int
  Zi : Int
  Ai : Int
  Zf : Int
  Af : Int
  ma : ℝ
  mb : ℝ
  mc : ℝ
  /-- the mass of the residue in its ground state -/
  md : ℝ
  elements : List MatEl
  mode : CoulombMode

/-- The reaction built by the constructor (src/NuclearReaction.cc:65-114) with a
Coulomb mode; `none` if a mass is not a number (what follows from that is not
modelled). -/
def Nuc.of (r : Nuclear) (mode : CoulombMode) : Option Nuc :=
  match r.mb, r.md with
  | some mb, some md => some ⟨r.proc, r.pdgA, r.pdgB, r.pdgC, r.pdgD, r.qD, r.Zi, r.Ai, r.Zf, r.Af,
      r.ma, mb, r.mc, md, r.elements, mode⟩
  | _, _ => none

/-- The particles of the scattering with the residue in a level (`md_`,
src/NuclearReaction.cc:256). -/
def Nuc.masses (n : Nuc) (Elevel : ℝ) : Masses :=
  ⟨n.pdgA, n.pdgB, n.pdgC, n.pdgD, n.ma, n.mb, n.mc, n.md + Elevel⟩

/-- What surrounds a reaction: the random engine, the Fermi function
(src/NuclearReaction.cc:122-150, any function of the relative speed), the
ground-state spins and parities and the level densities of the structure database. -/
structure Env (G : Type) where
  arith : Arith
  engine : Engine G
  fuel : Nat
  fermi : Nuc → Val → Val
  gs : Int → Res (Int × Parity)
  density : Int → Res (ℝ → Int → Parity → ℝ)

/-! ## Coulomb corrections -/

/-- `nuclear_radius_natural_units` (src/NuclearReaction.cc:53-61). -/
noncomputable def radius (A : Int) : Val :=
  if A < 0 then .nan else .num (r0 * (A : ℝ) ^ (1 / 3 : ℝ) / hbarC)

/-- `ema_factor` (src/NuclearReaction.cc:650-706): the factor and `ok`. -/
noncomputable def emaFactor (n : Nuc) (beta : Val) (modified : Bool) : Val × Bool :=
  let R := radius n.Af
  let V := Val.num (-3 * n.Zf * alpha) / (Val.num 2 * R)
  let Vc := if n.pdgC > 0 then V else -V
  let gamma := (Val.num 1 - beta.sq).rsqrt
  let E := gamma * Val.num n.mc
  let p := beta * E
  let Eeff := E - Vc
  let ok := (Val.num n.mc).le Eeff
  let peff := (Eeff.sq - Val.num (n.mc * n.mc)).realSqrt
  let ema := (peff / p).sq
  let mema := (peff * Eeff) / (p * E)
  (if modified then mema else ema, ok)

/-- `coulomb_correction_factor` (src/NuclearReaction.cc:592-647). -/
noncomputable def coulomb (fermi : Nuc → Val → Val) (n : Nuc) (beta : Val) : Res Val :=
  match n.mode with
  | .noCorrection => .ok (.num 1)
  | .fermiFunction => .ok (fermi n beta)
  | .ema =>
    let e := emaFactor n beta false
    if e.2 then .ok e.1 else .error .marleyError
  | .mema =>
    let e := emaFactor n beta true
    if e.2 then .ok e.1 else .error .marleyError
  | .fermiAndEma =>
    let e := emaFactor n beta false
    if e.2 = false then .ok (fermi n beta)
    else if (fermi n beta - .num 1).abs.lt (e.1 - .num 1).abs then .ok (fermi n beta) else .ok e.1
  | .fermiAndMema =>
    let e := emaFactor n beta true
    if e.2 = false then .ok (fermi n beta)
    else if (fermi n beta - .num 1).abs.lt (e.1 - .num 1).abs then .ok (fermi n beta) else .ok e.1

/-- `weak_nuclear_charge` (src/NuclearReaction.cc:711-716). -/
noncomputable def weakCharge (n : Nuc) : ℝ := (n.Ai - n.Zi : Int) - (1 - 4 * sin2thetaw) * n.Zi

/-! ## Nuclear cross sections -/

/-- `max_level_energy` (src/NuclearReaction.cc:157-167), see `Kin.maxLevelEnergy`. -/
noncomputable def Nuc.maxLevel (n : Nuc) (KEa : ℝ) : Val :=
  (Val.num ((n.ma + n.mb) ^ 2 + 2 * n.mb * KEa)).sqrt - .num n.mc - .num n.md

/-- `total_xs` for one matrix element without the checks at its beginning
(src/NuclearReaction.cc:490-544): the cross section and the speed of the ejectile. -/
noncomputable def levelXs (fermi : Nuc → Val → Val) (n : Nuc) (m : MatEl) (KEa : ℝ) :
    Res (Val × Val) :=
  let md2 := (n.md + m.levelEnergy) ^ 2
  let s := (n.ma + n.mb) ^ 2 + 2 * n.mb * KEa
  let rs := (Val.num s).sqrt
  let Eb := Val.num (s + n.mb * n.mb - n.ma * n.ma) / (.num 2 * rs)
  let Ec := Val.num (s + n.mc * n.mc - md2) / (.num 2 * rs)
  let pc := (Ec.sq - .num (n.mc * n.mc)).realSqrt
  let beta := pc / Ec
  let Ed := rs - Ec
  let dot := Ed * Ec + pc.sq
  let rel := (dot.sq - .num (n.mc * n.mc * md2)).realSqrt / dot
  let xs := Val.num (GF * GF / Real.pi) * (Eb * Ed / .num s) * Ec * pc * .num m.strength
  match n.proc with
  | .neutrinoCC | .antiNeutrinoCC =>
    match coulomb fermi n rel with
    | .error e => .error e
    | .ok f => .ok (xs * (.num (Vud * Vud) * f), beta)
  | .nc =>
    if m.type = 0 then .ok (xs * .num (0.25 * weakCharge n ^ 2), beta) else .ok (xs, beta)
  | _ => .error .marleyError

/-- `total_xs` for one matrix element with the check of the level energy
(src/NuclearReaction.cc:474-545).  The speed is `none` where the code does not set
it. -/
noncomputable def transitionXs (fermi : Nuc → Val → Val) (n : Nuc) (m : MatEl) (KEa : ℝ) :
    Res (Val × Option Val) :=
  if m.strength = 0 then .ok (.num 0, none)
  else if (n.maxLevel KEa).lt (.num m.levelEnergy) then .ok (.num 0, none)
  else
    match levelXs fermi n m KEa with
    | .error e => .error e
    | .ok (x, b) => .ok (x, some b)

/-- `cos_theta_pdf` (include/marley/MatrixElement.hh:141-156). -/
noncomputable def cosPdf (m : MatEl) (c : ℝ) (beta : Val) : Res Val :=
  if m.type = 0 then .ok ((.num 1 + beta * .num c) * .num 0.5)
  else if m.type = 1 then .ok ((.num 3 - beta * .num c) / .num 3 * .num 0.5)
  else .error .marleyError

/-- `diff_xs` for one matrix element (src/NuclearReaction.cc:387-396).  Where
`total_xs` does not set the speed an uninitialised variable is read. -/
noncomputable def transitionDiff (fermi : Nuc → Val → Val) (n : Nuc) (m : MatEl) (KEa c : ℝ) :
    Res Val :=
  if |c| > 1 then .ok (.num 0)
  else
    match transitionXs fermi n m KEa with
    | .error e => .error e
    | .ok (_, none) => .error .ub
    | .ok (x, some b) =>
      match cosPdf m c b with
      | .error e => .error e
      | .ok d => .ok (x * d)

/-- What is added for one level (src/NuclearReaction.cc:441-465): NaN counts as zero.
An infinite value is not followed further. -/
def counted : Val → Res ℝ
  | .num x => .ok x
  | .nan => .ok 0
  | .inf _ => .error .ub

/-- The loop of `summed_xs_helper` (src/NuclearReaction.cc:422-467): the partial cross
sections that are added, in the order in which they are stored.  `c` is the cosine if
the differential cross section is wanted. -/
noncomputable def partials (fermi : Nuc → Val → Val) (n : Nuc) (KEa : ℝ) (c : Option ℝ) :
    List MatEl → Res (List ℝ)
  | [] => .ok []
  | m :: ms =>
    if (n.maxLevel KEa).lt (.num m.levelEnergy) then .ok []
    else if m.strength = 0 then partials fermi n KEa c ms
    else
      match levelXs fermi n m KEa with
      | .error e => .error e
      | .ok (x, b) =>
        match (match c with
            | none => .ok x
            | some c => match cosPdf m c b with
              | .error e => .error e
              | .ok d => .ok (x * d) : Res Val) with
        | .error e => .error e
        | .ok v => match counted v with
          | .error e => .error e
          | .ok y => match partials fermi n KEa c ms with
            | .error e => .error e
            | .ok l => .ok (y :: l)

/-- `summed_xs_helper` (src/NuclearReaction.cc:399-470): the sum, and the list of
partial cross sections (empty on the early returns when the caller gives an empty
list, as `create_event` does). -/
noncomputable def summed (fermi : Nuc → Val → Val) (n : Nuc) (pdg : Int) (KEa : ℝ) (c : Option ℝ) :
    Res (ℝ × List ℝ) :=
  if pdg ≠ n.pdgA then .ok (0, [])
  else if (match c with | some c => decide (|c| > 1) | none => false) then .ok (0, [])
  else if KEa ≤ 0 then .ok (0, [])
  else
    match partials fermi n KEa c n.elements with
    | .error e => .error e
    | .ok l => .ok (l.sum, l)

/-- `total_xs` (src/NuclearReaction.cc:370-373). -/
noncomputable def Nuc.totalXs (fermi : Nuc → Val → Val) (n : Nuc) (pdg : Int) (KEa : ℝ) : Res ℝ :=
  (summed fermi n pdg KEa none).map (·.1)

/-- `diff_xs` (src/NuclearReaction.cc:378-382). -/
noncomputable def Nuc.diffXs (fermi : Nuc → Val → Val) (n : Nuc) (pdg : Int) (KEa c : ℝ) : Res ℝ :=
  (summed fermi n pdg KEa (some c)).map (·.1)

/-! ## Nuclear events -/

/-- The density of the cosine for a speed that is a number, as used while
sampling. Used at src/NuclearReaction.cc:552-574. -/
noncomputable def cosDensity (m : MatEl) (c beta : ℝ) : Res ℝ :=
  match cosPdf m c (.num beta) with
  | .error e => .error e
  | .ok (.num x) => .ok x
  | .ok _ => .error .ub

/-- The maximum given to the rejection sampling (src/NuclearReaction.cc:552-566). -/
noncomputable def cosMax (m : MatEl) (beta : ℝ) : Res ℝ :=
  if m.type = 0 then cosDensity m 1 beta
  else if m.type = 1 then cosDensity m (-1) beta
  else .error .marleyError

/-- `sample_cos_theta_c_cm` (src/NuclearReaction.cc:548-574). -/
noncomputable def sampleCos (E : Env G) (m : MatEl) (beta : ℝ) (g : G) : Option (Res (ℝ × G)) :=
  match cosMax m beta with
  | .error e => some (.error e)
  | .ok max =>
    match rejectionSample E.arith E.engine E.fuel
        (fun c (_ : Unit) => (cosDensity m c beta).map (·, ())) (-1) 1 (some max) 1.01 1e-8 g () with
    | none => none
    | some (.error e) => some (.error e)
    | some (.ok r) => some (.ok (r.x, r.gen))

/-- The spins that a Gamow-Teller transition can lead to (src/NuclearReaction.cc:328,
332-336): the values of the loop variable from `|twoJ_gs - 2|` to `twoJ_gs + 2` in
steps of two. -/
def gtSpins (twoJ : Int) : List Int :=
  let lo : Int := (twoJ - 2).natAbs
  (List.range ((twoJ + 2 - lo) / 2 + 1).toNat).map (fun (k : Nat) => lo + 2 * k)

/-- The spin and parity of the residue (src/NuclearReaction.cc:291-349), given those of
the ground state of the target. -/
noncomputable def spinParity (E : Env G) (n : Nuc) (m : MatEl) (twoJgs : Int) (Pgs : Parity) (g : G) :
    Res (Int × Parity × G) :=
  match m.level with
  | some l => .ok (l.2.twoJ, l.2.parity, g)
  | none =>
    if m.type = 0 then .ok (twoJgs, Pgs, g)
    else if m.type = 1 then
      if twoJgs = 0 then .ok (2, Pgs, g)
      else
        match E.density n.pdgD with
        | .error e => .error e
        | .ok rho =>
          match pickFrom E.engine ((gtSpins twoJgs).map (fun J => rho m.levelEnergy J Pgs)) g with
          | .error e => .error e
          | .ok (i, g) => match (gtSpins twoJgs)[i]? with
            | none => .error .outOfRange
            | some J => .ok (J, Pgs, g)
    else .error .marleyError

/-- The charges set by `make_event_object` (src/NuclearReaction.cc:576-590). -/
def setCharges (n : Nuc) (ev : Event ℝ) : Res (Event ℝ) :=
  match Event.setChargeAt ev.initial 1 0 with
  | .error e => .error e
  | .ok ini => match Event.setChargeAt ev.final 1 n.qD with
    | .error e => .error e
    | .ok fin => .ok { ev with initial := ini, final := fin }

/-- Choosing a matrix element (src/NuclearReaction.cc:180-249). -/
noncomputable def Nuc.choose (E : Env G) (n : Nuc) (pdg : Int) (KEa : ℝ) (g : G) : Res (MatEl × G) :=
  if pdg ≠ n.pdgA then .error .marleyError
  else if KEa < threshold (n.masses 0) then .error .rangeError
  else
    match summed E.fermi n pdg KEa none with
    | .error e => .error e
    | .ok (sum, weights) =>
      if weights.isEmpty then .error .marleyError
      else if sum ≤ 0 then .error .marleyError
      else
        match pickFrom E.engine weights g with
        | .error e => .error e
        | .ok (i, g) => match n.elements[i]? with
          | none => .error .outOfRange
          | some m => .ok (m, g)

/-- `create_event` (src/NuclearReaction.cc:175-366).  A speed that is not a number is
not followed further. -/
noncomputable def Nuc.createEvent (E : Env G) (n : Nuc) (pdg : Int) (KEa : ℝ) (g : G) :
    Option (Res (Event ℝ × G)) :=
  match n.choose E pdg KEa g with
  | .error e => some (.error e)
  | .ok (m, g) =>
    let r := n.masses m.levelEnergy
    let sc := twoTwoScatter r KEa
    match fdiv sc.pc sc.Ec with
    | none => some (.error .ub)
    | some beta =>
      match sampleCos E m beta g with
      | none => none
      | some (.error e) => some (.error e)
      | some (.ok (c, g)) =>
        let phi := uniform E.arith E.engine 0 (2 * Real.pi) false g
        match E.gs n.pdgB with
        | .error e => some (.error e)
        | .ok (twoJgs, Pgs) =>
          match spinParity E n m twoJgs Pgs phi.2 with
          | .error e => some (.error e)
          | .ok (twoJ, P, g) =>
            match makeEvent r KEa sc c phi.1 m.levelEnergy twoJ P with
            | .error e => some (.error e)
            | .ok ev => match setCharges n ev with
              | .error e => some (.error e)
              | .ok ev => some (.ok (ev, g))

/-- The reaction as the generator sees it. See src/NuclearReaction.cc:175-373. -/
noncomputable def Nuc.rx (E : Env G) (n : Nuc) : Gen.Rx G :=
  ⟨n.pdgA, n.pdgB, n.totalXs E.fermi, n.createEvent E⟩

/-! ## Scattering on electrons -/

/-- The particles of the scattering (src/ElectronReaction.cc:34-37). -/
def elMasses (r : Electron) : Masses := ⟨r.pdgA, 11, r.pdgC, 11, r.ma, r.mb, r.mc, r.md⟩

/-- Mandelstam s (src/ElectronReaction.cc:96, 127). -/
noncomputable def elS (r : Electron) (KEa : ℝ) : ℝ := (r.ma + r.mb) ^ 2 + 2 * r.mb * KEa

/-- Energy of the ejectile (src/ElectronReaction.cc:99, 130); `√s` is divided by. -/
noncomputable def elEc (r : Electron) (KEa : ℝ) : ℝ :=
  (elS r KEa + r.mc * r.mc - r.md * r.md) / (2 * Real.sqrt (elS r KEa))

/-- `total_xs` (src/ElectronReaction.cc:86-115); `s` is divided by. -/
noncomputable def elTotal (r : Electron) (pdg : Int) (KEa : ℝ) : ℝ :=
  if pdg ≠ r.pdgA then 0
  else if KEa < threshold (elMasses r) then 0
  else
    let q := r.md * r.md / elS r KEa
    let t := r.g2 * r.g2 / 3
    4 / Real.pi * (GF * elEc r KEa) ^ 2 * (r.g1 ^ 2 + (t - r.g1 * r.g2) * q + t * (1 + q ^ 2))
      * Pdg.getZ r.atom

/-- `diff_xs` (src/ElectronReaction.cc:117-149). -/
noncomputable def elDiff (r : Electron) (pdg : Int) (KEa c : ℝ) : ℝ :=
  if pdg ≠ r.pdgA then 0
  else if KEa < threshold (elMasses r) then 0
  else
    let q := r.md * r.md / elS r KEa
    let terms := r.g1 ^ 2 + r.g1 * r.g2 * q * (c - 1)
      + (r.g2 * (1 + 1 / 2 * (1 - q) * (c - 1))) ^ 2
    2 / Real.pi * (GF * elEc r KEa) ^ 2 * terms * Pdg.getZ r.atom

/-- `std::numeric_limits<double>::lowest()`. Used at src/ElectronReaction.cc:189. -/
noncomputable def lowest : ℝ := -((2 - 2 ^ (-52 : ℤ)) * 2 ^ (1023 : ℤ))

/-- The bound for rejection sampling (src/ElectronReaction.cc:179-200); `s` is that of
`two_two_scatter`.  A quotient that is not a number is outside of the range. -/
noncomputable def elBound (r : Electron) (pdg : Int) (KEa s : ℝ) : ℝ :=
  let q := r.md * r.md / s
  let B := 1 / 2 * (r.g2 * (1 - q)) ^ 2
  let A := r.g1 * r.g2 * q + r.g2 * r.g2 * (1 - q) - B
  let atCth := match fdiv (-A) B with
    | none => lowest
    | some cth => if -1 ≤ cth ∧ cth ≤ 1 then elDiff r pdg KEa cth else lowest
  max (max (elDiff r pdg KEa (-1)) (elDiff r pdg KEa 1)) atCth

/-- `create_event` (src/ElectronReaction.cc:153-216). -/
noncomputable def elCreate (E : Env G) (r : Electron) (pdg : Int) (KEa : ℝ) (g : G) :
    Option (Res (Event ℝ × G)) :=
  if pdg ≠ r.pdgA then some (.error .marleyError)
  else if KEa < threshold (elMasses r) then some (.error .marleyError)
  else
    let sc := twoTwoScatter (elMasses r) KEa
    match rejectionSample E.arith E.engine E.fuel
        (fun c (_ : Unit) => .ok (elDiff r pdg KEa c, ())) (-1) 1 (some (elBound r pdg KEa sc.s))
        1.01 1e-8 g () with
    | none => none
    | some (.error e) => some (.error e)
    | some (.ok x) =>
      let phi := uniform E.arith E.engine 0 (2 * Real.pi) false x.gen
      match makeEvent (elMasses r) KEa sc x.x phi.1 0 1 ⟨true⟩ with
      | .error e => some (.error e)
      | .ok ev => some (.ok (ev, phi.2))

/-- The reaction as the generator sees it. See src/ElectronReaction.cc:86-216. -/
noncomputable def elRx (E : Env G) (r : Electron) : Gen.Rx G :=
  ⟨r.pdgA, r.atom, fun pdg KEa => .ok (elTotal r pdg KEa), elCreate E r⟩

end Marley.Xs
