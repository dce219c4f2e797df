import Verif.Model.Event
import Verif.Model.Utils
import Mathlib.Analysis.SpecialFunctions.Trigonometric.Basic

/-!
# Relativistic kinematics (src/marley_kinematics.cc, src/Reaction.cc)

Doubles are modelled by exact real numbers: rounding, overflow and NaN are not
modelled.  Where the C++ code divides by zero (giving an infinity or NaN) the
model answers `none`, or states the precondition in the comment.
`std::pow(x, 2)` is `x ^ 2`.
-/

set_option autoImplicit false

namespace Marley.Kin
open Marley Marley.Event
open Marley.Utils (realSqrt)

/-- `Particle::momentum_magnitude` (src/Particle.cc:94-97). -/
noncomputable def momentum (p : Particle ℝ) : ℝ := Real.sqrt (p.px ^ 2 + p.py ^ 2 + p.pz ^ 2)

/-- `set_total_energy`, `set_px`, `set_py`, `set_pz` in a row
(include/marley/Particle.hh:180-190). -/
def setMomentum (p : Particle ℝ) (E px py pz : ℝ) : Particle ℝ :=
  { p with E := E, px := px, py := py, pz := pz }

/-- `get_beta2` (src/marley_kinematics.cc:23-34). -/
noncomputable def beta2 (bx by' bz : ℝ) : Res ℝ :=
  let b := bx ^ 2 + by' ^ 2 + bz ^ 2
  if b = 1 then .error .marleyError
  else if b > 1 then .error .marleyError
  else .ok b

/-- `rotate_momentum_vector` (src/marley_kinematics.cc:39-58).  `none` when the
given direction is the null vector (`rp / r` is then not finite). -/
noncomputable def rotateMomentum (x y z : ℝ) (p : Particle ℝ) : Option (Particle ℝ) :=
  let r := Real.sqrt (x ^ 2 + y ^ 2 + z ^ 2)
  if r = 0 then none
  else
    let ratio := momentum p / r
    some { p with px := x * ratio, py := y * ratio, pz := z * ratio }

/-- `lorentz_boost` (src/marley_kinematics.cc:62-100). -/
noncomputable def lorentzBoost (bx by' bz : ℝ) (p : Particle ℝ) : Res (Particle ℝ) :=
  match beta2 bx by' bz with
  | .error e => .error e
  | .ok b =>
    if b = 0 then .ok p
    else
      let gamma := 1 / Real.sqrt (1 - b)
      let bdotp := bx * p.px + by' * p.py + bz * p.pz
      let factor := (gamma - 1) * bdotp / b
      let newE := gamma * (p.E - bdotp)
      .ok (setMomentum p (if newE < p.mass then p.mass else newE)
        ((-gamma * p.E + factor) * bx + p.px)
        ((-gamma * p.E + factor) * by' + p.py)
        ((-gamma * p.E + factor) * bz + p.pz))

/-- `two_body_decay` (src/marley_kinematics.cc:110-183): the two products after
the call.  The code divides by `M` and by the parent's energy, which therefore
must not be zero; the model answers `.error .ub` for those cases (the C++ code
computes with infinities or NaN). -/
noncomputable def twoBodyDecay (parent first second : Particle ℝ) (cosTheta phi : ℝ) :
    Res (Particle ℝ × Particle ℝ) :=
  let M := parent.mass
  let m1 := first.mass
  let m2 := second.mass
  if M < m1 + m2 then .error .marleyError
  else if M = 0 ∨ parent.E = 0 then .error .ub
  else
    let E1 := (M ^ 2 - m2 ^ 2 + m1 ^ 2) / (2 * M)
    let E2 := M - E1
    let E1' := if E1 < m1 then m1 else E1
    let E2' := if E2 < m2 then m2 else E2
    let p := realSqrt (E1' ^ 2 - m1 ^ 2)
    let s := realSqrt (1 - cosTheta ^ 2)
    let px := p * s * Real.cos phi
    let py := p * s * Real.sin phi
    let pz := p * cosTheta
    let bx := -parent.px / parent.E
    let by' := -parent.py / parent.E
    let bz := -parent.pz / parent.E
    match lorentzBoost bx by' bz (setMomentum first E1' px py pz) with
    | .error e => .error e
    | .ok a =>
      match lorentzBoost bx by' bz (setMomentum second E2' (-px) (-py) (-pz)) with
      | .error e => .error e
      | .ok b => .ok (a, b)

/-- `get_mandelstam_s` (src/marley_kinematics.cc:187-230).  The total energy is
divided by; `.error .ub` when it is zero (the C++ code computes with NaN). -/
noncomputable def mandelstamS (p q : Particle ℝ) : Res ℝ :=
  if p.E = p.mass then .ok (p.mass ^ 2 + q.mass ^ 2 + 2 * p.mass * q.E)
  else if q.E = q.mass then .ok (p.mass ^ 2 + q.mass ^ 2 + 2 * q.mass * p.E)
  else
    let E := p.E + q.E
    let px := p.px + q.px
    let py := p.py + q.py
    let pz := p.pz + q.pz
    let m := p.mass + q.mass
    if E = 0 then .error .ub
    else
      match beta2 (px / E) (py / E) (pz / E) with
      | .error e => .error e
      | .ok b =>
        let gamma := 1 / Real.sqrt (1 - b)
        let bdotp := px / E * px + py / E * py + pz / E * pz
        let Ecm := gamma * (E - bdotp)
        .ok ((if Ecm < m then m else Ecm) ^ 2)

/-- `boost_to_cm_frame` (src/marley_kinematics.cc:234-249); zero total energy as
for `mandelstamS`. -/
noncomputable def boostToCm (p q : Particle ℝ) : Res (Particle ℝ × Particle ℝ) :=
  let E := p.E + q.E
  let bx := (p.px + q.px) / E
  let by' := (p.py + q.py) / E
  let bz := (p.pz + q.pz) / E
  if E = 0 then .error .ub
  else
    match lorentzBoost bx by' bz p with
    | .error e => .error e
    | .ok a =>
      match lorentzBoost bx by' bz q with
      | .error e => .error e
      | .ok b => .ok (a, b)

/-! ## Two-two scattering -/

/-- The data members of `marley::Reaction` used by the kinematics
(include/marley/Reaction.hh:118-130): codes and masses of
`a + b → c + d`. -/
structure Masses where
  pdgA : Int
  pdgB : Int
  pdgC : Int
  pdgD : Int
  ma : ℝ
  mb : ℝ
  mc : ℝ
  md : ℝ

/-- Results of `two_two_scatter`. See src/Reaction.cc:197-216. -/
structure Scatter where
  s : ℝ
  Ec : ℝ
  pc : ℝ
  Ed : ℝ

/-- `Reaction::two_two_scatter` (src/Reaction.cc:197-216).  Divides by `√s`:
callers have `s > 0`. -/
noncomputable def twoTwoScatter (r : Masses) (KEa : ℝ) : Scatter :=
  let Ea := KEa + r.ma
  let s := r.ma * r.ma + r.mb * r.mb + 2 * r.mb * Ea
  let sqrtS := Real.sqrt s
  let Ec := (s + r.mc * r.mc - r.md * r.md) / (2 * sqrtS)
  { s := s, Ec := Ec, pc := realSqrt (Ec ^ 2 - r.mc * r.mc), Ed := max (sqrtS - Ec) r.md }

/-- `Reaction::make_event_object` (src/Reaction.cc:218-256).  `Ea + mb` is
divided by: callers have it positive. -/
noncomputable def makeEvent (r : Masses) (KEa : ℝ) (sc : Scatter) (cosTheta phi Elevel : ℝ)
    (twoJ : Int) (P : Parity) : Res (Event ℝ) :=
  let s := realSqrt (1 - cosTheta ^ 2)
  let px := s * Real.cos phi * sc.pc
  let py := s * Real.sin phi * sc.pc
  let pz := cosTheta * sc.pc
  let Ea := KEa + r.ma
  let pa := realSqrt (KEa * (KEa + 2 * r.ma))
  let betaZ := pa / (Ea + r.mb)
  match Particle.mk6 r.pdgA Ea 0 0 pa r.ma, Particle.mk6 r.pdgB r.mb 0 0 0 r.mb,
      Particle.mk6 r.pdgC sc.Ec px py pz r.mc, Particle.mk6 r.pdgD sc.Ed (-px) (-py) (-pz) r.md with
  | .ok projectile, .ok target, .ok ejectile, .ok residue =>
    match lorentzBoost 0 0 (-betaZ) ejectile, lorentzBoost 0 0 (-betaZ) residue with
    | .ok ejectile', .ok residue' =>
      .ok { initial := [projectile, target], final := [ejectile', residue'],
            Ex := Elevel, twoJ := twoJ, parity := P }
    | .error e, _ => .error e
    | _, .error e => .error e
  | .error e, _, _, _ => .error e
  | _, .error e, _, _ => .error e
  | _, _, .error e, _ => .error e
  | _, _, _, .error e => .error e

/-- The threshold computed by the constructors (src/NuclearReaction.cc:110-111,
src/ElectronReaction.cc:55-56), with `md` the ground-state mass of the residue;
`mb` is divided by. -/
noncomputable def threshold (r : Masses) : ℝ :=
  ((r.mc + r.md) ^ 2 - (r.ma + r.mb) ^ 2) / (2 * r.mb)

/-- `NuclearReaction::max_level_energy` (src/NuclearReaction.cc:157-167). -/
noncomputable def maxLevelEnergy (r : Masses) (KEa : ℝ) : ℝ :=
  Real.sqrt ((r.ma + r.mb) ^ 2 + 2 * r.mb * KEa) - r.mc - r.md

end Marley.Kin
