import Verif.Model.Kinematics

/-!
# Rotation matrices and the projectile-direction rotator
(src/RotationMatrix.cc, src/ProjectileDirectionRotator.cc)

Doubles are exact real numbers.
-/

set_option autoImplicit false

namespace Marley.Rot
open Marley Marley.Kin
open Marley.Utils (realSqrt)

/-- `ThreeVector` = `std::array<double, 3>` (src/RotationMatrix.cc:24). -/
@[ext] structure V3 where
  x : ℝ
  y : ℝ
  z : ℝ

/-- `cross_product` (src/RotationMatrix.cc:30-36). -/
noncomputable def cross (v w : V3) : V3 :=
  ⟨v.y * w.z - v.z * w.y, v.z * w.x - v.x * w.z, v.x * w.y - v.y * w.x⟩

/-- `dot_product` (src/RotationMatrix.cc:39-43). -/
noncomputable def dot (v w : V3) : ℝ := v.x * w.x + v.y * w.y + v.z * w.z

/-- `subtract` (src/RotationMatrix.cc:46-52). -/
noncomputable def sub (v w : V3) : V3 := ⟨v.x - w.x, v.y - w.y, v.z - w.z⟩

/-- The member `matrix_`, by rows (include/marley/RotationMatrix.hh:58). -/
structure Mat where
  r0 : V3
  r1 : V3
  r2 : V3

/-- Default constructor (src/RotationMatrix.cc:56-58). -/
noncomputable def identity : Mat := ⟨⟨1, 0, 0⟩, ⟨0, 1, 0⟩, ⟨0, 0, 1⟩⟩

/-- `normalize` (src/RotationMatrix.cc:61-73). -/
noncomputable def normalize (v : V3) : Res V3 :=
  let n := Real.sqrt (v.x ^ 2 + v.y ^ 2 + v.z ^ 2)
  if n ≤ 0 then .error .marleyError
  else
    let f := 1 / n
    .ok ⟨f * v.x, f * v.y, f * v.z⟩

/-- `rotate_copy`, `rotate_inplace` (src/RotationMatrix.cc:76-89). -/
noncomputable def rotate (m : Mat) (v : V3) : V3 := ⟨dot m.r0 v, dot m.r1 v, dot m.r2 v⟩

/-- `rotate_particle_inplace` (src/RotationMatrix.cc:92-103). -/
noncomputable def rotateParticle (m : Mat) (p : Particle ℝ) : Particle ℝ :=
  let v := rotate m ⟨p.px, p.py, p.pz⟩
  { p with px := v.x, py := v.y, pz := v.z }

/-- The standard unit vector chosen in src/RotationMatrix.cc:138-165, from the
absolute components of `from`. -/
noncomputable def axis (a : V3) : V3 :=
  if |a.x| < |a.y| then
    if |a.x| < |a.z| then ⟨1, 0, 0⟩ else ⟨0, 0, 1⟩
  else
    if |a.y| < |a.z| then ⟨0, 1, 0⟩ else ⟨0, 0, 1⟩

/-- Entry `(i, j)` of the matrix filled in src/RotationMatrix.cc:178-184, where
`ui, uj, vi, vj` are the components and `d` is 1 on the diagonal and 0
elsewhere. -/
noncomputable def nearEntry (c1 c2 c3 ui uj vi vj d : ℝ) : ℝ :=
  -c1 * ui * uj - c2 * vi * vj + c3 * vi * uj + d

/-- The branch for nearly (anti)parallel directions
(src/RotationMatrix.cc:132-185); `a`, `b` are the normalized vectors. -/
noncomputable def nearMatrix (a b : V3) : Mat :=
  let x := axis a
  let u := sub x a
  let v := sub x b
  let c1 := 2 / dot u u
  let c2 := 2 / dot v v
  let c3 := c1 * c2 * dot u v
  let e := nearEntry c1 c2 c3
  ⟨⟨e u.x u.x v.x v.x 1, e u.x u.y v.x v.y 0, e u.x u.z v.x v.z 0⟩,
   ⟨e u.y u.x v.y v.x 0, e u.y u.y v.y v.y 1, e u.y u.z v.y v.z 0⟩,
   ⟨e u.z u.x v.z v.x 0, e u.z u.y v.z v.y 0, e u.z u.z v.z v.z 1⟩⟩

/-- The generic branch (src/RotationMatrix.cc:186-212). -/
noncomputable def genericMatrix (a b : V3) : Mat :=
  let e := dot a b
  let v := cross a b
  let h := 1 / (1 + e)
  let hvx := h * v.x
  let hvz := h * v.z
  let hvxy := hvx * v.y
  let hvxz := hvx * v.z
  let hvyz := hvz * v.y
  ⟨⟨e + hvx * v.x, hvxy - v.z, hvxz + v.y⟩,
   ⟨hvxy + v.z, e + h * v.y * v.y, hvyz - v.x⟩,
   ⟨hvxz - v.y, hvyz + v.x, e + hvz * v.z⟩⟩

/-- Constructor from two vectors (src/RotationMatrix.cc:111-213). -/
noncomputable def rotationMatrix (a b : V3) : Res Mat :=
  if a.x = 0 ∧ a.y = 0 ∧ a.z = 0 then .error .marleyError
  else if b.x = 0 ∧ b.y = 0 ∧ b.z = 0 then .error .marleyError
  else
    match normalize a with
    | .error e => .error e
    | .ok a' =>
      match normalize b with
      | .error e => .error e
      | .ok b' =>
        if |dot a' b'| > 1 - 1 / 1000000 then .ok (nearMatrix a' b')
        else .ok (genericMatrix a' b')

/-! ## The projectile-direction rotator -/

/-- Data members (include/marley/ProjectileDirectionRotator.hh:61-79). -/
structure Rotator where
  dir : V3
  last : V3
  mat : Mat
  randomize : Bool

/-- State before the body of the constructor has run: the default member
initialisers (include/marley/ProjectileDirectionRotator.hh:61-79) and `dir_vec_`
from the member initialiser list. -/
noncomputable def Rotator.fresh (d : V3) : Rotator := ⟨d, ⟨0, 0, 1⟩, identity, false⟩

/-- Constructor (src/ProjectileDirectionRotator.cc:23-32). -/
noncomputable def Rotator.make (d : V3) : Res Rotator :=
  if d.x = 0 ∧ d.y = 0 ∧ d.z = 0 then .error .marleyError
  else
    match normalize d with
    | .error e => .error e
    | .ok d' => .ok { Rotator.fresh d with dir := d' }

/-- `set_projectile_direction`
(include/marley/ProjectileDirectionRotator.hh:48-51). -/
noncomputable def Rotator.setDirection (r : Rotator) (d : V3) : Res Rotator :=
  match normalize d with
  | .error e => .error e
  | .ok d' => .ok { r with dir := d', last := d' }

/-- `set_randomize_directions` (src/ProjectileDirectionRotator.cc:105-109). -/
def Rotator.setRandomize (r : Rotator) (b : Bool) : Rotator := { r with randomize := b }

/-- `sample_isotropic_direction` (src/ProjectileDirectionRotator.cc:85-103) for
the two draws. -/
noncomputable def isotropicDirection (cosTheta phi : ℝ) : V3 :=
  let s := realSqrt (1 - cosTheta ^ 2)
  ⟨s * Real.cos phi, s * Real.sin phi, cosTheta⟩

/-- `rotate_event` (src/ProjectileDirectionRotator.cc:71-83). -/
noncomputable def rotateEvent (m : Mat) (ev : Event ℝ) : Event ℝ :=
  { ev with initial := ev.initial.map (rotateParticle m), final := ev.final.map (rotateParticle m) }

open Classical in
/-- The part of `process_event` after the direction is known
(src/ProjectileDirectionRotator.cc:53-68). -/
noncomputable def Rotator.apply (r : Rotator) (pdir : V3) (ev : Event ℝ) :
    Res (Rotator × Event ℝ) :=
  if pdir = r.dir then .ok (r, ev)
  else if pdir ≠ r.last then
    match rotationMatrix pdir r.dir with
    | .error e => .error e
    | .ok m =>
      .ok ({ r with last := pdir, mat := m }, rotateEvent m ev)
  else .ok (r, rotateEvent r.mat ev)

/-- `process_event` (src/ProjectileDirectionRotator.cc:34-69); `cosTheta` and
`phi` are the draws used when random directions were requested.  If the matrix
constructor threw, `last_pdir_` would already be updated; that cannot happen
(the vectors are not null) and is not modelled. -/
noncomputable def Rotator.process (r : Rotator) (ev : Event ℝ) (cosTheta phi : ℝ) :
    Res (Rotator × Event ℝ) :=
  match ev.initial with
  | [] => .error .outOfRange
  | p :: _ =>
    let pmom := momentum p
    if pmom ≤ 0 then .ok (r, ev)
    else
      let pdir : V3 := ⟨p.px / pmom, p.py / pmom, p.pz / pmom⟩
      if r.randomize then
        match r.setDirection (isotropicDirection cosTheta phi) with
        | .error e => .error e
        | .ok r' => r'.apply pdir ev
      else r.apply pdir ev

end Marley.Rot
