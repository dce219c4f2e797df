import Verif.Model.MassTable
import Verif.Model.Utils
import Mathlib.Analysis.SpecialFunctions.Exp
import Mathlib.Analysis.Complex.Basic

/-!
# The nuclear optical model (include/marley/KoningDelarocheOpticalModel.hh,
src/KoningDelarocheOpticalModel.cc)

Doubles are real numbers; `none` is a result that is not a finite number.  `int` arithmetic is
not bounded.  Uninitialised members have arbitrary values, given to the constructor.  The Coulomb
wave functions (src/coulomb_wavefunctions.cc, a wrapper of the GNU Scientific Library) are an
arbitrary function.
-/

set_option autoImplicit false

namespace Marley.Optical
open Marley
open Marley.Utils (realSqrt fdiv)

/-- `alpha` (include/marley/marley_utils.hh:109). -/
noncomputable def alpha : ℝ := 7.2973525698e-3

/-- `hbar_c` (include/marley/marley_utils.hh:111). -/
noncomputable def hbarC : ℝ := 197.3269718

/-- `e2` (include/marley/marley_utils.hh:120). -/
noncomputable def e2 : ℝ := hbarC * alpha

/-- `lambda_piplus2` (include/marley/KoningDelarocheOpticalModel.hh:120-124). -/
noncomputable def lambdaPi2 : ℝ := (hbarC / 139.57018) * (hbarC / 139.57018)

/-- `MATCHING_RADIUS_THRESHOLD` (include/marley/KoningDelarocheOpticalModel.hh:134). -/
noncomputable def threshold : ℝ := 1e-3

/-- Parameters for one kind of nucleon
(include/marley/KoningDelarocheOpticalModel.hh:111-116). -/
structure Nucleon where
  v1 : ℝ
  v2 : ℝ
  v3 : ℝ
  v4 : ℝ
  w1 : ℝ
  w2 : ℝ
  d1 : ℝ
  d2 : ℝ
  d3 : ℝ
  vso1 : ℝ
  vso2 : ℝ
  wso1 : ℝ
  wso2 : ℝ
  Ef : ℝ
  Rv : ℝ
  av : ℝ
  Rd : ℝ
  ad : ℝ
  Rso : ℝ
  aso : ℝ

/-- All parameters set by the constructor
(include/marley/KoningDelarocheOpticalModel.hh:111-118). -/
structure Par where
  n : Nucleon
  p : Nucleon
  Vcbar : ℝ
  Rc : ℝ

/-- The parameters for neutrons (src/KoningDelarocheOpticalModel.cc:206-227), for `A > 0`. -/
noncomputable def neutronPar (Z A : Int) : Nucleon :=
  let N := A - Z
  let third : ℝ := (A : ℝ) ^ (1 / 3 : ℝ)
  { v1 := 59.30 - 21.0 * ((N - Z : Int) : ℝ) / A - 0.024 * A
    v2 := 0.007228 - 1.48e-6 * A
    v3 := 1.994e-5 - 2.0e-8 * A
    v4 := 7e-9
    w1 := 12.195 + 0.0167 * A
    w2 := 73.55 + 0.0795 * A
    d1 := 16.0 - 16.0 * ((N - Z : Int) : ℝ) / A
    d2 := 0.0180 + 0.003802 / (1 + Real.exp ((A - 156) / 8))
    d3 := 11.5
    vso1 := 5.922 + 0.0030 * A
    vso2 := 0.0040
    wso1 := -3.1
    wso2 := 160
    Ef := -11.2814 + 0.02646 * A
    Rv := 1.3039 * third - 0.4054
    av := 0.6778 - 1.487e-4 * A
    Rd := 1.3424 * third - 0.01585 * third ^ 2
    ad := 0.5446 - 1.656e-4 * A
    Rso := 1.1854 * third - 0.647
    aso := 0.59 }

/-- The parameters for protons (src/KoningDelarocheOpticalModel.cc:229-249), for `A > 0`. -/
noncomputable def protonPar (Z A : Int) : Nucleon :=
  let N := A - Z
  let n := neutronPar Z A
  { v1 := 59.30 + 21.0 * ((N - Z : Int) : ℝ) / A - 0.024 * A
    v2 := 0.007067 + 4.23e-6 * A
    v3 := 1.729e-5 + 1.136e-8 * A
    v4 := n.v4
    w1 := 14.667 + 0.009629 * A
    w2 := n.w2
    d1 := 16.0 + 16.0 * ((N - Z : Int) : ℝ) / A
    d2 := n.d2
    d3 := n.d3
    vso1 := n.vso1
    vso2 := n.vso2
    wso1 := n.wso1
    wso2 := n.wso2
    Ef := -8.4075 + 0.01378 * A
    Rv := n.Rv
    av := n.av
    Rd := n.Rd
    ad := 0.5187 + 5.205e-4 * A
    Rso := n.Rso
    aso := n.aso }

/-- All parameters (src/KoningDelarocheOpticalModel.cc:200-252), for `A > 0`. -/
noncomputable def params (Z A : Int) : Par :=
  let third : ℝ := (A : ℝ) ^ (1 / 3 : ℝ)
  let Rc := 1.198 * third + 0.697 / third + 12.994 * third ^ (-4 : ℤ)
  { n := neutronPar Z A, p := protonPar Z A, Rc := Rc, Vcbar := 1.73 * Z / Rc }

/-- The members that describe the motion
(include/marley/KoningDelarocheOpticalModel.hh:62-70). -/
structure Kin where
  totalKE : ℝ
  fragMass : ℝ
  lab : ℝ
  p2 : ℝ

/-- The members for temporary storage
(include/marley/KoningDelarocheOpticalModel.hh:126-130). -/
structure Work where
  Rv : ℝ
  av : ℝ
  Rd : ℝ
  ad : ℝ
  Rso : ℝ
  aso : ℝ
  Vv : ℝ
  Wv : ℝ
  Wd : ℝ
  Vso : ℝ
  Wso : ℝ
  eig : ℝ
  z : Int

/-- The object. See include/marley/KoningDelarocheOpticalModel.hh:126-130. -/
structure Om where
  Z : Int
  A : Int
  h : ℝ
  par : Par
  targetMass : ℝ
  kin : Kin
  work : Work

/-- Constructor (src/KoningDelarocheOpticalModel.cc:194-254); `k` and `w` are the values of the
members that it does not initialise.  Where the mass number is not positive, or a mass is not a
number, members are not numbers; the model answers `.ub`. -/
noncomputable def Om.make (t : Mass.Table) (Z A : Int) (h : ℝ) (k : Kin) (w : Work) : Res Om :=
  if A ≤ 0 then .error .ub
  else
    match Mass.atomicMass t Z A true with
    | .error e => .error e
    | .ok none => .error .ub
    | .ok (some M) =>
      .ok { Z := Z, A := A, h := h, par := params Z A, targetMass := M, kin := k, work := w }

/-- `update_target_mass` (src/KoningDelarocheOpticalModel.cc:518-524). -/
noncomputable def Om.updateTarget (t : Mass.Table) (m : Om) (charge : Int) : Res Unit × Om :=
  match Mass.atomicMass t m.Z m.A true with
  | .error e => (.error e, m)
  | .ok none => (.error .ub, m)
  | .ok (some M) =>
    match Mass.particleMass t Mass.ELECTRON with
    | .error e => (.error e, m)
    | .ok me => (.ok (), { m with targetMass := M - charge * me })

/-- `calculate_kinematic_variables` (src/KoningDelarocheOpticalModel.cc:497-516).  The model stops
with `.ub` where a divisor is zero. -/
noncomputable def Om.setKin (t : Mass.Table) (m : Om) (KE : ℝ) (frag : Int) : Res Unit × Om :=
  let m := { m with kin := { m.kin with totalKE := KE } }
  match Mass.particleMass t frag with
  | .error e => (.error e, m)
  | .ok mf =>
    let m := { m with kin := { m.kin with fragMass := mf } }
    if m.targetMass = 0 then (.error .ub, m)
    else
      let lab := m.kin.totalKE * (2 * (m.kin.fragMass + m.targetMass) + m.kin.totalKE) / (2 * m.targetMass)
      let m := { m with kin := { m.kin with lab := lab } }
      let den := (m.kin.fragMass + m.targetMass) ^ 2 + 2 * m.targetMass * m.kin.lab
      if den = 0 then (.error .ub, m)
      else
        let p2 := m.targetMass ^ 2 * m.kin.lab * (2 * m.kin.fragMass + m.kin.lab) / den
        (.ok (), { m with kin := { m.kin with p2 := p2 } })

/-- The terms of the neutrons of a fragment (src/KoningDelarocheOpticalModel.cc:118-141).  The
divisors are never zero. -/
noncomputable def addNeutrons (q : Nucleon) (n : Int) (E Eeff : ℝ) (spinZero : Bool) (w : Work) : Work :=
  let d := Eeff - q.Ef
  let w := { w with
    Vv := w.Vv + n * q.v1 * (1 - q.v2 * d + q.v3 * d ^ 2 - q.v4 * d ^ 3)
    Wv := w.Wv + n * q.w1 * d ^ 2 / (d ^ 2 + q.w2 ^ 2)
    Wd := w.Wd + n * q.d1 * d ^ 2 * Real.exp (-q.d2 * d) / (d ^ 2 + q.d3 ^ 2)
    Rv := w.Rv + n * q.Rv
    av := w.av + n * q.av
    Rd := w.Rd + n * q.Rd
    ad := w.ad + n * q.ad
    Rso := w.Rso + n * q.Rso
    aso := w.aso + n * q.aso }
  if !spinZero then
    let s := E - q.Ef
    { w with
      Vso := w.Vso + q.vso1 * Real.exp (-q.vso2 * s)
      Wso := w.Wso + q.wso1 * s ^ 2 / (s ^ 2 + q.wso2 ^ 2) }
  else w

/-- The terms of the protons of a fragment (src/KoningDelarocheOpticalModel.cc:143-167). -/
noncomputable def addProtons (q : Nucleon) (Vcbar : ℝ) (z : Int) (E Eeff : ℝ) (spinZero : Bool) (w : Work) :
    Work :=
  let d := Eeff - q.Ef
  let w := { w with
    Vv := w.Vv + z * q.v1 * (1 - q.v2 * d + q.v3 * d ^ 2 - q.v4 * d ^ 3
      + Vcbar * (q.v2 - 2 * q.v3 * d + 3 * q.v4 * d ^ 2))
    Wv := w.Wv + z * q.w1 * d ^ 2 / (d ^ 2 + q.w2 ^ 2)
    Wd := w.Wd + z * q.d1 * d ^ 2 * Real.exp (-q.d2 * d) / (d ^ 2 + q.d3 ^ 2)
    Rv := w.Rv + z * q.Rv
    av := w.av + z * q.av
    Rd := w.Rd + z * q.Rd
    ad := w.ad + z * q.ad
    Rso := w.Rso + z * q.Rso
    aso := w.aso + z * q.aso }
  if !spinZero then
    let s := E - q.Ef
    { w with
      Vso := w.Vso + q.vso1 * Real.exp (-q.vso2 * s)
      Wso := w.Wso + q.wso1 * s ^ 2 / (s ^ 2 + q.wso2 ^ 2) }
  else w

/-- The folding of the terms (src/KoningDelarocheOpticalModel.cc:169-191). -/
noncomputable def foldWork (a z n : Int) (spinZero : Bool) (w : Work) : Work :=
  if a > 1 then
    let w := { w with
      Rv := w.Rv / a
      av := w.av / a
      Rd := w.Rd / a
      ad := w.ad / a
      Rso := w.Rso / a
      aso := w.aso / a }
    if !spinZero then
      let zOdd := decide (z.tmod 2 ≠ 0)
      let nOdd := decide (n.tmod 2 ≠ 0)
      let factor : ℝ := if zOdd && nOdd then 2 else if zOdd != nOdd then 1 else 0
      let factor := factor / ((2 * a : Int) : ℝ)
      { w with Vso := w.Vso * factor, Wso := w.Wso * factor }
    else w
  else w

/-- `calculate_om_parameters` (src/KoningDelarocheOpticalModel.cc:79-192).  `E / a` is used only
if there are nucleons. -/
noncomputable def Om.parameters (m : Om) (frag twoJ l twoS : Int) : Work :=
  let z := Pdg.getZ frag
  let a := Pdg.getA frag
  let n := a - z
  let E := m.kin.lab
  let spinZero := decide (twoS = 0)
  let eig : ℝ := if spinZero then 0
    else 0.25 * (((twoJ - twoS) * (twoJ + twoS + 2) : Int) : ℝ) - ((l * (l + 1) : Int) : ℝ)
  let w : Work := { Rv := 0, av := 0, Rd := 0, ad := 0, Rso := 0, aso := 0, Vv := 0, Wv := 0, Wd := 0,
                    Vso := 0, Wso := 0, eig := eig, z := z }
  let Eeff := E / a
  let w := if n > 0 then addNeutrons m.par.n n E Eeff spinZero w else w
  let w := if z > 0 then addProtons m.par.p m.par.Vcbar z E Eeff spinZero w else w
  foldWork a z n spinZero w

/-- `f` (src/KoningDelarocheOpticalModel.cc:471-475).  For diffuseness zero the quotient is an
infinity or not a number. -/
noncomputable def shape (r R a : ℝ) : Option ℝ :=
  if a = 0 then
    if r < R then some 1 else if R < r then some 0 else none
  else some (1 / (1 + Real.exp ((r - R) / a)))

/-- `dfdr` (src/KoningDelarocheOpticalModel.cc:484-495). -/
noncomputable def slopeOf (r R a : ℝ) : Option ℝ :=
  if a = 0 then
    if r = R then none else some 0
  else
    let exponent := (r - R) / a
    if |exponent| > 100 then some 0
    else
      let temp := Real.exp exponent
      some (-temp / (a * (1 + temp) ^ 2))

/-- `omp_minus_Vc` (src/KoningDelarocheOpticalModel.cc:50-75). -/
noncomputable def Work.nuclear (w : Work) (r : ℝ) : Option ℂ := do
  let fv ← shape r w.Rv w.av
  let dd ← slopeOf r w.Rd w.ad
  let tVv := w.Vv * fv
  let tWv := w.Wv * fv
  let tWd := -4 * w.Wd * w.ad * dd
  if w.eig ≠ 0 then
    let ds ← slopeOf r w.Rso w.aso
    let factor ← fdiv (lambdaPi2 * ds * w.eig) r
    return ⟨-tVv + w.Vso * factor, -tWv - tWd + w.Wso * factor⟩
  else return ⟨-tVv + 0, -tWv - tWd + 0⟩

/-- `Vc` (src/KoningDelarocheOpticalModel.cc:461-468); the radius `R` is positive, so that no
divisor is zero. -/
noncomputable def coulomb (r R : ℝ) (Q q : Int) : ℝ :=
  if Q = 0 ∨ q = 0 then 0
  else if r < R then Q * q * e2 * (3 - (r / R) ^ 2) / (2 * R)
  else Q * q * e2 / r

/-- `omp` (src/KoningDelarocheOpticalModel.cc:478-481). -/
noncomputable def Om.omp (m : Om) (r : ℝ) : Option ℂ := do
  let U ← m.work.nuclear r
  return U + coulomb r m.par.Rc m.work.z m.Z

/-- `a(r, l, U)` (src/KoningDelarocheOpticalModel.cc:442-448). -/
noncomputable def Om.aOf (m : Om) (r : ℝ) (l : Int) (U : ℂ) : Option ℂ :=
  if r = 0 ∨ m.kin.totalKE = 0 then none
  else some (((-(l * (l + 1) : Int) : ℝ) / r ^ 2 : ℝ) +
    (1 - U / m.kin.totalKE) * m.kin.p2 / ((hbarC * hbarC : ℝ) : ℂ))

/-- `a(r, l)` (src/KoningDelarocheOpticalModel.cc:452-457). -/
noncomputable def Om.aAt (m : Om) (r : ℝ) (l : Int) : Option ℂ := do
  let U ← m.omp r
  m.aOf r l U

/-- Division of complex doubles. Used at src/KoningDelarocheOpticalModel.cc:334-359. -/
noncomputable def cdiv (x y : ℂ) : Option ℂ := if y = 0 then none else some (x / y)

/-- The variables of the loops of `s_matrix_element`
(src/KoningDelarocheOpticalModel.cc:334-359); `last` is `U_minus_Vc`. -/
structure Num where
  r : ℝ
  a2 : Option ℂ
  a1 : Option ℂ
  a0 : Option ℂ
  u2 : Option ℂ
  u1 : Option ℂ
  u0 : Option ℂ
  last : Option ℂ

/-- Values before the first loop (src/KoningDelarocheOpticalModel.cc:334-359). -/
noncomputable def Om.start (m : Om) (l : Int) : Num :=
  { r := m.h, a2 := none, a1 := some 0, a0 := m.aAt m.h l, u2 := none, u1 := some 0,
    u0 := some ((m.h ^ (l + 1) : ℝ) : ℂ), last := none }

/-- One step of Numerov's method (src/KoningDelarocheOpticalModel.cc:361-374, 389-399), given the
new radius and the new coefficient. -/
noncomputable def advance (c : ℝ) (s : Num) (r : ℝ) (a : Option ℂ) (last : Option ℂ) : Num :=
  { r := r, a2 := s.a1, a1 := s.a0, a0 := a, u2 := s.u1, u1 := s.u0, last := last
    u0 := do
      let A2 ← s.a1
      let A1 ← s.a0
      let A0 ← a
      let U2 ← s.u1
      let U1 ← s.u0
      cdiv ((2 - 10 * c * A1) * U1 - (1 + c * A2) * U2) (1 + c * A0) }

/-- `step_size2_over_twelve` (src/KoningDelarocheOpticalModel.cc:332). -/
noncomputable def Om.c (m : Om) : ℝ := m.h ^ 2 / 12

/-- The body of the first loop (src/KoningDelarocheOpticalModel.cc:360-375). -/
noncomputable def Om.body1 (m : Om) (l : Int) (s : Num) : Num :=
  let r := s.r + m.h
  let Um := m.work.nuclear r
  let a := do
    let Um ← Um
    m.aOf r l (Um + coulomb r m.par.Rc m.work.z m.Z)
  advance m.c s r a Um

/-- The condition of the first loop (src/KoningDelarocheOpticalModel.cc:376); a comparison with
something that is not a number fails. -/
def again1 (s : Num) : Prop :=
  match s.last with
  | none => False
  | some z => ‖z‖ > threshold

/-- The body of the second loop (src/KoningDelarocheOpticalModel.cc:388-400). -/
noncomputable def Om.body2 (m : Om) (l : Int) (s : Num) : Num :=
  let r := s.r + m.h
  advance m.c s r (m.aAt r l) s.last

open Classical in
/-- A `do … while` loop; `none` if it does not end. Used at src/KoningDelarocheOpticalModel.cc:332-437. -/
noncomputable def doWhile {σ : Type} (body : σ → σ) (again : σ → Prop) (s : σ) : Option σ :=
  if h : ∃ k : ℕ, ¬ again (body^[k + 1] s) then some (body^[Nat.find h + 1] s) else none

/-- `s_matrix_element` after the parameters have been set
(src/KoningDelarocheOpticalModel.cc:332-437).  Outside the model are step sizes that are not positive (`.ub`); a
loop that does not end is undefined behaviour.  `H` is `coulomb_H_plus`. -/
noncomputable def Om.solve (H : Int → ℝ → ℝ → Option ℂ) (m : Om) (l : Int) : Res (Option ℂ) :=
  if m.h ≤ 0 then .error .ub
  else
    match doWhile (m.body1 l) again1 (m.start l) with
    | none => .error .ub
    | some s1 =>
      let rMax := 1.2 * s1.r
      match doWhile (m.body2 l) (fun s => s.r < rMax) s1 with
      | none => .error .ub
      | some s2 =>
        .ok (do
          let beta ← fdiv (realSqrt (m.kin.lab ^ 2 + 2 * m.kin.lab * m.kin.fragMass)) (m.kin.lab + m.kin.fragMass)
          let beta := if beta ≤ 0 then 1e-8 else beta
          let eta := m.Z * m.work.z * alpha / beta
          let k := realSqrt m.kin.p2 / hbarC
          let H1 ← H l eta (k * s1.r)
          let H2 ← H l eta (k * s2.r)
          let u1 ← s1.u0
          let u2 ← s2.u0
          cdiv (u1 * (starRingEnd ℂ) H2 - u2 * (starRingEnd ℂ) H1) (u1 * H2 - u2 * H1))

/-- `s_matrix_element` (src/KoningDelarocheOpticalModel.cc:324-438). -/
noncomputable def Om.sMatrix (H : Int → ℝ → ℝ → Option ℂ) (m : Om) (frag twoJ l twoS : Int) :
    Res (Option ℂ) × Om :=
  let m := { m with work := m.parameters frag twoJ l twoS }
  (m.solve H l, m)

/-- `transmission_coefficient` (src/KoningDelarocheOpticalModel.cc:292-322). -/
noncomputable def Om.transmission (t : Mass.Table) (H : Int → ℝ → ℝ → Option ℂ) (m : Om) (KE : ℝ)
    (frag twoJ l twoS charge : Int) : Res ℝ × Om :=
  if KE ≤ 0 then (.ok 0, m)
  else
    match m.updateTarget t charge with
    | (.error e, m) => (.error e, m)
    | (.ok _, m) =>
      match m.setKin t KE frag with
      | (.error e, m) => (.error e, m)
      | (.ok _, m) =>
        match m.sMatrix H frag twoJ l twoS with
        | (.error e, m) => (.error e, m)
        | (.ok none, m) => (.ok 0, m)
        | (.ok (some S), m) => (.ok (1 - min 1 (max 0 (Complex.normSq S))), m)

/-- The total kinetic energy in the frame of the centre of mass
(src/KoningDelarocheOpticalModel.cc:39-41, 270-272). -/
noncomputable def Om.cmEnergy (m : Om) (mf lab : ℝ) : ℝ :=
  max 0 (realSqrt ((m.targetMass + mf) ^ 2 + 2 * m.targetMass * lab) - mf - m.targetMass)

/-- `optical_model_potential` (src/KoningDelarocheOpticalModel.cc:24-46). -/
noncomputable def Om.potential (t : Mass.Table) (m : Om) (r lab : ℝ) (frag twoJ l twoS charge : Int) :
    Res (Option ℂ) × Om :=
  match m.updateTarget t charge with
  | (.error e, m) => (.error e, m)
  | (.ok _, m) =>
    match Mass.particleMass t frag with
    | .error e => (.error e, m)
    | .ok mf =>
      match m.setKin t (m.cmEnergy mf lab) frag with
      | (.error e, m) => (.error e, m)
      | (.ok _, m) =>
        let m := { m with work := m.parameters frag twoJ l twoS }
        (.ok (m.omp r), m)

/-- The values of `l` and `two_j` of the loops of `total_cross_section`, in their order
(src/KoningDelarocheOpticalModel.cc:277-280). -/
def waves (twoS : Int) (lMax : Nat) : List (Int × Int) :=
  (List.range (lMax + 1)).flatMap fun (l : Nat) =>
    let lo := |2 * (l : Int) - twoS|
    let hi := 2 * (l : Int) + twoS
    (List.range ((hi - lo) / 2 + 1).toNat).map fun (k : Nat) => ((l : Int), lo + 2 * (k : Int))

/-- The sum over partial waves (src/KoningDelarocheOpticalModel.cc:276-285). -/
noncomputable def Om.waveSum (H : Int → ℝ → ℝ → Option ℂ) (frag twoS : Int) :
    Om → List (Int × Int) → Option ℝ → Res (Option ℝ) × Om
  | m, [], sum => (.ok sum, m)
  | m, (l, twoJ) :: ws, sum =>
    match m.sMatrix H frag twoJ l twoS with
    | (.error e, m) => (.error e, m)
    | (.ok S, m) =>
      Om.waveSum H frag twoS m ws (do
        let s ← sum
        let S ← S
        return s + (twoJ + 1) * (1 - S.re))

/-- `total_cross_section` (src/KoningDelarocheOpticalModel.cc:256-290). -/
noncomputable def Om.crossSection (t : Mass.Table) (H : Int → ℝ → ℝ → Option ℂ) (m : Om) (lab : ℝ)
    (frag twoS : Int) (lMax : Nat) (charge : Int) : Res (Option ℝ) × Om :=
  match m.updateTarget t charge with
  | (.error e, m) => (.error e, m)
  | (.ok _, m) =>
    match Mass.particleMass t frag with
    | .error e => (.error e, m)
    | .ok mf =>
      match m.setKin t (m.cmEnergy mf lab) frag with
      | (.error e, m) => (.error e, m)
      | (.ok _, m) =>
        match Om.waveSum H frag twoS m (waves twoS lMax) (some 0) with
        | (.error e, m) => (.error e, m)
        | (.ok sum, m) =>
          (.ok (do let s ← sum; fdiv (2 * Real.pi * s) ((twoS + 1) * m.kin.p2)), m)

/-- A call of a public function of the object. See src/KoningDelarocheOpticalModel.cc:194-290. -/
inductive Call where
  | transmission (KE : ℝ) (frag twoJ l twoS charge : Int)
  | potential (r lab : ℝ) (frag twoJ l twoS charge : Int)
  | crossSection (lab : ℝ) (frag twoS : Int) (lMax : Nat) (charge : Int)

/-- The object after a call. See src/KoningDelarocheOpticalModel.cc:194-290. -/
noncomputable def Om.call (t : Mass.Table) (H : Int → ℝ → ℝ → Option ℂ) (m : Om) : Call → Om
  | .transmission KE frag twoJ l twoS charge => (m.transmission t H KE frag twoJ l twoS charge).2
  | .potential r lab frag twoJ l twoS charge => (m.potential t r lab frag twoJ l twoS charge).2
  | .crossSection lab frag twoS lMax charge => (m.crossSection t H lab frag twoS lMax charge).2

/-- The object after a series of calls. See src/KoningDelarocheOpticalModel.cc:194-290. -/
noncomputable def Om.after (t : Mass.Table) (H : Int → ℝ → ℝ → Option ℂ) (m : Om) (cs : List Call) : Om :=
  cs.foldl (fun m c => m.call t H c) m

end Marley.Optical
