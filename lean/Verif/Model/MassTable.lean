import Verif.Model.Event
import Verif.Model.Pdg
import Mathlib.Analysis.SpecialFunctions.Pow.Real

/-!
# Particle and atomic masses (include/marley/MassTable.hh, src/MassTable.cc)

Doubles are real numbers; `none` is a quotient or power that is not a number.
`int` arithmetic is not bounded, except that codes read from the file are
converted from `long` to `int`.
-/

set_option autoImplicit false

namespace Marley.Mass
open Marley
open Marley.Json (Str JVal hasKey at? toLong?)

/-- The two lookup tables, in micro-amu (include/marley/MassTable.hh:160-166). -/
structure Table where
  particle : Int → Option ℝ
  atomic : Int → Option ℝ

/-- `micro_amu_` (include/marley/MassTable.hh:185). -/
noncomputable def microAmu : ℝ := 0.000931494061

/-- `ELECTRON` (include/marley/marley_utils.hh:39). -/
def ELECTRON : Int := 11

/-- `liquid_drop_model_mass_excess` (src/MassTable.cc:232-262).  For `A = 0` some
term is 0/0 or 0·∞ and for `A < 0` the power `A^(2/3)` is not a number. -/
noncomputable def liquidDropExcess (Z A : Int) : Option ℝ :=
  if A ≤ 0 then none
  else
    let N := A - Z
    let kappaTerm : ℝ := 1.79 * (((N - Z : Int) : ℝ) / A) ^ 2
    let c1 : ℝ := 15.677 * (1 - kappaTerm)
    let c2 : ℝ := 18.56 * (1 - kappaTerm)
    let Evol : ℝ := -c1 * A
    let Esur : ℝ := c2 * (A : ℝ) ^ ((2 : ℝ) / 3)
    let Ecoul : ℝ := (0.717 / (A : ℝ) ^ ((1 : ℝ) / 3) - 1.21129 / A) * (Z : ℝ) ^ 2
    let zOdd := Z.tmod 2 ≠ 0
    let nOdd := N.tmod 2 ≠ 0
    let delta : ℝ :=
      if zOdd ∧ nOdd then 11 / Real.sqrt A
      else if ¬ zOdd ∧ ¬ nOdd then -11 / Real.sqrt A
      else 0
    some (8.07144 * N + 7.28899 * Z + Evol + Esur + Ecoul + delta)

/-- `liquid_drop_model_atomic_mass` (src/MassTable.cc:79-81). -/
noncomputable def liquidDropMass (Z A : Int) : Option ℝ :=
  (liquidDropExcess Z A).map (· + microAmu * 1e6 * A)

/-- `get_particle_mass` (src/MassTable.cc:83-92); negating the smallest `int` is
undefined. -/
noncomputable def particleMass (t : Table) (id : Int) : Res ℝ :=
  if id = -2147483648 then .error .ub
  else
    let id := if id < 0 then id * -1 else id
    match t.particle id with
    | none => .error .outOfRange
    | some m => .ok (microAmu * m)

/-- `lookup_atomic_mass(int Z, int A, bool&, bool)` (src/MassTable.cc:137-164):
the mass and the flag `exp`. -/
noncomputable def lookup (t : Table) (Z A : Int) (theoryOk : Bool) : Res (Option ℝ × Bool) :=
  match t.atomic (Pdg.nucleusPid Z A) with
  | some m => .ok (some m, true)
  | none => if theoryOk then .ok (liquidDropMass Z A, false) else .error .marleyError

/-- `lookup_atomic_mass(int nucleus_pid, bool&, bool)` (src/MassTable.cc:103-135). -/
noncomputable def lookupPid (t : Table) (pid : Int) (theoryOk : Bool) : Res (Option ℝ × Bool) :=
  match t.atomic pid with
  | some m => .ok (some m, true)
  | none =>
    let Z := Pdg.getZ pid
    let A := Pdg.getA pid
    if theoryOk then .ok (liquidDropMass Z A, false) else .error .marleyError

/-- `if (exp) mass *= micro_amu_` (src/MassTable.cc:99, 194). -/
noncomputable def toMeV (r : Option ℝ × Bool) : Option ℝ :=
  if r.2 then r.1.map (· * microAmu) else r.1

/-- `get_atomic_mass(int Z, int A, bool)` (src/MassTable.cc:190-195). -/
noncomputable def atomicMass (t : Table) (Z A : Int) (theoryOk : Bool) : Res (Option ℝ) :=
  match lookup t Z A theoryOk with
  | .error e => .error e
  | .ok r => .ok (toMeV r)

/-- `get_atomic_mass(int nucleus_pid, bool)` (src/MassTable.cc:94-101). -/
noncomputable def atomicMassPid (t : Table) (pid : Int) (theoryOk : Bool) : Res (Option ℝ) :=
  match lookupPid t pid theoryOk with
  | .error e => .error e
  | .ok r => .ok (toMeV r)

/-- `.at(key)` of one of the tables. Used at src/MassTable.cc:91, 169-170, 212-213. -/
def at' (m : Int → Option ℝ) (k : Int) : Res ℝ :=
  match m k with
  | none => .error .outOfRange
  | some x => .ok x

/-- `get_binding_energy` (src/MassTable.cc:166-180). -/
noncomputable def bindingEnergy (t : Table) (Z A : Int) (theoryOk : Bool) : Res (Option ℝ) :=
  let N := A - Z
  match at' t.atomic 1000010010 with
  | .error e => .error e
  | .ok mH =>
    match at' t.particle Pdg.NEUTRON with
    | .error e => .error e
    | .ok mn =>
      match lookup t Z A theoryOk with
      | .error e => .error e
      | .ok (mN, exp) =>
        .ok (mN.map (fun mN =>
          if exp then microAmu * (Z * mH + N * mn - mN) else microAmu * (Z * mH + N * mn) - mN))

/-- `get_mass_excess` (src/MassTable.cc:182-188). -/
noncomputable def massExcess (t : Table) (Z A : Int) (theoryOk : Bool) : Res (Option ℝ) :=
  match lookup t Z A theoryOk with
  | .error e => .error e
  | .ok (mN, exp) =>
    .ok (mN.map (fun mN =>
      if exp then microAmu * (mN - A * 1e6) else mN - microAmu * A * 1e6))

/-- `get_fragment_separation_energy(int Z, int A, int pid, bool)`
(src/MassTable.cc:205-226). -/
noncomputable def separationEnergy (t : Table) (Z A pid : Int) (theoryOk : Bool) :
    Res (Option ℝ) :=
  let Zx := Pdg.getZ pid
  let Zf := Z - Zx
  let Af := A - Pdg.getA pid
  match at' t.particle ELECTRON with
  | .error e => .error e
  | .ok me =>
    match at' t.particle pid with
    | .error e => .error e
    | .ok mx =>
      let extra := Zx * me + mx
      match lookup t Z A theoryOk with
      | .error e => .error e
      | .ok (mi, expI) =>
        match lookup t Zf Af theoryOk with
        | .error e => .error e
        | .ok (mf, expF) =>
          .ok (mi.bind (fun mi => mf.map (fun mf =>
            if expI then
              if expF then microAmu * (mf - mi + extra)
              else mf + microAmu * (extra - mi)
            else if expF then microAmu * (mf + extra) - mi
            else microAmu * extra + mf - mi)))

/-- `get_fragment_separation_energy(int nuc_pdg, int frag_pdg, bool)`
(src/MassTable.cc:197-203). -/
noncomputable def separationEnergyPid (t : Table) (nuc frag : Int) (theoryOk : Bool) :
    Res (Option ℝ) :=
  separationEnergy t (Pdg.getZ nuc) (Pdg.getA nuc) frag theoryOk

/-- `std::numeric_limits<double>::max()`. Used at src/MassTable.cc:279. -/
noncomputable def dblMax : ℝ := (2 - 2 ^ (-52 : ℤ)) * 2 ^ 1023

/-- The loop of `unbound_threshold` (src/MassTable.cc:284-291) over the codes of
the fragments; `fragment_emission_threshold` (264-270) allows estimates.  A
comparison with something that is not a number is false. -/
noncomputable def thresholdLoop (t : Table) (Z A : Int) : ℝ → List Int → Res ℝ
  | cur, [] => .ok cur
  | cur, f :: fs =>
    match separationEnergy t Z A f true with
    | .error e => .error e
    | .ok none => thresholdLoop t Z A cur fs
    | .ok (some s) =>
      open Classical in thresholdLoop t Z A (if s < cur then s else cur) fs

/-- `unbound_threshold(int Zi, int Ai)` (src/MassTable.cc:275-294), given the
codes of the fragments of the structure database. -/
noncomputable def unboundThreshold (t : Table) (frags : List Int) (Z A : Int) : Res ℝ :=
  thresholdLoop t Z A dblMax frags

/-- `unbound_threshold(int)` (src/MassTable.cc:296-301). -/
noncomputable def unboundThresholdPid (t : Table) (frags : List Int) (pdg : Int) : Res ℝ :=
  unboundThreshold t frags (Pdg.getZ pdg) (Pdg.getA pdg)

/-! ## Loading -/

/-- `map_to_use[pdg] = mass`. Used at src/MassTable.cc:317-341. -/
def put (m : Int → Option ℝ) (k : Int) (x : ℝ) : Int → Option ℝ :=
  fun k' => if k' = k then some x else m k'

/-- One pass of the loop of `assign_masses` (src/MassTable.cc:317-341). -/
noncomputable def assignOne (m : Int → Option ℝ) (el : JVal ℝ) : Res (Int → Option ℝ) :=
  if !hasKey el "pdg".toList then .error .marleyError
  else if !hasKey el "mass".toList then .error .marleyError
  else
    match at? el "pdg".toList with
    | .error e => .error e
    | .ok pj =>
      match toLong? pj with
      | none => .error .marleyError
      | some pdg =>
        match at? el "mass".toList with
        | .error e => .error e
        | .ok mj =>
          match Event.toDouble? (fun n => (Json.longToDouble n : ℝ)) mj with
          | none => .error .marleyError
          | some x => .ok (put m (Event.wrap32 pdg) x)

/-- The loop of `assign_masses` (src/MassTable.cc:317-341). -/
noncomputable def assignLoop : (Int → Option ℝ) → List (JVal ℝ) → Res (Int → Option ℝ)
  | m, [] => .ok m
  | m, el :: t =>
    match assignOne m el with
    | .error e => .error e
    | .ok m => assignLoop m t

/-- `assign_masses` (src/MassTable.cc:303-343) into an empty map. -/
noncomputable def assignMasses (j : JVal ℝ) : Res (Int → Option ℝ) :=
  match j with
  | .arr [] => .error .marleyError
  | .arr l => assignLoop (fun _ => none) l
  | _ => .error .marleyError

/-- The constructor after the file has been found and parsed
(src/MassTable.cc:48-64). -/
noncomputable def ofJson (j : JVal ℝ) : Res Table :=
  if !hasKey j "particle_masses".toList then .error .marleyError
  else
    match at? j "particle_masses".toList with
    | .error e => .error e
    | .ok pj =>
      match assignMasses pj with
      | .error e => .error e
      | .ok pm =>
        if !hasKey j "atomic_masses".toList then .error .marleyError
        else
          match at? j "atomic_masses".toList with
          | .error e => .error e
          | .ok aj =>
            match assignMasses aj with
            | .error e => .error e
            | .ok am => .ok ⟨pm, am⟩

end Marley.Mass
