import Verif.Model.Basic

/-!
# Particle codes (include/marley/marley_utils.hh)

C++ `%` and `/` on `int` truncate toward zero: `Int.tmod`, `Int.tdiv`.  The
32-bit width is not modelled (the functions are used with codes that fit).
-/

set_option autoImplicit false

namespace Marley.Pdg

/-- include/marley/marley_utils.hh:49 -/
def NEUTRON : Int := 2112
/-- include/marley/marley_utils.hh:50 -/
def PROTON : Int := 2212

/-- `get_nucleus_pid` (include/marley/marley_utils.hh:138-142). -/
def nucleusPid (Z A : Int) : Int :=
  if Z = 0 ∧ A = 1 then NEUTRON
  else if Z = 1 ∧ A = 1 then PROTON
  else 10000 * Z + 10 * A + 1000000000

/-- `get_particle_Z` (include/marley/marley_utils.hh:144-151). -/
def getZ (pid : Int) : Int :=
  if pid = PROTON then 1
  else if pid = NEUTRON then 0
  else if pid > 1000000000 then (pid.tmod 10000000).tdiv 10000
  else 0

/-- `get_particle_A` (include/marley/marley_utils.hh:153-160). -/
def getA (pid : Int) : Int :=
  if pid = PROTON then 1
  else if pid = NEUTRON then 1
  else if pid > 1000000000 then (pid.tmod 10000).tdiv 10
  else 0

/-- `is_lepton` (include/marley/marley_utils.hh:176-180). -/
def isLepton (pid : Int) : Bool := 11 ≤ pid.natAbs && pid.natAbs ≤ 16

/-- `is_ion` (include/marley/marley_utils.hh:187-190). -/
def isIon (pid : Int) : Bool := pid > 1000000000 && pid < 2000000000

/-- `particle_electric_charges` (include/marley/marley_utils.hh:470-480). -/
def electricCharges : List (Nat × Int) :=
  [(11, -1), (12, 0), (13, -1), (14, 0), (15, -1), (16, 0), (22, 0), (2112, 0), (2212, 1)]

/-- `get_particle_charge` (include/marley/marley_utils.hh:483-493); `.at` of a
missing key throws `std::out_of_range`. -/
def charge (pid : Int) : Res Int :=
  if pid > 1000000000 then .ok ((pid.tmod 10000000).tdiv 10000)
  else
    match electricCharges.lookup pid.natAbs with
    | none => .error .outOfRange
    | some q => .ok (if pid < 0 then -q else q)

end Marley.Pdg
