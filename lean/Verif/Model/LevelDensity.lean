import Verif.Model.MassTable
import Verif.Model.Utils
import Mathlib.Analysis.SpecialFunctions.Exp

/-!
# Level densities (include/marley/BackshiftedFermiGasModel.hh,
src/BackshiftedFermiGasModel.cc)

Doubles are real numbers; `none` is a result that is not a finite number.
-/

set_option autoImplicit false

namespace Marley.Density
open Marley
open Marley.Utils (fdiv)

/-- `std::sqrt`. Used at src/BackshiftedFermiGasModel.cc:109, 118, 131-132. -/
noncomputable def sqrt? (x : ℝ) : Option ℝ := if x < 0 then none else some (Real.sqrt x)

/-- Data members (include/marley/BackshiftedFermiGasModel.hh:68-80).  `sigma` has no value
before the first call; the model uses `none` for that, too. -/
structure Bfm where
  Z : Int
  A : Int
  sigma : Option ℝ
  aTilde : ℝ
  gamma : ℝ
  deltaW : ℝ
  Delta : ℝ
  sigmaD : ℝ
  Sn : ℝ

/-- Constructor (src/BackshiftedFermiGasModel.cc:23-58).  Where the mass number is not positive
or a mass is not a number, members are not numbers; the model answers `.ub`. -/
noncomputable def Bfm.make (t : Mass.Table) (Z A : Int) : Res Bfm :=
  if A ≤ 0 then .error .ub
  else
    let N := A - Z
    let third : ℝ := (A : ℝ) ^ (1 / 3 : ℝ)
    match Mass.massExcess t Z A true with
    | .error e => .error e
    | .ok none => .error .ub
    | .ok (some excess) =>
      match Mass.liquidDropExcess Z A with
      | none => .error .ub
      | some drop =>
        let zOdd := Z.tmod 2 ≠ 0
        let nOdd := N.tmod 2 ≠ 0
        let Delta : ℝ :=
          if zOdd ∧ nOdd then 0.173015 + -12 / Real.sqrt A
          else if ¬ zOdd ∧ ¬ nOdd then 0.173015 + 12 / Real.sqrt A
          else 0.173015
        match Mass.separationEnergy t Z A 2112 true with
        | .error e => .error e
        | .ok none => .error .ub
        | .ok (some Sn) =>
          .ok { Z := Z, A := A, sigma := none, aTilde := 0.0722396 * A + 0.195267 * third ^ 2,
                gamma := 0.410289 / third, deltaW := excess - drop, Delta := Delta,
                sigmaD := 0.83 * (A : ℝ) ^ (0.26 : ℝ), Sn := Sn }

/-- The level density parameter (src/BackshiftedFermiGasModel.cc:83-91). -/
noncomputable def Bfm.parameter (m : Bfm) (U : ℝ) : ℝ :=
  if U ≤ 0 then m.aTilde * (1 + m.gamma * m.deltaW)
  else m.aTilde * (1 + (m.deltaW / U) * (1 - Real.exp (-m.gamma * U)))

/-- `compute_sigma_F2` (include/marley/BackshiftedFermiGasModel.hh:59-66). -/
noncomputable def Bfm.sigmaF2 (m : Bfm) (Ex a : ℝ) : Option ℝ := do
  let s ← sqrt? (a * (Ex - m.Delta))
  fdiv (0.01389 * (m.A : ℝ) ^ (5 / 3 : ℝ) * s) m.aTilde

/-- `Ed` (src/BackshiftedFermiGasModel.cc:95). -/
def Ed : ℝ := 0

/-- The new spin cut-off parameter (src/BackshiftedFermiGasModel.cc:106-123). -/
noncomputable def Bfm.newSigma (m : Bfm) (Ex : ℝ) : Option ℝ :=
  let U := Ex - m.Delta
  let a := m.parameter U
  if U ≤ Ed then some m.sigmaD
  else if Ex ≥ m.Sn then do
    let s ← m.sigmaF2 Ex a
    sqrt? s
  else do
    let s ← m.sigmaF2 m.Sn a
    let q ← fdiv ((Ex - Ed) * (s - m.sigmaD ^ 2)) (m.Sn - Ed)
    sqrt? (m.sigmaD ^ 2 + q)

/-- `level_density(double)` (src/BackshiftedFermiGasModel.cc:78-134): the result and the object
afterwards. -/
noncomputable def Bfm.total (m : Bfm) (Ex : ℝ) : Option ℝ × Bfm :=
  let U := Ex - m.Delta
  let a := m.parameter U
  let sigma := m.newSigma Ex
  let m := { m with sigma := sigma }
  if U ≤ 0 then
    (do let s ← sigma; fdiv (Real.exp 1 * a) (12 * s), m)
  else
    let aU := a * U
    (do
      let s ← sigma
      let r ← sqrt? aU
      let q ← fdiv (Real.exp (-aU - 1)) a
      fdiv 1 (12 * s * (Real.sqrt (2 * r) * U * Real.exp (-2 * r) + q)), m)

/-- `level_density(double, int)` (src/BackshiftedFermiGasModel.cc:67-75). -/
noncomputable def Bfm.spin (m : Bfm) (Ex : ℝ) (twoJ : Int) : Option ℝ × Bfm :=
  let r := m.total Ex
  (do
    let rho ← r.1
    let s ← r.2.sigma
    let twoSigma2 := 2 * s ^ 2
    let x ← fdiv ((twoJ : ℝ) + 1) twoSigma2
    let y ← fdiv (-0.25 * ((twoJ : ℝ) + 1) ^ 2) twoSigma2
    return x * Real.exp y * rho, r.2)

/-- `level_density(double, int, Parity)` (src/BackshiftedFermiGasModel.cc:61-65). -/
noncomputable def Bfm.spinParity (m : Bfm) (Ex : ℝ) (twoJ : Int) (_ : Parity) : Option ℝ × Bfm :=
  let r := m.spin Ex twoJ
  (do let x ← r.1; return 0.5 * x, r.2)

/-- A call of one of the three functions. See src/BackshiftedFermiGasModel.cc:61-132. -/
inductive Call where
  | total (Ex : ℝ)
  | spin (Ex : ℝ) (twoJ : Int)
  | spinParity (Ex : ℝ) (twoJ : Int) (P : Parity)

/-- Result and new state of a call. See src/BackshiftedFermiGasModel.cc:61-132. -/
noncomputable def Bfm.call (m : Bfm) : Call → Option ℝ × Bfm
  | .total Ex => m.total Ex
  | .spin Ex twoJ => m.spin Ex twoJ
  | .spinParity Ex twoJ P => m.spinParity Ex twoJ P

/-- The object after a series of calls. See src/BackshiftedFermiGasModel.cc:61-132. -/
noncomputable def Bfm.after (m : Bfm) (cs : List Call) : Bfm :=
  cs.foldl (fun m c => (m.call c).2) m

end Marley.Density
