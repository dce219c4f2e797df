import Verif.Model.Std
import Mathlib.Analysis.SpecialFunctions.Log.Basic

/-!
# Model of `marley::InterpolationGrid` (include/marley/InterpolationGrid.hh)

The numbers are real numbers.  A result that would be an infinity or NaN in the
code (logarithm of a non-positive number, division by zero) is `none`.
-/

set_option autoImplicit false

namespace Marley.Grid
open Std

/-- `InterpolationMethod` (include/marley/InterpolationGrid.hh:63-65). -/
inductive Interp where
  | constant | linearLinear | linearLog | logLinear | logLog
  deriving DecidableEq, Repr

/-- `ExtrapolationMethod` (include/marley/InterpolationGrid.hh:96-97). -/
inductive Extrap where
  | zero | endpoint | continue | throw
  deriving DecidableEq, Repr

/-- The ordered pairs of a grid (include/marley/InterpolationGrid.hh:40, 220). -/
abbrev Points := List (ℝ × ℝ)

/-- The data members (include/marley/InterpolationGrid.hh:212-220). -/
structure Grid where
  interp : Interp
  extrap : Extrap
  points : Points

/-- Constructor from vectors (include/marley/InterpolationGrid.hh:119-138).
`old_x` keeps its initial value, minus infinity, which no real number reaches;
the test at line 134 is therefore never true.  `oldX = none` is minus
infinity. -/
noncomputable def ofVectorsLoop (oldX : Option ℝ) : List ℝ → List ℝ → Res Points
  | [], _ => .ok []
  | _ :: _, [] => .error .outOfRange
  | x :: xs, y :: ys =>
    if (match oldX with | none => false | some o => decide (x ≤ o)) then .error .marleyError
    else
      match ofVectorsLoop oldX xs ys with
      | .error e => .error e
      | .ok l => .ok ((x, y) :: l)

/-- Constructor from vectors (include/marley/InterpolationGrid.hh:119-138). -/
noncomputable def ofVectors (xs ys : List ℝ) (i : Interp) (e : Extrap) : Res Grid :=
  if xs.length ≠ ys.length then .error .marleyError
  else
    match ofVectorsLoop none xs ys with
    | .error x => .error x
    | .ok l => .ok ⟨i, e, l⟩

/-- Bin chosen by `find_bin_limits` (include/marley/InterpolationGrid.hh:
236-268): the flag `extrapolate` and the index of the lower point; the upper
point is the next one. -/
noncomputable def findBinLimits (l : Points) (x : ℝ) : Res (Bool × Nat) :=
  if l.length < 2 then .error .marleyError
  else
    let k := lowerBound (fun p => decide (p.1 < x)) l
    if k = 0 then
      match l[0]? with
      | none => .error .ub
      | some p => .ok (decide (p.1 ≠ x), 0)
    else if k = l.length then .ok (true, l.length - 2)
    else .ok (false, k - 1)

/-- `std::log`. Used at include/marley/InterpolationGrid.hh:332-338. -/
noncomputable def flog (x : ℝ) : Option ℝ := if 0 < x then some (Real.log x) else none

/-- `log_x` (include/marley/InterpolationGrid.hh:321-329). -/
def logX : Interp → Bool
  | .linearLog => true
  | .logLog => true
  | _ => false

/-- `log_y` (include/marley/InterpolationGrid.hh:321-329). -/
def logY : Interp → Bool
  | .logLinear => true
  | .logLog => true
  | _ => false

/-- The formula at include/marley/InterpolationGrid.hh:311-342. -/
noncomputable def formula (m : Interp) (p1 p2 : ℝ × ℝ) (x : ℝ) : Option ℝ := do
  let x1 ← if logX m then flog p1.1 else some p1.1
  let x2 ← if logX m then flog p2.1 else some p2.1
  let xu ← if logX m then flog x else some x
  let y1 ← if logY m then flog p1.2 else some p1.2
  let y2 ← if logY m then flog p2.2 else some p2.2
  if x2 - x1 = 0 then none
  else
    let y := y1 + ((y2 - y1) / (x2 - x1)) * (xu - x1)
    if logY m then some (Real.exp y) else some y

/-- The part of `interpolate` after the treatment of points outside the grid
(include/marley/InterpolationGrid.hh:303-342). -/
noncomputable def inBin (m : Interp) (ex : Bool) (p1 p2 : ℝ × ℝ) (x : ℝ) : Option ℝ :=
  if m = .constant then
    if ex = false then some p1.2
    else if p1.1 > x then some p1.2
    else some p2.2
  else formula m p1 p2 x

/-- `interpolate` (include/marley/InterpolationGrid.hh:271-344). -/
noncomputable def interpolate (g : Grid) (x : ℝ) : Res (Option ℝ) :=
  match findBinLimits g.points x with
  | .error e => .error e
  | .ok (ex, i) =>
    match g.points[i]?, g.points[i + 1]? with
    | some p1, some p2 =>
      if ex = true then
        match g.extrap with
        | .zero => .ok (some 0)
        | .endpoint => if p1.1 > x then .ok (some p1.2) else .ok (some p2.2)
        | .throw => .error .marleyError
        | .continue => .ok (inBin g.interp ex p1 p2 x)
      else .ok (inBin g.interp ex p1 p2 x)
    | _, _ => .error .ub

/-- `insert` (include/marley/InterpolationGrid.hh:346-359). -/
noncomputable def insert (l : Points) (x y : ℝ) : Points :=
  l.insertIdx (upperBound (fun p => decide (x < p.1)) l) (x, y)

/-- Inserting points one after the other into an empty grid. Used at include/marley/InterpolationGrid.hh:346-359. -/
noncomputable def insertAll (ps : Points) : Points := ps.foldl (fun l p => insert l p.1 p.2) []

end Marley.Grid
