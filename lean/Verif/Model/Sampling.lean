import Verif.Model.Basic
import Verif.Model.Std
import Mathlib.Data.Real.Sqrt
import Mathlib.Data.Int.Log
import Mathlib.Algebra.Order.Round

/-!
# Random numbers and sampling (src/Generator.cc, src/marley_utils.cc)

The state of the random engine is an arbitrary type `G`.  Functions that are
sampled or minimised may change a state `σ` and may throw: calling `f` at `x` is
`f x s`.  Loops take a bound on the number of passes; `none` means that the bound
was too small.
-/

set_option autoImplicit false

namespace Marley.Sampling
open Marley

variable {G σ : Type}

/-- The random engine as the distributions of libstdc++ use it: `draw` is
`std::generate_canonical<double, 53>(rand_gen_)`, one number in [0, 1) and the
next state of the engine (include/marley/Generator.hh:286). -/
structure Engine (G : Type) where
  draw : G → ℝ × G

/-- What is known of `generate_canonical`. See include/marley/Generator.hh:286. -/
def Engine.Lawful (E : Engine G) : Prop := ∀ g, 0 ≤ (E.draw g).1 ∧ (E.draw g).1 < 1

/-- How results of arithmetic operations are rounded, and `std::nextafter(x,
max)` (used in src/Generator.cc:189). -/
structure Arith where
  rd : ℝ → ℝ
  next : ℝ → ℝ

/-- Rounding keeps the order and zero, and what follows a double is a double not below it.
See src/Generator.cc:189. -/
structure Arith.Lawful (A : Arith) : Prop where
  mono : Monotone A.rd
  zero : A.rd 0 = 0
  next_ge : ∀ x, x ≤ A.next x
  next_rep : ∀ x, A.rd x = x → A.rd (A.next x) = A.next x

/-- Arithmetic without rounding. See src/Generator.cc:173-199. -/
def exact : Arith := ⟨id, id⟩

/-- Nearest integer, the even one of two. Used at src/Generator.cc:173-199. -/
noncomputable def roundEven (x : ℝ) : Int :=
  if Int.fract x < 1 / 2 then ⌊x⌋
  else if 1 / 2 < Int.fract x then ⌊x⌋ + 1
  else if Even ⌊x⌋ then ⌊x⌋ else ⌊x⌋ + 1

/-- Distance between a positive number's neighbours with 53 bits. Used at src/Generator.cc:189. -/
noncomputable def ulp (x : ℝ) : ℝ := (2 : ℝ) ^ (Int.log 2 x - 52)

/-- Nearest number with 53 bits.  The range of exponents is not limited: no
subnormal numbers, no infinities. Used at src/Generator.cc:173-199. -/
noncomputable def round53 (x : ℝ) : ℝ :=
  if 0 < x then roundEven (x / ulp x) * ulp x
  else if x < 0 then -(roundEven (-x / ulp (-x)) * ulp (-x))
  else 0

/-- IEEE arithmetic as far as it matters here.  The number after zero or after a
negative number is not used below. Used at src/Generator.cc:173-199. -/
noncomputable def binary64 : Arith := ⟨round53, fun x => if 0 < x then x + ulp x else x⟩

/-- `uniform_random_double` (src/Generator.cc:173-199); libstdc++ computes
`u * (b - a) + a`. -/
noncomputable def uniform (A : Arith) (E : Engine G) (min max : ℝ) (inclusive : Bool) (g : G) :
    ℝ × G :=
  let b := if inclusive then A.next max else max
  let u := E.draw g
  (A.rd (A.rd (u.1 * A.rd (b - min)) + min), u.2)

/-! ## Discrete distributions -/

/-- Partial sums of the probabilities, starting from `acc`; the last one is set to
1. Used at src/Generator.cc:370-373. -/
noncomputable def cumulative (total : ℝ) : ℝ → List ℝ → List ℝ
  | _, [] => []
  | _, [_] => [1]
  | acc, w :: t => (acc + w / total) :: cumulative total (acc + w / total) t

/-- `std::discrete_distribution` of libstdc++ (bits/random.tcc) with weights `w`
and the number `u` drawn: fewer than two weights give 0.  Negative weights and
weights whose sum is zero are forbidden by the standard.
Used at src/Generator.cc:370-373, src/Level.cc:88, src/HauserFeshbachDecay.cc:253. -/
noncomputable def pick (w : List ℝ) (u : ℝ) : Res Nat :=
  if w.length < 2 then .ok 0
  else if w.any (· < 0) ∨ w.sum = 0 then .error .ub
  else .ok (Std.lowerBound (fun a => decide (a < u)) (cumulative w.sum 0 w))

/-- `sample_from_distribution` (include/marley/Generator.hh:171-190) with a discrete
distribution.  With fewer than two weights libstdc++ draws no number. -/
noncomputable def pickFrom (E : Engine G) (w : List ℝ) (g : G) : Res (Nat × G) :=
  if w.length < 2 then .ok (0, g)
  else
    match pick w (E.draw g).1 with
    | .error e => .error e
    | .ok i => .ok (i, (E.draw g).2)

/-! ## Brent's minimisation -/

/-- The variables of `minimize`. See src/marley_utils.cc:153-160. -/
structure Brent where
  a : ℝ
  b : ℝ
  x : ℝ
  v : ℝ
  w : ℝ
  d : ℝ
  e : ℝ
  fx : ℝ
  fv : ℝ
  fw : ℝ

/-- `c` (src/marley_utils.cc:160). -/
noncomputable def golden : ℝ := 0.5 * (3 - Real.sqrt 5)

/-- `SQRT_DBL_EPSILON` (src/marley_utils.cc:161). -/
noncomputable def sqrtEps : ℝ := Real.sqrt (2 ^ (-52 : ℤ))

/-- `tol` (src/marley_utils.cc:173). -/
noncomputable def Brent.tol (s : Brent) (epsilon : ℝ) : ℝ := sqrtEps * |s.x| + epsilon

/-- The condition of the loop (src/marley_utils.cc:172-175). -/
def Brent.continues (s : Brent) (epsilon : ℝ) : Prop :=
  |s.x - 0.5 * (s.a + s.b)| > 2 * s.tol epsilon - 0.5 * (s.b - s.a)

/-- The step (src/marley_utils.cc:177-203): the new `d` and `e`. -/
noncomputable def Brent.step (s : Brent) (epsilon : ℝ) : ℝ × ℝ :=
  let m := 0.5 * (s.a + s.b)
  let tol := s.tol epsilon
  let t2 := 2 * tol
  let r1 := (s.x - s.w) * (s.fx - s.fv)
  let q1 := (s.x - s.v) * (s.fx - s.fw)
  let p1 := (s.x - s.v) * q1 - (s.x - s.w) * r1
  let q2 := 2 * (q1 - r1)
  -- `p`, `q`, `r` and `e` after the parabola was fitted, or not
  let (p, q, r, e) :=
    if |s.e| > tol then
      if q2 > 0 then (-p1, q2, s.e, s.d) else (p1, -q2, s.e, s.d)
    else (0, 0, 0, s.e)
  if |p| < |0.5 * q * r| ∧ p < q * (s.a - s.x) ∧ p < q * (s.b - s.x) then
    let u := s.x + p / q
    if u - s.a < t2 ∨ s.b - u < t2 then (if s.x < m then tol else -tol, e) else (p / q, e)
  else
    let e := (if s.x < m then s.b else s.a) - s.x
    (golden * e, e)

/-- The next abscissa (src/marley_utils.cc:204-210). -/
noncomputable def Brent.probe (s : Brent) (epsilon d : ℝ) : ℝ :=
  let tol := s.tol epsilon
  if |d| ≥ tol then s.x + d else if d > 0 then s.x + tol else s.x - tol

/-- Updating the variables (src/marley_utils.cc:213-232). -/
noncomputable def Brent.update (s : Brent) (d e u fu : ℝ) : Brent :=
  if fu ≤ s.fx then
    { a := if u < s.x then s.a else s.x, b := if u < s.x then s.x else s.b,
      x := u, fx := fu, w := s.x, fw := s.fx, v := s.w, fv := s.fw, d := d, e := e }
  else
    let s' := { s with a := if u < s.x then u else s.a, b := if u < s.x then s.b else u,
                       d := d, e := e }
    if fu ≤ s.fw ∨ s.w = s.x then { s' with v := s.w, fv := s.fw, w := u, fw := fu }
    else if fu ≤ s.fv ∨ s.v = s.x ∨ s.v = s.w then { s' with v := u, fv := fu }
    else s'

open Classical in
/-- The loop of `minimize` (src/marley_utils.cc:172-233). -/
noncomputable def brentLoop (f : ℝ → σ → Res (ℝ × σ)) (epsilon : ℝ) :
    Nat → Brent → σ → Option (Res (Brent × σ))
  | 0, _, _ => none
  | n + 1, s, st =>
    if s.continues epsilon then
      let d := (s.step epsilon).1
      let u := s.probe epsilon d
      match f u st with
      | .error e => some (.error e)
      | .ok (fu, st) => brentLoop f epsilon n (s.update d (s.step epsilon).2 u fu) st
    else some (.ok (s, st))

/-- `minimize` (src/marley_utils.cc:153-235): the location, the value there and the
state. -/
noncomputable def minimize (fuel : Nat) (f : ℝ → σ → Res (ℝ × σ)) (left right epsilon : ℝ) (st : σ) :
    Option (Res (ℝ × ℝ × σ)) :=
  let x := left + golden * (right - left)
  match f x st with
  | .error e => some (.error e)
  | .ok (fx, st) =>
    match brentLoop f epsilon fuel ⟨left, right, x, x, x, 0, 0, fx, fx, fx⟩ st with
    | none => none
    | some (.error e) => some (.error e)
    | some (.ok (s, st)) => some (.ok (s.x, s.fx, st))

/-- `-1.0*f(x)` (src/marley_utils.cc:245). -/
def negated (f : ℝ → σ → Res (ℝ × σ)) (x : ℝ) (s : σ) : Res (ℝ × σ) :=
  match f x s with
  | .error e => .error e
  | .ok (y, s) => .ok (-1 * y, s)

/-- `maximize` (src/marley_utils.cc:239-248). -/
noncomputable def maximize (fuel : Nat) (f : ℝ → σ → Res (ℝ × σ)) (left right epsilon : ℝ) (st : σ) :
    Option (Res (ℝ × ℝ × σ)) :=
  match minimize fuel (negated f) left right epsilon st with
  | some (.ok (x, y, st)) => some (.ok (x, -1 * y, st))
  | some (.error e) => some (.error e)
  | none => none

/-! ## Rejection sampling -/

/-- What `rejection_sample` leaves behind. See src/Generator.cc:241-262. -/
structure Sampled (G σ : Type) where
  x : ℝ
  /-- the last ordinate -/
  y : ℝ
  /-- the running maximum, an argument passed by reference -/
  fmax : ℝ
  gen : G
  st : σ

/-- The loop of `rejection_sample` (src/Generator.cc:241-262).  The warnings are
not modelled. -/
noncomputable def rejectLoop (A : Arith) (E : Engine G) (f : ℝ → σ → Res (ℝ × σ))
    (xmin xmax safety : ℝ) : Nat → ℝ → G → σ → Option (Res (Sampled G σ))
  | 0, _, _, _ => none
  | n + 1, fmax, g, st =>
    let x := uniform A E xmin xmax true g
    let y := uniform A E 0 fmax true x.2
    match f x.1 st with
    | .error e => some (.error e)
    | .ok (val, st) =>
      let fmax' := if val > fmax then val * safety else fmax
      if y.1 > val then rejectLoop A E f xmin xmax safety n fmax' y.2 st
      else some (.ok ⟨x.1, y.1, fmax', y.2, st⟩)

/-- `rejection_sample` (src/Generator.cc:219-265); `fmax` is `none` for
`UNKNOWN_MAX` (include/marley/marley_utils.hh:59). -/
noncomputable def rejectionSample (A : Arith) (E : Engine G) (fuel : Nat)
    (f : ℝ → σ → Res (ℝ × σ)) (xmin xmax : ℝ) (fmax : Option ℝ) (safety tolerance : ℝ)
    (g : G) (st : σ) : Option (Res (Sampled G σ)) :=
  match fmax with
  | some m => rejectLoop A E f xmin xmax safety fuel m g st
  | none =>
    match maximize fuel f xmin xmax tolerance st with
    | none => none
    | some (.error e) => some (.error e)
    | some (.ok (_, m, st)) => rejectLoop A E f xmin xmax safety fuel (m * safety) g st

/-! ## Inverse transform sampling -/

/-- The bisection (src/Generator.cc:495-510); `cdf` is divided by its value at
`xmax`, which must not be zero. -/
noncomputable def bisect (cdf : ℝ → ℝ) (norm prob tolerance : ℝ) : Nat → ℝ → ℝ → Option ℝ
  | 0, _, _ => none
  | n + 1, a, b =>
    if b - a > tolerance then
      let mid := (a + b) / 2
      if cdf mid / norm = prob then some mid
      else if cdf mid / norm > prob then bisect cdf norm prob tolerance n a mid
      else bisect cdf norm prob tolerance n mid b
    else some ((a + b) / 2)

/-- `inverse_transform_sample` (src/Generator.cc:478-511). -/
noncomputable def inverseTransform (A : Arith) (E : Engine G) (fuel : Nat) (cdf : ℝ → ℝ)
    (xmin xmax tolerance : ℝ) (g : G) : Option (ℝ × G) :=
  let p := uniform A E 0 1 true g
  if p.1 = 0 then some (xmin, p.2)
  else if p.1 = 1 then some (xmax, p.2)
  else (bisect cdf (cdf xmax) p.1 tolerance fuel xmin xmax).map (·, p.2)

end Marley.Sampling
