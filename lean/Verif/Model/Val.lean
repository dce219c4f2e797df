import Mathlib.Analysis.SpecialFunctions.Pow.Real

/-!
# Doubles with infinities and NaN

Used where the code compares or computes with results of divisions by zero.
Finite values are real numbers: rounding and overflow are not modelled.  A zero
counts as positive when something is divided by it.
-/

set_option autoImplicit false

namespace Marley

/-- A double (IEEE 754): a number, an infinity (`true` for the negative one) or NaN.
Used at src/NuclearReaction.cc:490-544, 592-706. -/
inductive Val where
  | num (x : ℝ)
  | inf (neg : Bool)
  | nan

namespace Val

/-- IEEE addition. Used at src/NuclearReaction.cc:490-544. -/
noncomputable def add : Val → Val → Val
  | num a, num b => num (a + b)
  | inf a, num _ => inf a
  | num _, inf b => inf b
  | inf a, inf b => if a = b then inf a else nan
  | nan, _ => nan
  | _, nan => nan

/-- Changing the sign. Used at src/NuclearReaction.cc:490-544. -/
noncomputable def neg : Val → Val
  | num a => num (-a)
  | inf a => inf (!a)
  | nan => nan

/-- IEEE multiplication. Used at src/NuclearReaction.cc:490-544. -/
noncomputable def mul : Val → Val → Val
  | num a, num b => num (a * b)
  | inf a, num x => if x = 0 then nan else inf (a ^^ decide (x < 0))
  | num x, inf a => if x = 0 then nan else inf (a ^^ decide (x < 0))
  | inf a, inf b => inf (a ^^ b)
  | nan, _ => nan
  | _, nan => nan

/-- IEEE division. Used at src/NuclearReaction.cc:490-544. -/
noncomputable def div : Val → Val → Val
  | num a, num b =>
    if b = 0 then (if a = 0 then nan else inf (decide (a < 0))) else num (a / b)
  | inf a, num x => if x = 0 then inf a else inf (a ^^ decide (x < 0))
  | num _, inf _ => num 0
  | inf _, inf _ => nan
  | nan, _ => nan
  | _, nan => nan

noncomputable instance : Add Val := ⟨add⟩
noncomputable instance : Neg Val := ⟨neg⟩
noncomputable instance : Sub Val := ⟨fun a b => add a (neg b)⟩
noncomputable instance : Mul Val := ⟨mul⟩
noncomputable instance : Div Val := ⟨div⟩

/-- `std::pow(x, 2)`. Used at src/NuclearReaction.cc:490-544. -/
noncomputable def sq (v : Val) : Val := v * v

/-- `std::abs`. Used at src/NuclearReaction.cc:642-643. -/
noncomputable def abs : Val → Val
  | num a => num |a|
  | inf _ => inf false
  | nan => nan

/-- `std::sqrt`. Used at src/NuclearReaction.cc:490-544. -/
noncomputable def sqrt : Val → Val
  | num a => if a < 0 then nan else num (Real.sqrt a)
  | inf a => if a then nan else inf false
  | nan => nan

/-- `std::pow(x, -0.5)`. Used at src/NuclearReaction.cc:671. -/
noncomputable def rsqrt : Val → Val
  | num a => if a < 0 then nan else if a = 0 then inf false else num (1 / Real.sqrt a)
  | inf _ => num 0
  | nan => nan

/-- IEEE `<`. Used at src/NuclearReaction.cc:642-647. -/
noncomputable def lt : Val → Val → Bool
  | num a, num b => decide (a < b)
  | inf a, num _ => a
  | num _, inf b => !b
  | inf a, inf b => a && !b
  | nan, _ => false
  | _, nan => false

/-- IEEE `<=`. Used at src/NuclearReaction.cc:642-647. -/
noncomputable def le : Val → Val → Bool
  | num a, num b => decide (a ≤ b)
  | inf a, num _ => a
  | num _, inf b => !b
  | inf a, inf b => a || !b
  | nan, _ => false
  | _, nan => false

/-- `marley_utils::real_sqrt` (src/marley_utils.cc:301-308). -/
noncomputable def realSqrt (v : Val) : Val := if lt v (num 0) then num 0 else sqrt v

end Val
end Marley
