import Verif.Model.Sampling

/-!
# Notions used to state the properties of sampling
-/

set_option autoImplicit false

namespace Marley.Sampling
open Marley

/-- A function that remembers where it was evaluated, the latest abscissa first.
-/
def logged (f : ℝ → ℝ) (x : ℝ) (log : List ℝ) : Res (ℝ × List ℝ) := .ok (f x, x :: log)

/-- An engine that replays a list of numbers, then zeros. -/
def replay : Engine (List ℝ) := ⟨fun l => (l.headD 0, l.tail)⟩

/-- `z` is a point of `[lo, hi]` where the function `F` crosses the value `p`. -/
def Crosses (F : ℝ → ℝ) (lo hi p z : ℝ) : Prop :=
  lo ≤ z ∧ z ≤ hi ∧ (∀ t, lo ≤ t → t < z → F t ≤ p) ∧ (∀ t, z < t → t ≤ hi → p ≤ F t)

/-- A constant engine. -/
noncomputable def half : Engine Unit := ⟨fun _ => (1 / 2, ())⟩

end Marley.Sampling
