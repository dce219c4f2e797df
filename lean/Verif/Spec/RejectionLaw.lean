import Verif.Spec.Sampling
import Mathlib.MeasureTheory.Constructions.Pi
import Mathlib.MeasureTheory.Measure.Lebesgue.Basic

/-! Random numbers that are independent and uniform: what the draws of the engine
are taken to be when the distribution of a result is stated. -/

set_option autoImplicit false

namespace Marley.Sampling
open MeasureTheory

/-- The uniform distribution on [0, 1). -/
noncomputable def unit : Measure ℝ := volume.restrict (Set.Ico 0 1)

/-- `2 n + 1` independent uniform numbers: `n` pairs and one more. -/
noncomputable def iid (n : Nat) : Measure ((Fin n → ℝ × ℝ) × ℝ) :=
  (Measure.pi fun _ => unit.prod unit).prod unit

/-- The numbers in the order in which they are drawn. -/
def stream {n : Nat} (d : (Fin n → ℝ × ℝ) × ℝ) : List ℝ :=
  (List.ofFn d.1).flatMap (fun p => [p.1, p.2]) ++ [d.2]

end Marley.Sampling
