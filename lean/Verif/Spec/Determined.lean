import Verif.Model.Sampling

/-! Specification for C133: what is determined by finitely many random numbers. -/

set_option autoImplicit false

namespace Marley.Sampling
open Marley

/-- The next `n` numbers of an engine. -/
def drawn {G : Type} (E : Engine G) : Nat → G → List ℝ
  | 0, _ => []
  | n + 1, g => (E.draw g).1 :: drawn E n (E.draw g).2

/-- The state of an engine after `n` numbers. -/
def after {G : Type} (E : Engine G) : Nat → G → G
  | 0, g => g
  | n + 1, g => after E n (E.draw g).2

/-- A function of a random engine of any kind. -/
abbrev Sampler (α : Type) : Type 1 := (G : Type) → Engine G → G → Option (Res (α × G))

/-- An outcome (no end, an exception or a value), and the state that is left. -/
def leaves {α G : Type} (r : Option (Res α)) (g : G) : Option (Res (α × G)) :=
  match r with
  | none => none
  | some (.error e) => some (.error e)
  | some (.ok a) => some (.ok (a, g))

/-- The outcome is determined by finitely many numbers, and just these are used up: whatever the
engine, there is a number `n` such that every engine, of any kind, that gives the same
`n` numbers next leads to the same outcome and is left as it is after `n` numbers. -/
def Determined {α : Type} (f : Sampler α) : Prop :=
  ∀ (G : Type) (E : Engine G) (g : G), ∃ (n : Nat) (r : Option (Res α)),
    ∀ (H : Type) (F : Engine H) (h : H), drawn F n h = drawn E n g → f H F h = leaves r (after F n h)

end Marley.Sampling
