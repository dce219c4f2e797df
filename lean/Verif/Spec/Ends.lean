import Verif.Spec.Determined

/-! Specification for C134: loops that end, and sequences of numbers with which they do. -/

set_option autoImplicit false

namespace Marley.Sampling
open Marley

/-- A computation that is allowed to pass its loops `n` times ends: from some `n` on there is an
outcome (a value or an exception), always the same. -/
def Ends {α : Type} (f : Nat → Option α) : Prop := ∃ N v, ∀ n, N ≤ n → f n = some v

/-- Number `k` of those that an engine gives next. -/
def number {G : Type} (E : Engine G) (k : Nat) (g : G) : ℝ := (E.draw (after E k g)).1

/-- The numbers are in [0, 1), and wherever one begins to take them in groups of some length, groups
come as close as one likes to every point of the unit cube: for every box there is a group in it. -/
structure Often {G : Type} (E : Engine G) (g : G) : Prop where
  inside : ∀ k, number E k g ∈ Set.Ico (0 : ℝ) 1
  groups : ∀ (k : Nat) (box : List (ℝ × ℝ)), (∀ p ∈ box, 0 ≤ p.1 ∧ p.1 < p.2 ∧ p.2 ≤ 1) →
    ∃ j, ∀ i p, box[i]? = some p → number E (k + box.length * j + i) g ∈ Set.Ioo p.1 p.2

end Marley.Sampling
