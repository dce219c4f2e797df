import Verif.Spec.EventReader

/-! Specification vocabulary for files of events that are cut off. -/

set_option autoImplicit false

namespace Marley.Rdr
open Marley Marley.Json

/-- `text` is the beginning of the file of `es`, cut off after `k` complete events: the file of
the first `k` is there, the file of one more is not. -/
structure CutAfter {α : Type} (file : List α → Str) (es : List α) (k : Nat) (text : Str) : Prop where
  begins : text <+: file es
  le : k ≤ es.length
  complete : file (es.take k) <+: text
  no_more : k < es.length → ¬ file (es.take (k + 1)) <+: text

/-- The charge of the last particle of the event has one digit. -/
def OneDigit {K : Type} (e : Event K) : Prop :=
  ∀ p ∈ e.final.getLast?, -9 ≤ p.charge ∧ p.charge ≤ 9

/-- How often the next event is asked for. -/
def nexts (n : Nat) : List Op := List.replicate n .next

end Marley.Rdr
