import Verif.Model.Json

/-!
# Specification vocabulary for the JSON properties

Nothing here refers to the parser or printer, except `FloatOk`, which says what
it means for one double to survive text (the conversion itself is the C++
standard library's).
-/

set_option autoImplicit false

namespace Marley.Json
open Marley

/-- Values that the library can hold: integers fit in a `long`, map entries are
in strictly increasing key order, and every double satisfies `P`. -/
inductive Holdable {F} (P : F → Prop) : JVal F → Prop
  | null : Holdable P .null
  | bool (b) : Holdable P (.bool b)
  | int (n) : longMin ≤ n → n ≤ longMax → Holdable P (.int n)
  | float (x) : P x → Holdable P (.float x)
  | str (s) : Holdable P (.str s)
  | arr (l) : (∀ v ∈ l, Holdable P v) → Holdable P (.arr l)
  | obj (m) : m.Pairwise (fun p q => keyLt p.1 q.1 = true) →
      (∀ p ∈ m, Holdable P p.2) → Holdable P (.obj m)

/-- The characters JSON wants escaped, as far as this library is concerned:
quote, backslash, backspace, form feed, newline, carriage return, tab. -/
def NeedsEscape (c : Char) : Prop :=
  c ∈ ['"', '\\', '\x08', '\x0c', '\n', '\r', '\t']

/-- Keys contain no character that needs escaping, at every depth. -/
inductive PlainKeys {F} : JVal F → Prop
  | null : PlainKeys .null
  | bool (b) : PlainKeys (.bool b)
  | int (n) : PlainKeys (.int n)
  | float (x) : PlainKeys (.float x)
  | str (s) : PlainKeys (.str s)
  | arr (l) : (∀ v ∈ l, PlainKeys v) → PlainKeys (.arr l)
  | obj (m) : (∀ p ∈ m, ∀ c ∈ p.1, ¬ NeedsEscape c) → (∀ p ∈ m, PlainKeys p.2) →
      PlainKeys (.obj m)

/-- The text printed for the double `x` starts like a number and is read back as
the same double, whatever delimiter follows. -/
def FloatOk {F} (ops : FloatOps F) (x : F) : Prop :=
  (∃ c t, ops.print x = c :: t ∧ (isDigit c = true ∨ c = '-')) ∧
  ∀ d rest, isNumEnd d = true →
    parseNumber ops (ops.print x ++ d :: rest) = .ok (.float x) (d :: rest)

/-- A run of blanks and complete comments. -/
inductive Trivia : Str → Prop
  | nil : Trivia []
  | blank (c : Char) (p : Str) : c ∈ [' ', '\t', '\n', '\x0b', '\x0c', '\r'] →
      Trivia p → Trivia (c :: p)
  | line (body p : Str) : '\n' ∉ body → Trivia p →
      Trivia ('/' :: '/' :: (body ++ '\n' :: p))
  | block (body p : Str) : ¬ (['*', '/'] <:+: body ++ ['*']) → Trivia p →
      Trivia ('/' :: '*' :: (body ++ '*' :: '/' :: p))

/-- Shape of the text a default-format C++ stream produces for a finite double:
`[-]digits[.digits][e(+|-)digits]`. -/
structure NumText where
  /-- leading minus sign -/
  neg : Bool
  /-- digits before the point -/
  ip : Str
  /-- digits after the point, if there is a point -/
  fp : Option Str
  /-- exponent: sign (true for `+`) and digits -/
  ex : Option (Bool × Str)

/-- All parts are nonempty digit strings. -/
def NumText.Valid (d : NumText) : Prop :=
  d.ip ≠ [] ∧ (∀ c ∈ d.ip, isDigit c = true) ∧
  (∀ f, d.fp = some f → f ≠ [] ∧ ∀ c ∈ f, isDigit c = true) ∧
  (∀ s e, d.ex = some (s, e) → e ≠ [] ∧ ∀ c ∈ e, isDigit c = true)

/-- Sign and digits before the exponent. -/
def NumText.mantissa (d : NumText) : Str :=
  (if d.neg then ['-'] else []) ++ d.ip ++
    (match d.fp with | none => [] | some f => '.' :: f)

/-- The text. -/
def NumText.text (d : NumText) : Str :=
  d.mantissa ++
    (match d.ex with
      | none => []
      | some (s, e) => 'e' :: (if s then '+' else '-') :: e)

end Marley.Json
