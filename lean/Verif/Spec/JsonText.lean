import Verif.Spec.Json

/-!
# JSON texts as people write them

The grammar of the texts that configuration files consist of, with what each text stands for.  Nothing here refers to the parser.
Compared with the JSON standard there may be comments, keys without quotes and a comma after the last element.
-/

set_option autoImplicit false

namespace Marley.Json
open Marley

variable {F : Type}

/-- The escapes of a backslash and a letter, with the character that they stand for. -/
def escapes : List (Char × Char) :=
  [('"', '"'), ('\\', '\\'), ('/', '/'), ('b', '\x08'), ('f', '\x0c'), ('n', '\n'), ('r', '\r'), ('t', '\t')]

/-- `StringText v t`: between quotes the text `t` stands for the characters `v`. -/
inductive StringText : Str → Str → Prop
  | nil : StringText [] []
  | plain (c : Char) (v t : Str) : c ≠ '"' → c ≠ '\\' → StringText v t → StringText (c :: v) (c :: t)
  | escape (l c : Char) (v t : Str) : (l, c) ∈ escapes → StringText v t → StringText (c :: v) ('\\' :: l :: t)

/-- A digit. -/
def IsDigit (c : Char) : Prop := c ∈ ['0', '1', '2', '3', '4', '5', '6', '7', '8', '9']

/-- One or more digits. -/
def Digits (ds : Str) : Prop := ds ≠ [] ∧ ∀ c ∈ ds, IsDigit c

/-- The value of digits. -/
def decimal (ds : Str) : Nat := ds.foldl (fun n c => 10 * n + (c.toNat - '0'.toNat)) 0

/-- `Whole n t`: a whole number with or without a minus sign that fits in a `long`. -/
inductive Whole : Int → Str → Prop
  | pos (ds : Str) : Digits ds → (decimal ds : Int) ≤ longMax → Whole (decimal ds) ds
  | neg (ds : Str) : Digits ds → longMin ≤ -(decimal ds : Int) → Whole (-(decimal ds : Int)) ('-' :: ds)

/-- A number with a decimal point. -/
inductive Fraction : Str → Prop
  | pos (ds fs : Str) : Digits ds → (∀ c ∈ fs, IsDigit c) → Fraction (ds ++ '.' :: fs)
  | neg (ds fs : Str) : Digits ds → (∀ c ∈ fs, IsDigit c) → Fraction ('-' :: (ds ++ '.' :: fs))

/-- `NumberText ops v t`: the number `t` stands for `v`; how digits become doubles is up to the standard library. -/
inductive NumberText (ops : FloatOps F) : JVal F → Str → Prop
  | whole (n : Int) (t : Str) : Whole n t → NumberText ops (.int n) t
  | fraction (t : Str) (x : F) : Fraction t → ops.stodPow t 0 = .ok x → NumberText ops (.float x) t
  | wholeExp (n e : Int) (t l u) : Whole n t → l = 'e' ∨ l = 'E' → Whole e u →
      NumberText ops (.float (ops.longPow n e)) (t ++ l :: u)
  | fractionExp (e : Int) (x : F) (t l u) : Fraction t → l = 'e' ∨ l = 'E' → Whole e u → ops.stodPow t e = .ok x →
      NumberText ops (.float x) (t ++ l :: u)

/-- Blanks and comments that may follow a value: directly behind a number no comment may begin. -/
def Gap (v : JVal F) (g : Str) : Prop :=
  Trivia g ∧ (∀ n, v = .int n → g.head? ≠ some '/') ∧ (∀ x, v = .float x → g.head? ≠ some '/')

/-- `KeyText k t g`: the key `k`, written as `t` and followed by blanks and comments `g`.  Without quotes a key contains neither blanks
nor colons, is not the beginning of something else, and no comment begins directly behind it. -/
inductive KeyText : Str → Str → Str → Prop
  | quoted (k t g : Str) : (∀ c ∈ k, ¬ NeedsEscape c) → StringText k t → Trivia g → KeyText k ('"' :: (t ++ ['"'])) g
  | bare (k g : Str) : k ≠ [] → (∀ c ∈ k, ¬ NeedsEscape c ∧ c ∉ [':', ' ', '\x0b']) → k.head? ≠ some '}' →
      k.take 2 ≠ ['/', '/'] → k.take 2 ≠ ['/', '*'] → Trivia g → g.head? ≠ some '/' → KeyText k k g

/-- `IsMapOf m ms`: the map `m` has exactly the last value given for each key, in the order of the keys. -/
def IsMapOf (m ms : List (Str × JVal F)) : Prop :=
  m.Pairwise (fun p q => keyLt p.1 q.1 = true) ∧
  ∀ k v, (k, v) ∈ m ↔ ∃ l r, ms = l ++ (k, v) :: r ∧ ∀ p ∈ r, p.1 ≠ k

mutual
/-- `ValueText ops v t`: the text `t` stands for the value `v`. -/
inductive ValueText (ops : FloatOps F) : JVal F → Str → Prop
  | null : ValueText ops .null ['n', 'u', 'l', 'l']
  | yes : ValueText ops (.bool true) ['t', 'r', 'u', 'e']
  | no : ValueText ops (.bool false) ['f', 'a', 'l', 's', 'e']
  | string (v t : Str) : StringText v t → ValueText ops (.str v) ('"' :: (t ++ ['"']))
  | number (v : JVal F) (t : Str) : NumberText ops v t → ValueText ops v t
  | array (vs : List (JVal F)) (t : Str) : ItemsText ops vs t → ValueText ops (.arr vs) ('[' :: t)
  | object (m ms : List (Str × JVal F)) (t : Str) : MembersText ops ms t → IsMapOf m ms → ValueText ops (.obj m) ('{' :: t)

/-- The elements of an array with the closing bracket. -/
inductive ItemsText (ops : FloatOps F) : List (JVal F) → Str → Prop
  | close (g : Str) : Trivia g → ItemsText ops [] (g ++ [']'])
  | last (g : Str) (v : JVal F) (t g' : Str) : Trivia g → ValueText ops v t → Gap v g' →
      ItemsText ops [v] (g ++ (t ++ (g' ++ [']'])))
  | more (g : Str) (v : JVal F) (t g' : Str) (vs : List (JVal F)) (u : Str) : Trivia g → ValueText ops v t → Gap v g' →
      ItemsText ops vs u → ItemsText ops (v :: vs) (g ++ (t ++ (g' ++ ',' :: u)))

/-- The members of an object with the closing brace. -/
inductive MembersText (ops : FloatOps F) : List (Str × JVal F) → Str → Prop
  | close (g : Str) : Trivia g → MembersText ops [] (g ++ ['}'])
  | last (g k kt g1 g2 : Str) (v : JVal F) (t g3 : Str) : Trivia g → KeyText k kt g1 → Trivia g2 → ValueText ops v t → Gap v g3 →
      MembersText ops [(k, v)] (g ++ (kt ++ (g1 ++ ':' :: (g2 ++ (t ++ (g3 ++ ['}']))))))
  | more (g k kt g1 g2 : Str) (v : JVal F) (t g3 : Str) (ms : List (Str × JVal F)) (u : Str) : Trivia g → KeyText k kt g1 →
      Trivia g2 → ValueText ops v t → Gap v g3 → MembersText ops ms u →
      MembersText ops ((k, v) :: ms) (g ++ (kt ++ (g1 ++ ':' :: (g2 ++ (t ++ (g3 ++ ',' :: u))))))
end

end Marley.Json
