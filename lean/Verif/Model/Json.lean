import Verif.Model.Basic

/-!
# Model of `marley::JSON` (include/marley/JSON.hh)

Text is a list of characters.  An input stream is the list of characters still
to be read; `get()` at the end of the list returns end-of-file, and since the
C++ stream then has `failbit` set, every later `get`/`peek`/`putback` has no
effect either, which the empty list models.

Non-ASCII bytes: `std::isspace` is called with a possibly negative `char`
(JSON.hh:754), formally undefined behaviour; the model follows glibc ("not a
space").

Floating-point numbers are abstract: `FloatOps F` provides the text written for
a double and the two conversions used by `parse_number`.
-/

set_option autoImplicit false

namespace Marley.Json
open Marley

/-- Text (`std::string`). Used at include/marley/JSON.hh:61-87. -/
abbrev Str := List Char

/-- `std::isspace` in the "C" locale (used at include/marley/JSON.hh:754, 805,
925, 935). -/
def isSpace (c : Char) : Bool :=
  c = ' ' || c = '\t' || c = '\n' || c = '\x0b' || c = '\x0c' || c = '\r'

/-- Decimal digit test (include/marley/JSON.hh:909, 923, 996). -/
def isDigit (c : Char) : Bool := '0' ≤ c && c ≤ '9'

/-- One step of `json_escape` (include/marley/JSON.hh:47-56). -/
def escapeChar (c : Char) : Str :=
  if c = '"' then ['\\', '"']
  else if c = '\\' then ['\\', '\\']
  else if c = '\x08' then ['\\', 'b']
  else if c = '\x0c' then ['\\', 'f']
  else if c = '\n' then ['\\', 'n']
  else if c = '\r' then ['\\', 'r']
  else if c = '\t' then ['\\', 't']
  else [c]

/-- `json_escape` (include/marley/JSON.hh:44-58). -/
def jsonEscape (s : Str) : Str := s.flatMap escapeChar

/-- Values of `marley::JSON` (include/marley/JSON.hh:61-87): the seven data
types.  A `std::map` is its list of entries in key order; keys are strictly
increasing in every value the code can build (see `WF`). -/
inductive JVal (F : Type) where
  /-- `DataType::Null` -/
  | null
  /-- `DataType::Boolean` -/
  | bool (b : Bool)
  /-- `DataType::Integral` (a `long`) -/
  | int (n : Int)
  /-- `DataType::Floating` -/
  | float (x : F)
  /-- `DataType::String` -/
  | str (s : Str)
  /-- `DataType::Array` -/
  | arr (l : List (JVal F))
  /-- `DataType::Object` -/
  | obj (m : List (Str × JVal F))

/-- The conversions between doubles and text that the JSON code delegates to the
C++ standard library. Used at include/marley/JSON.hh:551, 942. -/
structure FloatOps (F : Type) where
  /-- Text of `out_float << data_.float_` with precision 17
  (include/marley/JSON.hh:551-553). -/
  print : F → Str
  /-- `std::stod( val ) * std::pow( 10, exp )` (include/marley/JSON.hh:942).
  `std::stod` may throw. -/
  stodPow : Str → Int → Res F
  /-- `std::stol( val ) * std::pow( 10, exp )`, the product of a `long` and a
  double (include/marley/JSON.hh:945). -/
  longPow : Int → Int → F

/-- Smallest value of a 64-bit `long`. Used at include/marley/JSON.hh:933-947. -/
def longMin : Int := -9223372036854775808
/-- Largest value of a 64-bit `long`. Used at include/marley/JSON.hh:933-947. -/
def longMax : Int := 9223372036854775807

/-! ## Printing -/

/-- Decimal digits of a natural number (part of `out << data_.integer_`,
include/marley/JSON.hh:556). -/
def natText (n : Nat) : Str :=
  if n < 10 then [Char.ofNat (48 + n)]
  else natText (n / 10) ++ [Char.ofNat (48 + n % 10)]

/-- `out << data_.integer_` (include/marley/JSON.hh:556). -/
def intText : Int → Str
  | .ofNat n => natText n
  | .negSucc n => '-' :: natText (n + 1)

/-- `std::string(indent, ' ')` (include/marley/JSON.hh:504, 517, 532, 540). -/
def spaces (n : Nat) : Str := List.replicate n ' '

mutual
/-- `JSON::print` (include/marley/JSON.hh:471-566).  `step` is `indent_step`,
`ind` is `current_indent`. -/
def print {F} (ops : FloatOps F) (step : Nat) (pretty : Bool) (ind : Nat) : JVal F → Str
  | .null => "null".toList
  | .bool b => if b then "true".toList else "false".toList
  | .int n => intText n
  | .float x => ops.print x
  | .str s => '"' :: jsonEscape s ++ ['"']
  | .arr l =>
    let ind' := if pretty then ind + step else ind
    '[' :: (if pretty then ['\n'] else []) ++ printList ops step pretty ind' true l ++
      (if pretty then ['\n'] else []) ++ spaces ind ++ [']']
  | .obj m =>
    let ind' := if pretty then ind + step else ind
    '{' :: (if pretty then ['\n'] else []) ++ printMap ops step pretty ind' true m ++
      (if pretty then ['\n'] else []) ++ spaces ind ++ ['}']

/-- The element loop for arrays (include/marley/JSON.hh:526-535); `skip` is the
variable of the same name (true before the first element). -/
def printList {F} (ops : FloatOps F) (step : Nat) (pretty : Bool) (ind : Nat) (skip : Bool) :
    List (JVal F) → Str
  | [] => []
  | v :: l =>
    (if skip then [] else ',' :: (if pretty then ['\n'] else [])) ++ spaces ind ++
      print ops step pretty ind v ++ printList ops step pretty ind false l

/-- The member loop for objects (include/marley/JSON.hh:497-512). -/
def printMap {F} (ops : FloatOps F) (step : Nat) (pretty : Bool) (ind : Nat) (skip : Bool) :
    List (Str × JVal F) → Str
  | [] => []
  | (k, v) :: m =>
    (if skip then [] else ',' :: (if pretty then ['\n'] else [])) ++ spaces ind ++
      '"' :: jsonEscape k ++ ['"'] ++ (if pretty then " : ".toList else [':']) ++
      print ops step pretty ind v ++ printMap ops step pretty ind false m
end

/-- `JSON::dump_string` (include/marley/JSON.hh:456-467). -/
def dumpString {F} (ops : FloatOps F) (indentStep : Int) (v : JVal F) : Str :=
  if 0 ≤ indentStep then print ops indentStep.toNat true 0 v
  else print ops 0 false 0 v

/-! ## Parsing -/

/-- Rest of the stream after `in.ignore(max, '\n')`
(include/marley/JSON.hh:748). -/
def skipLine : Str → Str
  | [] => []
  | c :: t => if c = '\n' then t else skipLine t

/-- Rest of the stream after a multi-line comment
(include/marley/JSON.hh:739-745). -/
def skipMulti : Str → Str
  | [] => []
  | [_] => []
  | c :: d :: t => if c = '*' ∧ d = '/' then t else skipMulti (d :: t)

theorem skipLine_length (s : Str) : (skipLine s).length ≤ s.length := by
  induction s with
  | nil => simp [skipLine]
  | cons c t ih => unfold skipLine; split <;> simp <;> omega

theorem skipMulti_length (s : Str) : (skipMulti s).length ≤ s.length := by
  fun_induction skipMulti s <;> simp at * <;> omega

/-- `skip_ws` (include/marley/JSON.hh:753-763): the character left in
`read_char` (`none` for end-of-file) and the rest of the stream. -/
def skipWs : Str → Option Char × Str
  | [] => (none, [])
  | c :: t =>
    if isSpace c then skipWs t
    else if c = '/' then
      match t with
      | '/' :: t' => skipWs (skipLine t')
      | '*' :: t' => skipWs (skipMulti t')
      | _ => (some c, t)
    else (some c, t)
termination_by s => s.length
decreasing_by
  · simp
  · have := skipLine_length t'; simp; omega
  · have := skipMulti_length t'; simp; omega

/-- `consume_ws` (include/marley/JSON.hh:767-771): skip, then put the character
back (no effect at end-of-file). -/
def consumeWs (s : Str) : Str :=
  match skipWs s with
  | (some c, t) => c :: t
  | (none, _) => []

/-- Outcome of a parsing function: a value and the rest of the stream, an
exception, or (only in the model) not enough recursion fuel. See include/marley/JSON.hh:767-771, 864-899. -/
inductive PR (α : Type) where
  | ok (a : α) (rest : Str)
  | exc (e : Exc)
  | fuel

/-- Hexadecimal digit test (include/marley/JSON.hh:882-883). -/
def isHex (c : Char) : Bool :=
  ('0' ≤ c && c ≤ '9') || ('a' ≤ c && c ≤ 'f') || ('A' ≤ c && c ≤ 'F')

/-- `parse_string` (include/marley/JSON.hh:864-899), after the opening quote.
`val` is the text collected so far.  An unterminated string is returned as it
is; an unknown escape contributes a single backslash and the escaped character
is dropped; `\uXXXX` is kept as six literal characters. -/
def parseString (val : Str) : Str → PR Str
  | [] => .ok val []
  | '"' :: t => .ok val t
  | '\\' :: t =>
    match t with
    | [] => .ok (val ++ ['\\']) []
    | '"' :: t => parseString (val ++ ['"']) t
    | '\\' :: t => parseString (val ++ ['\\']) t
    | '/' :: t => parseString (val ++ ['/']) t
    | 'b' :: t => parseString (val ++ ['\x08']) t
    | 'f' :: t => parseString (val ++ ['\x0c']) t
    | 'n' :: t => parseString (val ++ ['\n']) t
    | 'r' :: t => parseString (val ++ ['\r']) t
    | 't' :: t => parseString (val ++ ['\t']) t
    | 'u' :: a :: b :: c :: d :: t =>
      if isHex a && isHex b && isHex c && isHex d then
        parseString (val ++ ['\\', 'u', a, b, c, d]) t
      else .exc .marleyError
    | 'u' :: _ => .exc .marleyError
    | _ :: t => parseString (val ++ ['\\']) t
  | c :: t => parseString (val ++ [c]) t

/-- Value of a string of decimal digits, most significant first. Used at include/marley/JSON.hh:933-947. -/
def digitsVal (ds : Str) : Nat := ds.foldl (fun n c => 10 * n + (c.toNat - 48)) 0

/-- An optional minus sign and the characters after it
(include/marley/JSON.hh:920; also the first step of `std::stol`). -/
def splitSign : Str → Str × Str
  | [] => ([], [])
  | c :: t => if c = '-' then (['-'], t) else ([], c :: t)

/-- `std::stol` on a string made of `-` and digits (used at
include/marley/JSON.hh:933, 945, 947): optional sign, then the longest run of
digits; anything after it is ignored. -/
def stol (s : Str) : Res Int :=
  let neg := (splitSign s).1 = ['-']
  let ds := (splitSign s).2.takeWhile isDigit
  if ds = [] then .error .invalidArgument
  else
    let n : Int := if neg then - (digitsVal ds : Int) else digitsVal ds
    if longMin ≤ n ∧ n ≤ longMax then .ok n else .error .outOfRange

/-- Characters collected into `val` by `parse_number`
(include/marley/JSON.hh:909-914). -/
def isNumChar (c : Char) : Bool := c = '-' || isDigit c || c = '.'

/-- Characters that may follow a number (include/marley/JSON.hh:925, 935). -/
def isNumEnd (c : Char) : Bool := isSpace c || c = ',' || c = ']' || c = '}'

/-- The final conversion of `parse_number` (include/marley/JSON.hh:941-948). -/
def finishNumber {F} (ops : FloatOps F) (val : Str) (expStr : Str) (exp : Int) (rest : Str) :
    PR (JVal F) :=
  if val.contains '.' then
    match ops.stodPow val exp with
    | .ok x => .ok (.float x) rest
    | .error e => .exc e
  else if expStr ≠ [] then
    match stol val with
    | .ok n => .ok (.float (ops.longPow n exp)) rest
    | .error e => .exc e
  else
    match stol val with
    | .ok n => .ok (.int n) rest
    | .error e => .exc e

/-- The exponent part of `parse_number` (include/marley/JSON.hh:920-933 and
939-948), after `e` or `E`. -/
def parseExponent {F} (ops : FloatOps F) (val : Str) (s : Str) : PR (JVal F) :=
  let expStr := (splitSign s).1 ++ (splitSign s).2.takeWhile isDigit
  match (splitSign s).2.dropWhile isDigit with
  | [] => .exc .marleyError
  | c :: t =>
    if isNumEnd c then
      match stol expStr with
      | .ok e => finishNumber ops val expStr e (c :: t)
      | .error e => .exc e
    else .exc .marleyError

/-- `parse_number` (include/marley/JSON.hh:902-950) on the stream that still
includes the first character `old`. -/
def parseNumber {F} (ops : FloatOps F) (s : Str) : PR (JVal F) :=
  let val := s.takeWhile isNumChar
  match s.dropWhile isNumChar with
  | [] => .exc .marleyError
  | c :: t =>
    if c = 'E' ∨ c = 'e' then parseExponent ops val t
    else if isNumEnd c then finishNumber ops val [] 0 (c :: t)
    else .exc .marleyError

/-- `parse_bool` (include/marley/JSON.hh:952-973) after the first character. -/
def parseBool {F} (old : Char) (s : Str) : PR (JVal F) :=
  if old = 't' ∧ s.take 3 = "rue".toList then .ok (.bool true) (s.drop 3)
  else if old = 'f' ∧ s.take 4 = "alse".toList then .ok (.bool false) (s.drop 4)
  else .exc .marleyError

/-- `parse_null` (include/marley/JSON.hh:975-984) after the `n`. -/
def parseNull {F} (s : Str) : PR (JVal F) :=
  if s.take 3 = "ull".toList then .ok .null (s.drop 3) else .exc .marleyError

/-- `std::string::operator<` on keys: lexicographic order of character codes
(ordering of `std::map<std::string, JSON>`, include/marley/JSON.hh:71). -/
def keyLt : Str → Str → Bool
  | [], [] => false
  | [], _ :: _ => true
  | _ :: _, [] => false
  | a :: s, b :: t => if a.toNat < b.toNat then true
      else if b.toNat < a.toNat then false else keyLt s t

/-- `map_->operator[](key) = value` (include/marley/JSON.hh:296-299, 822):
replace the entry or insert it at its place in the order. -/
def mapSet {F} (m : List (Str × JVal F)) (k : Str) (v : JVal F) : List (Str × JVal F) :=
  match m with
  | [] => [(k, v)]
  | (k', v') :: m' =>
    if k = k' then (k, v) :: m'
    else if keyLt k k' then (k, v) :: (k', v') :: m'
    else (k', v') :: mapSet m' k v

/-- Characters of an unquoted key (include/marley/JSON.hh:802-810). -/
def isKeyChar (c : Char) : Bool := !(c = ':' || isSpace c)

/-- Reading of a key in `parse_object` (include/marley/JSON.hh:795-812) on a
stream that starts after `consume_ws`.  The `key.to_string()` of line 822,
which *escapes* the text (JSON.hh:359-362), is applied by the caller. -/
def parseKey (s : Str) : PR Str :=
  match s with
  | '"' :: t => parseString [] t
  | s => .ok (s.takeWhile isKeyChar) (s.dropWhile isKeyChar)

mutual
/-- `parse_next` (include/marley/JSON.hh:986-1005).  The first argument bounds
the recursion depth; `PR.fuel` reports that it was too small, and is proved not
to occur when it is chosen as in `load`. -/
def parseNext {F} (ops : FloatOps F) : Nat → Str → PR (JVal F)
  | 0, _ => .fuel
  | n + 1, s =>
    match skipWs s with
    | (none, _) => .exc .marleyError
    | (some c, t) =>
      if c = '[' then parseArray ops n [] t
      else if c = '{' then parseObject ops n [] t
      else if c = '"' then
        match parseString [] t with
        | .ok v rest => .ok (.str v) rest
        | .exc e => .exc e
        | .fuel => .fuel
      else if c = 't' ∨ c = 'f' then parseBool c t
      else if c = 'n' then parseNull t
      else if isDigit c || c = '-' then parseNumber ops (c :: t)
      else .exc .marleyError

/-- The loop of `parse_array` (include/marley/JSON.hh:840-861); `acc` holds the
elements read so far. -/
def parseArray {F} (ops : FloatOps F) : Nat → List (JVal F) → Str → PR (JVal F)
  | 0, _, _ => .fuel
  | n + 1, acc, s =>
    match consumeWs s with
    | ']' :: t => .ok (.arr acc) t
    | s1 =>
      match parseNext ops n s1 with
      | .exc e => .exc e
      | .fuel => .fuel
      | .ok v s2 =>
        match consumeWs s2 with
        | ',' :: t => parseArray ops n (acc ++ [v]) t
        | ']' :: t => .ok (.arr (acc ++ [v])) t
        | _ => .exc .marleyError

/-- The loop of `parse_object` (include/marley/JSON.hh:786-833); `acc` is the
map built so far.  Keys are stored escaped (line 822 with 359-362). -/
def parseObject {F} (ops : FloatOps F) : Nat → List (Str × JVal F) → Str → PR (JVal F)
  | 0, _, _ => .fuel
  | n + 1, acc, s =>
    match consumeWs s with
    | '}' :: t => .ok (.obj acc) t
    | s1 =>
      match parseKey s1 with
      | .exc e => .exc e
      | .fuel => .fuel
      | .ok key s2 =>
        match skipWs s2 with
        | (some ':', s3) =>
          match parseNext ops n (consumeWs s3) with
          | .exc e => .exc e
          | .fuel => .fuel
          | .ok v s4 =>
            match skipWs s4 with
            | (some ',', t) => parseObject ops n (mapSet acc (jsonEscape key) v) t
            | (some '}', t) => .ok (.obj (mapSet acc (jsonEscape key) v)) t
            | _ => .exc .marleyError
        | _ => .exc .marleyError
end

/-- `JSON::load(std::istream&)` (include/marley/JSON.hh:1017-1028), with the
unread rest of the stream. -/
def loadStream {F} (ops : FloatOps F) (s : Str) : PR (JVal F) :=
  match skipWs s with
  | (some '{', t) => parseNext ops (2 * s.length + 3) ('{' :: t)
  | _ => .exc .marleyError

/-- `JSON::load(const std::string&)` (include/marley/JSON.hh:1030-1033): the
rest of the text is ignored.  `none` would mean that the model ran out of
recursion fuel; theorem `C03_load_total` shows it never is. -/
def load {F} (ops : FloatOps F) (s : Str) : Option (Res (JVal F)) :=
  match loadStream ops s with
  | .ok v _ => some (.ok v)
  | .exc e => some (.error e)
  | .fuel => none

/-! ## Accessors -/

/-- `map_->find(key)` (include/marley/JSON.hh:298, 312, 330). -/
def mapFind {F} (m : List (Str × JVal F)) (k : Str) : Option (JVal F) :=
  match m with
  | [] => none
  | (k', v) :: m' => if k = k' then some v else mapFind m' k

/-- `has_key` (include/marley/JSON.hh:328-332). -/
def hasKey {F} (j : JVal F) (k : Str) : Bool :=
  match j with
  | .obj m => (mapFind m k).isSome
  | _ => false

/-- Const `at(key)` (include/marley/JSON.hh:311-313): undefined when the value
is not an object (the union member read is not the active one). -/
def at? {F} (j : JVal F) (k : Str) : Res (JVal F) :=
  match j with
  | .obj m => match mapFind m k with
    | some v => .ok v
    | none => .error .outOfRange
  | _ => .error .ub

/-- `length` (include/marley/JSON.hh:323-326). -/
def length {F} : JVal F → Int
  | .arr l => l.length
  | _ => -1

/-- `size` (include/marley/JSON.hh:334-341). -/
def size {F} : JVal F → Int
  | .obj m => m.length
  | .arr l => l.length
  | _ => -1

/-- Nearest integer to `n / 2^e`, ties to even. Used at include/marley/JSON.hh:404. -/
def roundDiv (n : Nat) (e : Nat) : Nat :=
  let q := n / 2 ^ e
  let r := n % 2 ^ e
  if 2 * r < 2 ^ e then q
  else if 2 ^ e < 2 * r then q + 1
  else if q % 2 = 0 then q else q + 1

/-- Magnitude of the IEEE double nearest to `n` (round to nearest, ties to
even, 53 significant bits). Used at include/marley/JSON.hh:404. -/
def natToDouble (n : Nat) : Nat :=
  if n < 2 ^ 53 then n
  else
    let e := Nat.log2 n - 52
    roundDiv n e * 2 ^ e

/-- Value of a `long` after conversion to `double`
(include/marley/JSON.hh:404). -/
def longToDouble : Int → Int
  | .ofNat n => natToDouble n
  | .negSucc n => - (natToDouble (n + 1) : Int)

/-- `to_string_or_throw` (include/marley/JSON.hh:359-369): the *escaped* text. -/
def toStringOrThrow {F} : JVal F → Res Str
  | .str s => .ok (jsonEscape s)
  | _ => .error .marleyError

/-- `to_double_or_throw` (include/marley/JSON.hh:376-390).  The result is the
stored double or the `long` converted to a double. -/
def toDoubleOrThrow {F} : JVal F → Res (F ⊕ Int)
  | .float x => .ok (.inl x)
  | .int n => .ok (.inr (longToDouble n))
  | _ => .error .marleyError

/-- `to_long(bool&)` (include/marley/JSON.hh:397-400): the value when the stored
type is `Integral`, otherwise `ok = false`. -/
def toLong? {F} : JVal F → Option Int
  | .int n => some n
  | _ => none

/-- `to_long_or_throw` (include/marley/JSON.hh:402-408).  The `long` is stored
in a variable of type `double` and converted back on return, which is undefined
when the double is outside the range of `long`. -/
def toLongOrThrow {F} : JVal F → Res Int
  | .int n =>
    let d := longToDouble n
    if longMin ≤ d ∧ d ≤ longMax then .ok d else .error .ub
  | _ => .error .marleyError

/-- `to_bool_or_throw` (include/marley/JSON.hh:415-426). -/
def toBoolOrThrow {F} : JVal F → Res Bool
  | .bool b => .ok b
  | _ => .error .marleyError

/-- Common shape of the getters without default: `check_if_object`
(include/marley/JSON.hh:570-574), then look up and convert or throw
(lines 623-628, 641-646, 659-664, 677-682). -/
def getWith {F α} (conv : JVal F → Res α) (j : JVal F) (k : Str) : Res α :=
  match j with
  | .obj m => match mapFind m k with
    | some v => conv v
    | none => .error .marleyError
  | _ => .error .marleyError

/-- Common shape of the getters with a default value
(include/marley/JSON.hh:633-637, 651-655, 669-673, 687-693). -/
def getWithDefault {F α} (conv : JVal F → Res α) (j : JVal F) (k : Str) (d : α) : Res α :=
  match j with
  | .obj m => match mapFind m k with
    | some v => conv v
    | none => .ok d
  | _ => .error .marleyError

/-- `get_double(key)` (include/marley/JSON.hh:623-628). -/
def getDouble {F} (j : JVal F) (k : Str) : Res (F ⊕ Int) := getWith toDoubleOrThrow j k
/-- `get_long(key)` (include/marley/JSON.hh:641-646). -/
def getLong {F} (j : JVal F) (k : Str) : Res Int := getWith toLongOrThrow j k
/-- `get_bool(key)` (include/marley/JSON.hh:659-664). -/
def getBool {F} (j : JVal F) (k : Str) : Res Bool := getWith toBoolOrThrow j k
/-- `get_string(key)` (include/marley/JSON.hh:677-682). -/
def getString {F} (j : JVal F) (k : Str) : Res Str := getWith toStringOrThrow j k
/-- `get_double(key, default)` (include/marley/JSON.hh:633-637). -/
def getDoubleD {F} (j : JVal F) (k : Str) (d : F ⊕ Int) : Res (F ⊕ Int) :=
  getWithDefault toDoubleOrThrow j k d
/-- `get_long(key, default)` (include/marley/JSON.hh:651-655). -/
def getLongD {F} (j : JVal F) (k : Str) (d : Int) : Res Int :=
  getWithDefault toLongOrThrow j k d
/-- `get_bool(key, default)` (include/marley/JSON.hh:669-673). -/
def getBoolD {F} (j : JVal F) (k : Str) (d : Bool) : Res Bool :=
  getWithDefault toBoolOrThrow j k d
/-- `get_string(key, default)` (include/marley/JSON.hh:687-693). -/
def getStringD {F} (j : JVal F) (k : Str) (d : Str) : Res Str :=
  getWithDefault toStringOrThrow j k d

/-- `get_object(key, throw_error)` (include/marley/JSON.hh:697-703).  Line 701
constructs a `marley::Error` but does not throw it, so a missing key gives an
empty object in every case; a present key is returned whatever its type. -/
def getObject {F} (j : JVal F) (k : Str) (_throwError : Bool) : Res (JVal F) :=
  match j with
  | .obj m => match mapFind m k with
    | some v => .ok v
    | none => .ok (.obj [])
  | _ => .error .marleyError

end Marley.Json
