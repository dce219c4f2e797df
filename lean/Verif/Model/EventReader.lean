import Verif.Model.OutputFile

/-!
# Model of the event file reader (src/EventFileReader.cc)

The reader opens a file on the first use, finds out its format and then hands out one
event after the other.  The file does not change while the reader exists.  Beside the
reader itself there is the global flag that tells whether error messages are logged
(include/marley/Error.hh:45-48, 55).

Not modelled: what is logged; the parts of an event and the position in the file after
an exception in the middle of an event (the model then shows a failed stream).
-/

set_option autoImplicit false

namespace Marley.Rdr
open Marley Marley.Json Marley.Out

variable {K : Type}

/-- The ways of ending with an exception.  `plain` is an object of class
`std::exception` itself, as thrown by `throw err` at src/EventFileReader.cc:145: a
copy that no longer is what was caught. -/
inductive Fail where
  | exc (e : Exc)
  | plain
  deriving DecidableEq, Repr

/-- What is found under the name of the file: whether `find_file` finds it
(src/EventFileReader.cc:43-45, see `Verif.Model.FileManager`) and its text, `none` if it
cannot be opened for reading. -/
structure OnDisk where
  found : Bool
  text : Option Str

/-- The data members of the reader (include/marley/EventFileReader.hh:73-103).
`format` is `none` until it is assigned for the first time; `opened` tells whether the
stream is attached to the file; `stream` is the text still to be read, `none` if the
stream has failed; `events` is the array behind `json_event_array_wrapper_`, `none` for
the null pointer; `seen` is the position of `json_event_iter_`, counted from "one before
the beginning" (lines 136-139).  Such a position does not exist in standard C++; with
the usual `std::deque` it works as the comment there says, and so it is modelled. -/
structure Reader (K : Type) where
  format : Option Format
  opened : Bool
  stream : Option Str
  events : Option (List (JVal K))
  seen : Nat
  xsec : K
  initialized : Bool

/-- A new reader (src/EventFileReader.cc:26-32, include/marley/EventFileReader.hh:97, 103). -/
def fresh [Zero K] : Reader K := ⟨none, false, none, none, 0, 0, false⟩

/-- The reader and the flag `log_them_` (include/marley/Error.hh:55). -/
structure Sys (K : Type) where
  logging : Bool
  reader : Reader K

/-- `marley::Event()` (src/Event.cc:58-61 with src/Particle.cc:57 and
include/marley/Particle.hh:159, 162, 172): two initial and two final particles, all zero. -/
def emptyEvent [Zero K] : Event K :=
  ⟨[⟨0, 0, 0, 0, 0, 0, 0⟩, ⟨0, 0, 0, 0, 0, 0, 0⟩], [⟨0, 0, 0, 0, 0, 0, 0⟩, ⟨0, 0, 0, 0, 0, 0, 0⟩],
    0, 0, ⟨true⟩⟩

/-- `in_ >> temp_char` at the beginning of the text (src/EventFileReader.cc:60-61). -/
def firstChar (s : Str) : Option Char := (skipBlank s).head?

/-- `in_ >> flux_avg_tot_xs_ >> temp_event` at the beginning of the text
(src/EventFileReader.cc:75): the cross section if both were read. -/
def tryAscii [Zero K] (f : DblFmt K) (s : Str) : Res (Option K) :=
  match f.get s with
  | none => .ok none
  | some (x, s) =>
    match Event.read f s with
    | .error e => .error e
    | .ok (_, none) => .ok none
    | .ok (_, some _) => .ok (some x)

/-- The format was recognised (src/EventFileReader.cc:62-66, 76-78, 91-94): the position
is set back to the beginning and the function returns, with logging turned off. -/
def recognised (r : Reader K) (fmt : Format) (s : Str) (x : K) : Sys K × Except Fail Bool :=
  (⟨false, { r with format := some fmt, stream := some s, xsec := x }⟩, .ok true)

/-- The attempt to read HEPEVT and what follows (src/EventFileReader.cc:87-106); `was`
is the flag as it was at the beginning.  The cross section after a failure cannot be
seen from outside. -/
def tryHepevt [Ring K] (f : DblFmt K) (was : Bool) (r : Reader K) (s : Str) :
    Sys K × Except Fail Bool :=
  match Event.readHepevt f s with
  | .ok (true, _, x, _) => recognised r .hepevt s x
  | .ok (false, _, _, _) => (⟨was, { r with stream := none, xsec := 0 }⟩, .ok false)
  | .error .marleyError => (⟨was, { r with stream := none, xsec := 0 }⟩, .ok false)
  | .error e => (⟨false, { r with stream := none, xsec := 0 }⟩, .error (.exc e))

/-- `deduce_file_format` (src/EventFileReader.cc:37-107).  Opening a stream that is
attached already fails, so that the first character cannot be read (line 61); lines 72-73
make it usable again.  A stream that could not be opened stays unusable. -/
def deduce [Ring K] (f : DblFmt K) (d : OnDisk) (s : Sys K) : Sys K × Except Fail Bool :=
  if d.found = false then (s, .error (.exc .marleyError))
  else
    match d.text with
    | none => (⟨s.logging, { s.reader with stream := none, xsec := 0 }⟩, .ok false)
    | some text =>
      let r := { s.reader with opened := true }
      if s.reader.opened = false ∧ firstChar text = some '{' then
        recognised r .json text s.reader.xsec
      else
        match tryAscii f text with
        | .ok (some x) => recognised r .ascii text x
        | .ok none => tryHepevt f s.logging r text
        | .error .marleyError => tryHepevt f s.logging r text
        | .error e => (⟨false, { r with stream := none }⟩, .error (.exc e))

/-- `json.at("gen_state").at("flux_avg_xsec").to_double()` (src/EventFileReader.cc:130-131).
The non-constant `at` adds what is missing (include/marley/JSON.hh:296-299, 307-309) and
`to_double` gives zero for what is not a number (371-382). -/
def fluxOf [Zero K] (ofLong : Int → K) (doc : JVal K) : K :=
  match at? doc "gen_state".toList with
  | .error _ => 0
  | .ok gs =>
    match at? gs "flux_avg_xsec".toList with
    | .error _ => 0
    | .ok v => (Event.toDouble? ofLong v).getD 0

/-- `json.at("events").array_range()` (src/EventFileReader.cc:133-134): a null pointer unless
it is an array. -/
def eventArray (doc : JVal K) : Option (List (JVal K)) :=
  match at? doc "events".toList with
  | .ok (.arr l) => some l
  | _ => none

/-- The JSON part of `initialize` (src/EventFileReader.cc:120-152).  Without an array,
line 139 decrements an iterator that belongs to no container. -/
def initJson [Zero K] (ops : FloatOps K) (ofLong : Int → K) (s : Sys K) (text : Str) :
    Sys K × Except Fail Unit :=
  match loadStream ops text with
  | .fuel => (⟨false, s.reader⟩, .error (.exc .ub))
  | .exc _ => (⟨false, s.reader⟩, .error .plain)
  | .ok doc _ =>
    match eventArray doc with
    | none => (⟨false, s.reader⟩, .error (.exc .ub))
    | some l =>
      (⟨s.logging, { s.reader with xsec := fluxOf ofLong doc, events := some l, seen := 0 }⟩, .ok ())

/-- `initialize` (src/EventFileReader.cc:109-158). -/
def initReader [Zero K] (F : TextFmt K) (ofLong : Int → K) (s : Sys K) :
    Sys K × Except Fail Unit :=
  match s.reader.format with
  | some .ascii =>
    match s.reader.stream with
    | none => (s, .ok ())
    | some text =>
      match F.dbl.get text with
      | none => ({ s with reader := { s.reader with stream := none, xsec := 0 } }, .ok ())
      | some (x, t) => ({ s with reader := { s.reader with stream := some t, xsec := x } }, .ok ())
  | some .hepevt => (s, .ok ())
  | some .json => initJson F.json ofLong s (s.reader.stream.getD [])
  | some .root => (s, .error (.exc .marleyError))
  | none => (s, .error (.exc .ub))

/-- `ensure_initialized` (src/EventFileReader.cc:223-231). -/
def ensure [Ring K] (F : TextFmt K) (ofLong : Int → K) (d : OnDisk) (s : Sys K) :
    Sys K × Except Fail Unit :=
  if s.reader.initialized then (s, .ok ())
  else
    match deduce F.dbl d s with
    | (s, .error e) => (s, .error e)
    | (s, .ok false) => (s, .error (.exc .marleyError))
    | (s, .ok true) =>
      match initReader F ofLong s with
      | (s, .error e) => (s, .error e)
      | (s, .ok ()) => ({ s with reader := { s.reader with initialized := true } }, .ok ())

/-- The ASCII part of `next_event` (src/EventFileReader.cc:172-175, 194-195). -/
def nextAscii [Zero K] (f : DblFmt K) (s : Sys K) : Sys K × Except Fail (Bool × Event K) :=
  match s.reader.stream with
  | none => (s, .ok (false, emptyEvent))
  | some t =>
    match Event.read f t with
    | .error e => ({ s with reader := { s.reader with stream := none } }, .error (.exc e))
    | .ok (_, none) => ({ s with reader := { s.reader with stream := none } }, .ok (false, emptyEvent))
    | .ok (e, some t) => ({ s with reader := { s.reader with stream := some t } }, .ok (true, e))

/-- The HEPEVT part of `next_event` (src/EventFileReader.cc:177-179, 194-195). -/
def nextHepevt [Ring K] (f : DblFmt K) (s : Sys K) : Sys K × Except Fail (Bool × Event K) :=
  match s.reader.stream with
  | none => ({ s with reader := { s.reader with xsec := 0 } }, .ok (false, emptyEvent))
  | some t =>
    match Event.readHepevt f t with
    | .error e => ({ s with reader := { s.reader with stream := none } }, .error (.exc e))
    | .ok (true, e, x, t) =>
      ({ s with reader := { s.reader with stream := t, xsec := x } }, .ok (true, e))
    | .ok (false, _, x, t) =>
      ({ s with reader := { s.reader with stream := t, xsec := x } }, .ok (false, emptyEvent))

/-- The JSON part of `next_event` (src/EventFileReader.cc:181-187, 194-195).  The iterator
is moved first; moved beyond the end it points nowhere. -/
def nextJson [Zero K] (ofLong : Int → K) (s : Sys K) : Sys K × Except Fail (Bool × Event K) :=
  match s.reader.events with
  | none => (s, .error (.exc .ub))
  | some l =>
    let s := { s with reader := { s.reader with seen := s.reader.seen + 1 } }
    if s.reader.seen = l.length + 1 then (s, .ok (false, emptyEvent))
    else
      match l[s.reader.seen - 1]? with
      | none => (s, .error (.exc .ub))
      | some v =>
        match Event.fromJson ofLong v with
        | .error e => (s, .error (.exc e))
        | .ok e => (s, .ok (true, e))

/-- `next_event` (src/EventFileReader.cc:160-196): the flag and the event. -/
def nextEvent [Ring K] (F : TextFmt K) (ofLong : Int → K) (d : OnDisk) (s : Sys K) :
    Sys K × Except Fail (Bool × Event K) :=
  match ensure F ofLong d s with
  | (s, .error e) => (s, .error e)
  | (s, .ok ()) =>
    match s.reader.format with
    | some .root => (s, .ok (false, emptyEvent))
    | some .ascii => nextAscii F.dbl s
    | some .hepevt => nextHepevt F.dbl s
    | some .json => nextJson ofLong s
    | none => (s, .error (.exc .ub))

/-- `operator bool` (src/EventFileReader.cc:198-221).  Before the format is known its value
is indeterminate. -/
def good (r : Reader K) : Except Fail Bool :=
  match r.format with
  | some .root => .ok false
  | some .ascii => .ok r.stream.isSome
  | some .hepevt => .ok r.stream.isSome
  | some .json =>
    match r.events with
    | none => .ok false
    | some l => .ok (decide (r.seen ≠ l.length + 1))
  | none => .error (.exc .ub)

/-- The factor from MeV⁻² to 10⁻⁴² cm² (src/EventFileReader.cc:236-237 with
include/marley/marley_utils.hh:111-112, 118). -/
def unitFactor [DivisionRing K] : K := (1973269718 / 10 ^ 7) ^ 2 * 10 ^ 14 * 100

/-- `flux_averaged_xsec` (src/EventFileReader.cc:233-239). -/
def fluxXsec [DivisionRing K] (F : TextFmt K) (ofLong : Int → K) (d : OnDisk) (natural : Bool)
    (s : Sys K) : Sys K × Except Fail K :=
  match ensure F ofLong d s with
  | (s, .error e) => (s, .error e)
  | (s, .ok ()) => (s, .ok (if natural then s.reader.xsec else s.reader.xsec * unitFactor))

end Marley.Rdr
