import Verif.Model.Json

/-!
# The logger (include/marley/Logger.hh, src/Logger.cc)

Streams are identified by name: standard output, standard error, or another
stream.  Null stream pointers are not modelled (writing to one is undefined
behaviour).  A message is modelled as one operation: `log` followed by the text
sent to the `Message` and the newline written by its destructor
(include/marley/Logger.hh:138-158).
-/

set_option autoImplicit false

namespace Marley.Logger
open Marley
open Marley.Json (Str)

/-- `LogLevel` (include/marley/Logger.hh:54). -/
inductive LogLevel where
  | disabled | error | warning | info | debug
  deriving DecidableEq, Repr

/-- The underlying integers, by which levels are compared. See include/marley/Logger.hh:54. -/
def LogLevel.rank : LogLevel → Nat
  | .disabled => 0 | .error => 1 | .warning => 2 | .info => 3 | .debug => 4

/-- An output stream. See include/marley/Logger.hh:62-119. -/
inductive Stream where
  | cout | cerr | other (n : Nat)
  deriving DecidableEq, Repr

/-- `OutStream` (include/marley/Logger.hh:62-119). -/
structure OutStream where
  stream : Stream
  level : LogLevel
  enabled : Bool
  deriving DecidableEq, Repr

/-- `Logger` (include/marley/Logger.hh:265-275). -/
structure State where
  streams : List OutStream
  enabled : Bool
  old : LogLevel
  deriving DecidableEq, Repr

/-- `loglevel_to_str` (src/Logger.cc:23-39). -/
def prefixOf : LogLevel → Str
  | .error => ['[', 'E', 'R', 'R', 'O', 'R', ']', ':', ' ']
  | .warning => ['[', 'W', 'A', 'R', 'N', 'I', 'N', 'G', ']', ':', ' ']
  | .debug => ['[', 'D', 'E', 'B', 'U', 'G', ']', ':', ' ']
  | _ => []

/-- Replaces the first entry for the stream (`get_stream`, src/Logger.cc:130-139;
`find_stream`, 146-152). -/
def update (x : Stream) (lev : LogLevel) (en : Bool) : List OutStream → List OutStream
  | [] => []
  | s :: t => if s.stream = x then { s with level := lev, enabled := en } :: t
              else s :: update x lev en t

/-- `has_stream` (src/Logger.cc:112-117). -/
def hasStream (st : State) (x : Stream) : Bool := st.streams.any (fun s => s.stream = x)

/-- `add_stream` (src/Logger.cc:157-175) with `find_stream` (141-155).  `shared`:
the overload taking a `std::shared_ptr`, for which constructing the entry throws
if the stream is `std::cout` or `std::cerr` (41-53). -/
def addStream (st : State) (shared : Bool) (x : Stream) (lev : LogLevel) : Res State :=
  let en := st.enabled && decide (lev.rank ≥ st.old.rank)
  if hasStream st x then .ok { st with streams := update x lev en st.streams }
  else if shared && (x == .cout || x == .cerr) then .error .marleyError
  else .ok { st with streams := st.streams ++ [⟨x, lev, en⟩] }

/-- `clear_streams` (src/Logger.cc:88-96). -/
def clearStreams (st : State) : Res State :=
  addStream { st with streams := [] } false .cerr .warning

/-- The constructor (src/Logger.cc:98-108). -/
def init (enabled : Bool) : Res State :=
  match addStream ⟨[], enabled, .info⟩ false .cerr .warning with
  | .error e => .error e
  | .ok st => addStream st false .cout .info

/-- `enable` (src/Logger.cc:177-180); `disable` is `enable false`
(include/marley/Logger.hh:266). -/
def enable (st : State) (b : Bool) : State :=
  { st with enabled := b, streams := st.streams.map (fun s =>
      { s with enabled := b && decide (s.level.rank ≥ st.old.rank) }) }

/-- The entries after the switch to level `lev` (src/Logger.cc:193-203). -/
def switch (lev : LogLevel) (s : OutStream) : OutStream :=
  let en := decide (s.level.rank ≥ lev.rank)
  { s with enabled := if s.stream = .cout then en && decide (lev.rank > LogLevel.warning.rank)
                      else en }

/-- What is sent to the entries by `OutStreamVector::operator<<`
(include/marley/Logger.hh:268-273). -/
def send (ss : List OutStream) (text : Str) : List (Stream × Str) :=
  (ss.filter (·.enabled)).map (fun s => (s.stream, text))

/-- `log` (src/Logger.cc:182-210) with the text and the final newline: the new
state and what is written where.  With logging disabled no prefix is written. -/
def log (st : State) (lev : LogLevel) (text : Str) : Res (State × List (Stream × Str)) :=
  if lev = .disabled then .error .marleyError
  else if st.enabled then
    let ss := if lev ≠ st.old then st.streams.map (switch lev) else st.streams
    .ok ({ st with streams := ss, old := lev }, send ss (prefixOf lev ++ text ++ ['\n']))
  else .ok (st, send st.streams (text ++ ['\n']))

/-- Public operations. See src/Logger.cc:84-86, 182-210. -/
inductive Op where
  | add (shared : Bool) (x : Stream) (lev : LogLevel)
  | clear
  | enable (b : Bool)
  | log (lev : LogLevel) (text : Str)
  | newline

/-- One operation; a call that throws leaves the logger as it was.  The outputs
are those of the operation.  `newline`: src/Logger.cc:84-86. -/
def step (st : State) : Op → State × List (Stream × Str)
  | .add sh x lev => match addStream st sh x lev with
    | .ok st' => (st', [])
    | .error _ => (st, [])
  | .clear => match clearStreams st with
    | .ok st' => (st', [])
    | .error _ => (st, [])
  | .enable b => (enable st b, [])
  | .log lev text => match log st lev text with
    | .ok r => r
    | .error _ => (st, [])
  | .newline => (st, send st.streams ['\n'])

/-- A history of operations from the start. See src/Logger.cc:84-86, 182-210. -/
def run (st : State) (ops : List Op) : State := ops.foldl (fun st o => (step st o).1) st

end Marley.Logger
