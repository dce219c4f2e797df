import Verif.Model.OutputFile
import Mathlib.Algebra.Order.Floor.Ring

/-!
# The status display and the command line of the program (src/marley.cc)

Texts are lists of characters, one for each byte.  Times are whole nanoseconds
(`std::chrono::system_clock::duration` of libstdc++) or, where the code uses
`duration<double>`, elements of an ordered field: rounding is not modelled.  The text of
calendar times (`put_time`, src/marley.cc:125-137) is an input.
-/

set_option autoImplicit false

namespace Marley.Status
open Marley Marley.Json Marley.Out
open Marley.Event (wrap32)

variable {K γ : Type}

/-! ## Durations -/

/-- The four numbers computed by `duration_to_string`
(include/marley/marley_utils.hh:403-417). -/
structure Clock where
  days : Int
  hours : Int
  minutes : Int
  seconds : Int
  deriving DecidableEq, Repr

/-- One step of `duration_to_string` for whole nanoseconds
(include/marley/marley_utils.hh:403-405, 407-409, 411-413, 415-417): the count, cut off
towards zero and converted to `int`, and the rest.  The products fit into 64 bits because
they are not larger than the duration. -/
def tickStep (unit t : Int) : Int × Int :=
  let n := wrap32 (t.tdiv (unit * 1000000000))
  (n, t - n * (unit * 1000000000))

/-- `duration_to_string` up to line 417 for whole nanoseconds
(include/marley/marley_utils.hh:400-417, called at src/marley_utils.cc:397-406). -/
def tickClock (t : Int) : Clock :=
  let d := tickStep 86400 t
  let h := tickStep 3600 d.2
  let m := tickStep 60 h.2
  let s := tickStep 1 m.2
  ⟨d.1, h.1, m.1, s.1⟩

section field
variable [Field K] [LinearOrder K] [FloorRing K]

/-- Cutting off towards zero, with the conversion of a `double` to `int`, which is
undefined out of range (include/marley/marley_utils.hh:403, 407, 411, 415). -/
def cut (x : K) : Res Int :=
  let n := if 0 ≤ x then ⌊x⌋ else ⌈x⌉
  if intMin ≤ n ∧ n ≤ intMax then .ok n else .error .ub

/-- `duration_to_string` up to line 417 for `duration<double>`, in seconds
(include/marley/marley_utils.hh:400-417, called at src/marley.cc:173-174). -/
def secClock (t : K) : Res Clock := do
  let d ← cut (t / 86400)
  let t := t - d * 86400
  let h ← cut (t / 3600)
  let t := t - h * 3600
  let m ← cut (t / 60)
  let t := t - m * 60
  let s ← cut t
  .ok ⟨d, h, m, s⟩

end field

/-- A number with a zero in front if it is below ten
(include/marley/marley_utils.hh:426-431). -/
def padded (n : Int) : Str := (if n < 10 then ['0'] else []) ++ intText n

/-- The text (include/marley/marley_utils.hh:419-433). -/
def clockText (c : Clock) : Str :=
  (if c.days > 1 then intText c.days ++ [' ', 'd', 'a', 'y', 's', ' '] else []) ++
  (if c.days = 1 then intText c.days ++ [' ', 'd', 'a', 'y', ' '] else []) ++
  padded c.hours ++ ':' :: (padded c.minutes ++ ':' :: padded c.seconds)

/-! ## Numbers with a fixed number of decimals -/

section field
variable [Field K] [LinearOrder K] [FloorRing K]

/-- The nearest integer, the even one if there are two (how `printf` rounds). Used at src/marley.cc:78. -/
def nearest (x : K) : Int :=
  let n := ⌊x⌋
  if x - n < 1 / 2 then n
  else if 1 / 2 < x - n then n + 1
  else if n % 2 = 0 then n else n + 1

/-- The decimals: `n`, with zeros in front, in a field of `p` digits. Used at src/marley.cc:78. -/
def decimals (p n : Nat) : Str :=
  List.replicate (p - (natText n).length) '0' ++ natText n

/-- `out << x` with `std::fixed` and `precision(p)` (src/marley.cc:78, 92,
src/marley_utils.cc:382-386). -/
def fixedText (p : Nat) (x : K) : Str :=
  let n := (nearest (|x| * 10 ^ p)).toNat
  (if x < 0 then ['-'] else []) ++ natText (n / 10 ^ p) ++
    (if p = 0 then [] else '.' :: decimals p (n % 10 ^ p))

/-- `format_number` of a quotient of whole numbers, times `c` (src/marley.cc:74-95,
153, 157-158).  A number divided by zero is infinite; 0/0 is a NaN with a sign. -/
def ratioText (a b c : Int) : Str :=
  if b = 0 then
    if 0 < a then ['i', 'n', 'f'] else if a < 0 then ['-', 'i', 'n', 'f']
    else ['-', 'n', 'a', 'n']
  else fixedText 1 ((a : K) / b * c)

/-! ## Amounts of data -/

/-- The unit chosen by `num_bytes_to_string` (src/marley_utils.cc:361-380). -/
def byteUnit (b : K) : K × Char :=
  if b < 10 ^ 6 then (10 ^ 3, 'k')
  else if b < 10 ^ 9 then (10 ^ 6, 'M')
  else if b < 10 ^ 12 then (10 ^ 9, 'G')
  else (10 ^ 12, 'T')

/-- `num_bytes_to_string` (src/marley_utils.cc:358-387). -/
def bytesText (b : K) (p : Nat) : Res Str :=
  if b < 10 ^ 3 then do
    let n ← cut b
    .ok (intText n ++ [' ', 'B'])
  else .ok (fixedText p (b / (byteUnit b).1) ++ [' ', (byteUnit b).2, 'B'])

end field

/-- An output file together with what `bytes_written` uses: whether the stream is open
and `byte_count_` (include/marley/OutputFile.hh:139, 150). -/
structure Meter (K : Type) where
  file : OutFile K
  isOpen : Bool
  saved : Int

/-- `TextOutputFile::bytes_written` (src/OutputFile.cc:242-250): `tellp` is the length of
the file, or -1 if the stream has failed. -/
def bytesWritten (m : Meter K) : Int × Meter K :=
  if m.isOpen then
    let n : Int := if m.file.good then m.file.text.length else -1
    (n, { m with saved := n })
  else (m.saved, m)

/-- `TextOutputFile::write_event` (src/OutputFile.cc:252-287). -/
def writeMeter [DivisionRing K] (F : TextFmt K) (m : Meter K) (e : Event K) : Meter K :=
  { m with file := (writeEvent F m.file e).1 }

/-- `TextOutputFile::close` (src/OutputFile.cc:318-339): the stream is closed and
`byte_count_` stays as it is. -/
def closeMeter (G : GenOps K γ) (F : TextFmt K) (m : Meter K) (cfg : JVal K) (g : γ)
    (n : Int) : Meter K :=
  { m with file := closeFile G F m.file cfg g n, isOpen := false }

/-! ## The status lines -/

/-- The escape character. Used at src/marley.cc:161, 175, 180, 193, 196. -/
def esc : Char := '\x1b'

/-- `"\033[K"`: erase to the end of the line (src/marley.cc:161, 175, 180, 237). -/
def erase : Str := [esc, '[', 'K']

/-- `"\033[F"`: go to the start of the previous line (src/marley.cc:193, 196). -/
def up : Str := [esc, '[', 'F']

section field
variable [Field K] [LinearOrder K] [FloorRing K]

/-- The lines with the amounts of data (src/marley.cc:177-181). -/
def fileLines : List (Str × Int) → Res Str
  | [] => .ok []
  | (name, b) :: t => do
    let x ← bytesText (b : K) 2
    let r ← fileLines t
    .ok ("Data written to ".toList ++ name ++ ' ' :: x ++ erase ++ '\n' :: r)

/-- The estimated total time in seconds (src/marley.cc:168-171). -/
def estimate (ev num old elapsed : Int) : K :=
  (elapsed : K) * (((num - old : Int) : K) / ((ev - old : Int) : K)) / 10 ^ 9

/-- `makeStatusLines` (src/marley.cc:141-199).  `elapsed` is the time since the start in
nanoseconds, `endTime` the text of the estimated end (lines 183-188); `files` gives the
name of each output file and the number of bytes written.  An infinite estimate
(division by zero) is undefined when it is converted to `int`. -/
def statusLines (ev num old elapsed : Int) (files : List (Str × Int)) (endTime : Str) :
    Res Str :=
  if ev - old = 0 then .error .ub
  else do
    let c ← secClock (estimate ev num old elapsed : K)
    let fs ← fileLines (K := K) files
    .ok ('\n' :: "Event Count = ".toList ++ intText ev ++ '/' :: intText num ++ " (".toList ++
      ratioText (K := K) ev num 100 ++ "% complete, ".toList ++
      ratioText (K := K) (ev - old) elapsed 1000000000 ++ " events / s)".toList ++ erase ++ '\n' ::
      ("Elapsed time: ".toList ++ clockText (tickClock elapsed) ++
      " (Estimated total run time: ".toList ++ clockText c ++ [')'] ++ erase ++ '\n' ::
      (fs ++ "MARLEY is estimated to terminate on ".toList ++ endTime ++ '\n' ::
      ((List.replicate files.length up).flatten ++ up ++ up ++ up ++ up))))

end field

/-! ## The stream buffer that inserts them -/

/-- `StatusInserter` (src/marley.cc:204-225): what was sent to the terminal so far, and the
two flags. -/
structure Inserter where
  sent : Str
  atStart : Bool
  doStatus : Bool

/-- `StatusInserter::overflow` (src/marley.cc:227-243) for a character; `status` is what
`makeStatusLines` returns if it is called now.  The buffer is never given any space, so
every character written to `std::cout` or `std::cerr` goes through this function. -/
def overflow (status : Str) (s : Inserter) (c : Char) : Inserter :=
  let sent := if s.doStatus && s.atStart then s.sent ++ status else s.sent
  let sent := if c = '\n' then sent ++ erase else sent
  { s with sent := sent ++ [c], atStart := decide (c = '\n') }

/-- What the program does with the buffer. See src/marley.cc:206-243. -/
inductive Act where
  /-- Characters are written, each with the status lines of that moment. -/
  | put (l : List (Char × Str))
  /-- The status lines are shown by the event loop (src/marley.cc:481-492). -/
  | update (status : Str)

/-- One action.  While the status lines are being shown none are inserted. See src/marley.cc:206-243. -/
def Inserter.act (s : Inserter) : Act → Inserter
  | .put l => l.foldl (fun s x => overflow x.2 s x.1) s
  | .update t =>
    { t.foldl (overflow []) { s with doStatus := false } with doStatus := true }

/-- The buffer when it is put in place (src/marley.cc:206-213, 446-449). -/
def Inserter.start : Inserter := ⟨[], true, true⟩

/-- A sequence of actions. See src/marley.cc:206-243. -/
def Inserter.run (l : List Act) : Inserter := l.foldl Inserter.act Inserter.start

/-- Whether the status lines are shown after event number `ev` (src/marley.cc:478-479). -/
def statusDue (ev num old interval : Int) : Bool :=
  decide ((ev - old).tmod interval = 1) || decide (ev = num) || decide (interval = 1)

/-! ## The command line -/

/-- What the first argument asks for. See src/marley.cc:267-301. -/
inductive Command where
  | help | version | picture
  /-- An error message about the option, then the help message. -/
  | unknown (option : Str)
  | job (file : Str)
  deriving DecidableEq, Repr

/-- The command line (src/marley.cc:267-301); the first argument is the name of the
program. -/
def command (argv : List Str) : Command :=
  match argv with
  | [] => .help
  | [_] => .help
  | _ :: a :: _ =>
    if a.take 1 ≠ ['-'] then .job a
    else if a = ['-', 'h'] ∨ a = "--help".toList then .help
    else if a = ['-', 'v'] ∨ a = "--version".toList then .version
    else if a = "--marley".toList then .picture
    else .unknown a

/-- A job as `main` runs it (src/marley.cc:304-350, 523-540): the configuration is read
(`load`), its constructor adjusts the logger (`setup`), and the rest is `Out.run`.  The
result is that of `Out.run`, or nothing if the job does not get that far. -/
def job [DivisionRing K] (load : Str → Res (JVal K)) (setup : JVal K → Res Unit) (G : GenOps K γ)
    (F : TextFmt K) (stop : Nat → Bool) (disks : List Disk) (file : Str) :
    Option (List (OutFile K) × Res Int) :=
  match load file with
  | .error e => some ([], .error e)
  | .ok cfg =>
    match setup cfg with
    | .error e => some ([], .error e)
    | .ok () =>
      match getObject cfg "executable_settings".toList true with
      | .error e => some ([], .error e)
      | .ok settings => run G F cfg settings stop disks

/-- The exit status of `main` (src/marley.cc:107, 119, 294, 520, 523-540).  All exceptions
that are modelled derive from `std::exception`; after undefined behaviour there is no
status to speak of, and none if the job does not end. -/
def exitStatus [DivisionRing K] (load : Str → Res (JVal K)) (setup : JVal K → Res Unit)
    (G : GenOps K γ) (F : TextFmt K) (stop : Nat → Bool) (disks : List Disk) (argv : List Str) :
    Option Nat :=
  match command argv with
  | .job file =>
    match job load setup G F stop disks file with
    | none => none
    | some (_, .error .ub) => none
    | some (_, .error _) => some 1
    | some (_, .ok _) => some 0
  | _ => some 0

end Marley.Status
