import Verif.Model.Event

/-!
# Model of the output files (src/OutputFile.cc) and of the program that fills them
(src/marley.cc)

A file is its text.  What is written is on the disk at once: buffers are not
modelled, nor are a full disk or files that change behind the program's back.  Two
files of a job are assumed to have different names.  Functions that may throw return
the file as it is left together with the outcome, so that what is on the disk after
an exception can be seen.

The program is modelled as built without ROOT (`USE_ROOT` undefined); for the program with ROOT see
`Verif/Model/RootOutput.lean`.
-/

set_option autoImplicit false

namespace Marley.Out
open Marley Marley.Json

variable {K γ : Type}

/-- How numbers are written: in JSON documents and in the other formats. Used at src/OutputFile.cc:359. -/
structure TextFmt (K : Type) where
  json : FloatOps K
  dbl : DblFmt K

/-- `OutputFile::Format` (include/marley/OutputFile.hh:81). -/
inductive Format where
  | root
  | hepevt
  | json
  | ascii
  deriving DecidableEq, Repr

/-- `OutputFile::Mode` (include/marley/OutputFile.hh:120). -/
inductive Mode where
  | overwrite
  | append
  | resume
  deriving DecidableEq, Repr

/-- The format named in the constructor (src/OutputFile.cc:31-36). -/
def formatOf (s : Str) : Res Format :=
  if s = "root".toList then .ok .root
  else if s = "hepevt".toList then .ok .hepevt
  else if s = "json".toList then .ok .json
  else if s = "ascii".toList then .ok .ascii
  else .error .marleyError

/-- The mode named in the constructor (src/OutputFile.cc:38-52). -/
def modeOf (fmt : Format) (s : Str) : Res Mode :=
  if s = "overwrite".toList then .ok .overwrite
  else if s = "append".toList then
    if fmt = .hepevt ∨ fmt = .ascii then .ok .append else .error .marleyError
  else if s = "resume".toList then
    if fmt = .root ∨ fmt = .json then .ok .resume else .error .marleyError
  else .error .marleyError

/-- `prompt_yes_no` (src/marley_utils.cc:312-321) for the lines the user types: lines
other than `y`, `Y`, `n`, `N` are asked again; the end of the input means no. -/
def promptYesNo : List Str → Bool
  | [] => false
  | l :: t =>
    if l = ['y'] ∨ l = ['Y'] then true
    else if l = ['n'] ∨ l = ['N'] then false
    else promptYesNo t

/-- The arguments of the constructor of `TextOutputFile`
(include/marley/OutputFile.hh:158-159).  `indent` is `none` for the default -1; the
program passes no other negative number (src/marley.cc:375-388). -/
structure Request where
  name : Str
  format : Str
  mode : Str
  force : Bool
  indent : Option Nat

/-- What is found outside of the program: the text of the file if it exists, whether
it can be opened for writing, and the lines the user types if asked. See src/OutputFile.cc:97-128, 158. -/
structure Disk where
  existing : Option Str
  writable : Bool
  input : List Str

/-- A `TextOutputFile` (include/marley/OutputFile.hh:122-126, 130-155).  `text` is the
content of the file on the disk, `good` tells whether the stream could be opened. -/
structure OutFile (K : Type) where
  name : Str
  format : Format
  mode : Mode
  indent : Option Nat
  needsComma : Bool
  xsec : K
  good : Bool
  text : Str

/-- Insertion into `stream_`; a stream that could not be opened ignores it.
Used at src/OutputFile.cc:80-81, 91-92, 263-264, 299-300. -/
def OutFile.put (f : OutFile K) (s : Str) : OutFile K :=
  if f.good then { f with text := f.text ++ s } else f

/-- A line break and `n` spaces (src/OutputFile.cc:80-81, 91-92, 263-264, 299-300,
325-326). -/
def newline (n : Nat) : Str := '\n' :: spaces n

/-- The text of `start_json_output(true)` (src/OutputFile.cc:78-94). -/
def startText : Option Nat → Str
  | none => '{' :: '"' :: ("events".toList ++ ['"', ':', '['])
  | some n => '{' :: (newline n ++ '"' :: ("events".toList ++
      '"' :: ' ' :: ':' :: ' ' :: '[' :: newline (2 * n)))

/-- `OutputFile` and `TextOutputFile` constructors with `open` (src/OutputFile.cc:27-53,
67-72, 97-135): the content of the file afterwards, and the object or the exception.
`check_if_file_exists` (include/marley/OutputFile.hh:92-95) is `existing`. -/
def openFile [Zero K] (r : Request) (d : Disk) : Option Str × Res (OutFile K) :=
  match formatOf r.format with
  | .error e => (d.existing, .error e)
  | .ok fmt =>
    match modeOf fmt r.mode with
    | .error e => (d.existing, .error e)
    | .ok asked =>
      let mode :=
        if asked = .overwrite ∧ d.existing.isSome ∧ r.force = false ∧ promptYesNo d.input = false
        then (if fmt = .json then .resume else .append) else asked
      if mode = .resume ∧ fmt ≠ .json then (d.existing, .error .marleyError)
      else if mode = .resume ∧ d.existing = none then (d.existing, .error .marleyError)
      else
        let old := d.existing.getD []
        let f : OutFile K :=
          ⟨r.name, fmt, mode, r.indent, false, 0, d.writable,
            if d.writable ∧ mode = .overwrite then [] else old⟩
        let f := if fmt = .json ∧ mode = .overwrite then f.put (startText r.indent) else f
        (if d.writable then some f.text else d.existing, .ok f)

/-- The text of a JSON value at a place inside the document: `dump_string` without
indentation, otherwise `print(stream_, indent_, true, k*indent_)`
(src/OutputFile.cc:214-219, 268-271, 314-315). -/
def valueText (ops : FloatOps K) (indent : Option Nat) (k : Nat) (v : JVal K) : Str :=
  match indent with
  | none => dumpString ops (-1) v
  | some n => print ops n true (k * n) v

/-- A line break and spaces if `indent_ > 0` (src/OutputFile.cc:262-265, 298-301,
324-327). -/
def breakIfPos (indent : Option Nat) (k : Nat) : Str :=
  match indent with
  | none => []
  | some n => if 0 < n then newline (k * n) else []

/-- A line break and spaces if `indent_ >= 0` (src/OutputFile.cc:214-218). -/
def breakIfNonneg (indent : Option Nat) (k : Nat) : Str :=
  match indent with
  | none => []
  | some n => newline (k * n)

/-- `write_event` (src/OutputFile.cc:252-287) for an event that is not a null pointer. -/
def writeEvent [DivisionRing K] (F : TextFmt K) (f : OutFile K) (e : Event K) :
    OutFile K × Res Unit :=
  match f.format with
  | .ascii => (f.put (Event.print F.dbl e), .ok ())
  | .json =>
    let f := if f.needsComma then f.put (',' :: breakIfPos f.indent 2)
      else { f with needsComma := true }
    (f.put (valueText F.json f.indent 2 (Event.toJson e)), .ok ())
  | .hepevt => (f.put (Event.writeHepevt F.dbl 0 f.xsec e), .ok ())
  | .root => (f, .error .marleyError)

/-- What the program uses of a generator (src/OutputFile.cc:55-65, 188-189, 308-312 and
src/marley.cc:429-430, 453, 470): creation from a job configuration, the saved state
of the random numbers, the seed, the flux-averaged cross section and events.
`event` answers `none` if it does not end. -/
structure GenOps (K γ : Type) where
  create : JVal K → Res γ
  setState : γ → Str → γ
  state : γ → Str
  seed : γ → Nat
  xsec : γ → K
  event : γ → Option (Res (Event K × γ))

/-- The object written by `write_generator_state` (src/OutputFile.cc:306-312). -/
def genState (G : GenOps K γ) (cfg : JVal K) (g : γ) (n : Int) : JVal K :=
  Event.objOf [("config".toList, cfg), ("generator_state_string".toList, .str (G.state g)),
    ("seed".toList, .str (natText (G.seed g))), ("event_count".toList, .int n),
    ("flux_avg_xsec".toList, .float (G.xsec g))]

/-- The text of `write_generator_state` (src/OutputFile.cc:296-315). -/
def genStateText (G : GenOps K γ) (ops : FloatOps K) (indent : Option Nat) (cfg : JVal K) (g : γ)
    (n : Int) : Str :=
  let sp : Str := match indent with
    | none => []
    | some n => if 0 < n then [' '] else []
  ',' :: (breakIfPos indent 1 ++ '"' :: ("gen_state".toList ++ '"' :: (sp ++ ':' :: (sp ++
    valueText ops indent 1 (genState G cfg g n)))))

/-- `close` (src/OutputFile.cc:318-339). -/
def closeFile (G : GenOps K γ) (F : TextFmt K) (f : OutFile K) (cfg : JVal K) (g : γ) (n : Int) :
    OutFile K :=
  if f.format = .json then
    f.put (breakIfPos f.indent 1 ++ ']' :: genStateText G F.json f.indent cfg g n ++
      (if 0 < f.indent.getD 0 then ['\n'] else []) ++ ['}'])
  else f

/-- `write_flux_avg_tot_xsec` (src/OutputFile.cc:341-367).  `tellp` is the length of
the file, also for a file opened for appending (the C library positions it at its
end); it is -1 if the file could not be opened. -/
def writeFlux (F : TextFmt K) (f : OutFile K) (x : K) : OutFile K :=
  if f.format = .ascii then
    if f.good = true ∧ f.text = [] then { f.put (F.dbl.print x ++ ['\n']) with xsec := x } else f
  else { f with xsec := x }

/-- `to_string()` (include/marley/JSON.hh:354-357, 359-362). -/
def toStr : JVal K → Str
  | .str s => jsonEscape s
  | _ => []

/-- `array_range()` (include/marley/JSON.hh:434-438): empty unless the value is an
array. -/
def arrayRange : JVal K → List (JVal K)
  | .arr l => l
  | _ => []

/-- What `resume` takes from the document (src/OutputFile.cc:157-189): the generator and
the number of events.  The constructor of the configuration may throw. -/
def restore (G : GenOps K γ) (doc : JVal K) : Res (γ × Int) :=
  if !hasKey doc "gen_state".toList then .error .marleyError
  else
    match at? doc "gen_state".toList with
    | .error e => .error e
    | .ok gs =>
      if !hasKey gs "config".toList then .error .marleyError
      else if !hasKey gs "generator_state_string".toList then .error .marleyError
      else if !hasKey gs "seed".toList then .error .marleyError
      else if !hasKey gs "event_count".toList then .error .marleyError
      else
        match at? gs "config".toList, at? gs "generator_state_string".toList,
          at? gs "event_count".toList with
        | .ok cfg, .ok st, .ok cnt =>
          match toLong? cnt with
          | none => .error .marleyError
          | some n =>
            match G.create cfg with
            | .error e => .error e
            | .ok g => .ok (G.setState g (toStr st), n)
        | .error e, _, _ => .error e
        | _, .error e, _ => .error e
        | _, _, .error e => .error e

/-- The events written again (src/OutputFile.cc:206-221).  `first` tells whether
`iter == begin`. -/
def rewriteText (ops : FloatOps K) (indent : Option Nat) : Bool → List (JVal K) → Str
  | _, [] => []
  | first, v :: l =>
    (if first then [] else [',']) ++
      breakIfNonneg indent 2 ++ valueText ops indent 2 v ++ rewriteText ops indent false l

/-- The events of the document (src/OutputFile.cc:203).  `temp_json.at("events")` is the
non-constant one, which adds a null value if there is none
(include/marley/JSON.hh:296-299, 307-309). -/
def eventsOf (doc : JVal K) : List (JVal K) :=
  match at? doc "events".toList with
  | .ok v => arrayRange v
  | .error _ => []

/-- `resume` (src/OutputFile.cc:137-240): the file as it is left, and the generator with
the number of events, or the exception. -/
def resume (G : GenOps K γ) (F : TextFmt K) (f : OutFile K) : OutFile K × Res (γ × Int) :=
  if f.mode ≠ .resume then (f, .error .marleyError)
  else if f.format ≠ .json then (f, .error .marleyError)
  else
    match loadStream F.json f.text with
    | .fuel => (f, .error .ub)
    | .exc e => (f, .error e)
    | .ok doc _ =>
      match restore G doc with
      | .error e => (f, .error e)
      | .ok r =>
        let events := eventsOf doc
        let f := if f.good then { f with text := [] } else f
        let f := f.put (startText f.indent ++ rewriteText F.json f.indent true events)
        ({ f with needsComma := !events.isEmpty }, .ok r)

/-! ## The program -/

/-- One element of the `output` array (src/marley.cc:359-388). -/
def requestOf (el : JVal K) : Res Request :=
  if !hasKey el "file".toList then .error .marleyError
  else if !hasKey el "format".toList then .error .marleyError
  else
    match at? el "file".toList, at? el "format".toList with
    | .ok file, .ok format =>
      let mode := match at? el "mode".toList with
        | .ok m => toStr m
        | .error _ => "overwrite".toList
      let force := match at? el "force".toList with
        | .ok (.bool b) => b
        | _ => false
      let r : Request := ⟨toStr file, toStr format, mode, force, none⟩
      if toStr format = "json".toList ∧ hasKey el "indent".toList then
        match at? el "indent".toList with
        | .ok v =>
          match toLong? v with
          | none => .error .marleyError
          | some n =>
            let i := Event.wrap32 n
            if i < 0 then .error .marleyError else .ok { r with indent := some i.toNat }
        | .error e => .error e
      else .ok r
    | .error e, _ => .error e
    | _, .error e => .error e

/-- The requests of a job (src/marley.cc:354-405). -/
def requestsOf (settings : JVal K) : Res (List (Res Request)) :=
  if hasKey settings "output".toList then
    match at? settings "output".toList with
    | .ok (.arr l) => .ok (l.map requestOf)
    | .ok _ => .error .marleyError
    | .error e => .error e
  else .ok [.ok ⟨"events.ascii".toList, "ascii".toList, "overwrite".toList, false, none⟩]

/-- Opening the files one after the other (src/marley.cc:359-405): those opened, and
whether an exception ended the loop. -/
def openAll [Zero K] : List (Res Request × Disk) → List (OutFile K) × Res Unit
  | [] => ([], .ok ())
  | (.error e, _) :: _ => ([], .error e)
  | (.ok r, d) :: t =>
    match (openFile (K := K) r d).2 with
    | .error e => ([], .error e)
    | .ok f => (f :: (openAll t).1, (openAll t).2)

/-- The loop that resumes (src/marley.cc:414-425); `cur` is what was restored so far. -/
def resumeAll (G : GenOps K γ) (F : TextFmt K) :
    List (OutFile K) → Option (γ × Int) → List (OutFile K) × Res (Option (γ × Int))
  | [], cur => ([], .ok cur)
  | f :: t, cur =>
    if f.mode = .resume then
      if cur.isSome then (f :: t, .error .marleyError)
      else
        match resume G F f with
        | (f, .error e) => (f :: t, .error e)
        | (f, .ok r) =>
          let x := resumeAll G F t (some r)
          (f :: x.1, x.2)
    else
      let x := resumeAll G F t cur
      (f :: x.1, x.2)

/-- The event written to all files (src/marley.cc:472-474). -/
def writeAll [DivisionRing K] (F : TextFmt K) (e : Event K) :
    List (OutFile K) → List (OutFile K) × Res Unit
  | [] => ([], .ok ())
  | f :: t =>
    match writeEvent F f e with
    | (f, .error x) => (f :: t, .error x)
    | (f, .ok ()) =>
      let x := writeAll F e t
      (f :: x.1, x.2)

/-- The event loop (src/marley.cc:467-494): the files, and the generator with the final
`ev_count`, or the exception.  The first argument is the number of passes left,
`num_events + 1 - ev_count`; `stop i` is the value of the flag set by the signal
handler when the loop condition is tested for the `i`-th time.  The status messages
are left out here; `Verif/Model/Status.lean` has them. -/
def eventLoop [DivisionRing K] (G : GenOps K γ) (F : TextFmt K) (stop : Nat → Bool) (num : Int) :
    Nat → Nat → Int → List (OutFile K) → γ → Option (List (OutFile K) × Res (γ × Int))
  | 0, _, count, fs, g => some (fs, .ok (g, count))
  | n + 1, i, count, fs, g =>
    if count ≤ num ∧ stop i = false then
      match G.event g with
      | none => none
      | some (.error e) => some (fs, .error e)
      | some (.ok (ev, g)) =>
        match writeAll F ev fs with
        | (fs, .error e) => some (fs, .error e)
        | (fs, .ok ()) => eventLoop G F stop num n (i + 1) (count + 1) fs g
    else some (fs, .ok (g, count))

/-- The generator and `num_old_events`: the restored ones, or a new generator
(src/marley.cc:325, 427-430). -/
def startGen (G : GenOps K γ) (cfg : JVal K) : Option (γ × Int) → Res (γ × Int)
  | some r => .ok r
  | none =>
    match G.create cfg with
    | .error e => .error e
    | .ok g => .ok (g, 0)

/-- From the opened files to the end (src/marley.cc:413-507): the files as they are
left, and the number of events that is recorded, or the exception (caught at 523-537,
the program then returns 1).  `ev_count` is a `long`; a saved count so large that
adding one overflows is not modelled. -/
def produce [DivisionRing K] (G : GenOps K γ) (F : TextFmt K) (cfg : JVal K) (num : Int)
    (stop : Nat → Bool) (fs : List (OutFile K)) : Option (List (OutFile K) × Res Int) :=
  match resumeAll G F fs none with
  | (fs, .error e) => some (fs, .error e)
  | (fs, .ok cur) =>
    match startGen G cfg cur with
    | .error e => some (fs, .error e)
    | .ok (g, old) =>
      let fs := fs.map (fun f => writeFlux F f (G.xsec g))
      match eventLoop G F stop num (num - old).toNat 0 (1 + old) fs g with
      | none => none
      | some (fs, .error e) => some (fs, .error e)
      | some (fs, .ok (g, count)) =>
        some (fs.map (fun f => closeFile G F f cfg g (count - 1)), .ok (count - 1))

/-- The check of the interval between status messages (src/marley.cc:337-350), which is
otherwise not modelled. -/
def intervalOk (settings : JVal K) : Bool :=
  match at? settings "status_update_interval".toList with
  | .error _ => true
  | .ok v =>
    match toLong? v with
    | none => false
    | some n => decide (1 ≤ Event.wrap32 n)

/-- A job (src/marley.cc:327-507) for the object under `executable_settings`; `disks` tells
what is found for each of the output files. -/
def run [DivisionRing K] (G : GenOps K γ) (F : TextFmt K) (cfg settings : JVal K)
    (stop : Nat → Bool) (disks : List Disk) : Option (List (OutFile K) × Res Int) :=
  match getLongD settings "events".toList 1000 with
  | .error e => some ([], .error e)
  | .ok num =>
    if intervalOk settings = false then some ([], .error .marleyError)
    else
      match requestsOf settings with
      | .error e => some ([], .error e)
      | .ok rs =>
        match openAll (rs.zip disks) with
        | (fs, .error e) => some (fs, .error e)
        | (fs, .ok ()) => produce G F cfg num stop fs

end Marley.Out
