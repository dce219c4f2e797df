import Verif.Model.EventReader

/-!
# ROOT output files (src/RootOutputFile.cc), the reader for them
(src/RootEventFileReader.cc, src/MacroEventFileReader.cc) and the program built with ROOT

Of ROOT itself only this is modelled: a ROOT file is a text (a sequence of characters) in
which ROOT finds, or does not find, objects by their names; a tree is a sequence of events,
of which a part is only in memory until the tree is written.  ROOT may save a tree on its
own when it has become large (`TTree::AutoSave`).  The loading of headers
(src/RootOutputFile.cc:98-127), messages and bytes counted for the display are not modelled.
As in `Verif/Model/OutputFile.lean` the disk does not become full, nor do files change behind
the back of the program.
-/

set_option autoImplicit false

namespace Marley.RootOut
open Marley Marley.Json Marley.Out

variable {K γ φ : Type}

/-- The named objects of a ROOT file, `none` if there is none of the right class
(`GetObject` at src/RootOutputFile.cc:75, 85, 180, 190 and src/RootEventFileReader.cc:61, 70):
`MARLEY_event_tree`, `MARLEY_config`, `MARLEY_state`, `MARLEY_seed`,
`MARLEY_flux_avg_xsec`. -/
structure RootData (K : Type) where
  tree : Option (List (Event K))
  config : Option Str
  state : Option Str
  seed : Option Str
  flux : Option K

/-- A file as created by `TFile(name, "recreate")` (src/RootOutputFile.cc:55-56). -/
def RootData.empty : RootData K := ⟨none, none, none, none, none⟩

/-- ROOT: what the file with the given objects looks like, what is found in a file (`none` if
it is no ROOT file), and whether the tree is saved without being asked after the
last of the given events was added (`TTree::Fill`, src/RootOutputFile.cc:214). -/
structure RootIO (K : Type) where
  encode : RootData K → Str
  decode : Str → Option (RootData K)
  saves : List (Event K) → Bool

/-- What is assumed of ROOT: what was stored is found again, and a ROOT file begins with the
letters `root`. See src/RootOutputFile.cc:214. -/
structure RootIO.Lawful (R : RootIO K) : Prop where
  decode_encode : ∀ d, R.decode (R.encode d) = some d
  begins : ∀ s d, R.decode s = some d → ∃ t, s = 'r' :: 'o' :: 'o' :: 't' :: t

/-- A `RootOutputFile` (include/marley/RootOutputFile.hh:70-75, include/marley/OutputFile.hh:122-126).
`text` is the file on the disk, `data` the objects in it, `mem` the events of the tree that
is attached to the file. -/
structure RootFile (K : Type) where
  name : Str
  mode : Mode
  text : Str
  data : RootData K
  mem : List (Event K)

/-- The objects in the file become the given ones. See src/RootOutputFile.cc:25-96. -/
def RootFile.store (R : RootIO K) (f : RootFile K) (d : RootData K) : RootFile K :=
  { f with text := R.encode d, data := d }

/-- The constructors of `OutputFile` and `RootOutputFile` with `open` (src/OutputFile.cc:27-53,
src/RootOutputFile.cc:25-96): the content of the file afterwards, and the object or the
exception.  A file that cannot be written, and when it is to be kept one that is no ROOT file,
is a zombie (lines 60-61). -/
def openRoot (R : RootIO K) (r : Request) (d : Disk) : Option Str × Res (RootFile K) :=
  match formatOf r.format with
  | .error e => (d.existing, .error e)
  | .ok fmt =>
    match modeOf fmt r.mode with
    | .error e => (d.existing, .error e)
    | .ok asked =>
      if asked = .overwrite ∧ ¬ (d.existing.isSome ∧ r.force = false ∧ promptYesNo d.input = false) then
        if d.writable then
          (some (R.encode .empty), .ok ⟨r.name, .overwrite, R.encode .empty, .empty, []⟩)
        else (d.existing, .error .marleyError)
      else if asked = .append then (d.existing, .error .marleyError)
      else
        match d.existing with
        | none => (none, .error .marleyError)
        | some text =>
          if d.writable = false then (some text, .error .marleyError)
          else
            match R.decode text with
            | none => (some text, .error .marleyError)
            | some data =>
              match data.tree with
              | none => (some text, .error .marleyError)
              | some es => (some text, .ok ⟨r.name, .resume, text, data, es⟩)

/-- `write_event` (src/RootOutputFile.cc:210-215) for an event that is not a null pointer. -/
def writeRoot (R : RootIO K) (f : RootFile K) (e : Event K) : RootFile K :=
  let f := { f with mem := f.mem ++ [e] }
  if R.saves f.mem then f.store R { f.data with tree := some f.mem } else f

/-- `close` with `write_generator_state` (src/RootOutputFile.cc:129-167). -/
def closeRoot (G : GenOps K γ) (F : TextFmt K) (R : RootIO K) (f : RootFile K) (cfg : JVal K) (g : γ) :
    RootFile K :=
  let f := f.store R { f.data with tree := some f.mem }
  f.store R { f.data with
    config := some (dumpString F.json (-1) cfg)
    state := some (G.state g)
    seed := some (natText (G.seed g))
    flux := some (G.xsec g) }

/-- `resume` (src/RootOutputFile.cc:169-208). -/
def resumeRoot (G : GenOps K γ) (F : TextFmt K) (f : RootFile K) : Res (γ × Int) :=
  if f.mode ≠ .resume then .error .marleyError
  else
    match f.data.config with
    | none => .error .marleyError
    | some conf =>
      match load F.json conf with
      | none => .error .ub
      | some (.error e) => .error e
      | some (.ok cfg) =>
        match f.data.state with
        | none => .error .marleyError
        | some st =>
          match G.create cfg with
          | .error e => .error e
          | .ok g => .ok (G.setState g st, f.mem.length)

/-! ## The program -/

/-- The virtual functions of `OutputFile` that the program calls
(include/marley/OutputFile.hh:49-75, called at src/marley.cc:415-424, 458, 473, 503). -/
structure FileOps (K γ φ : Type) where
  isResume : φ → Bool
  resume : φ → φ × Res (γ × Int)
  writeFlux : φ → K → φ
  writeEvent : φ → Event K → φ × Res Unit
  close : φ → JVal K → γ → Int → φ

/-- The loop that resumes (src/marley.cc:414-425). -/
def resumeFiles (O : FileOps K γ φ) : List φ → Option (γ × Int) → List φ × Res (Option (γ × Int))
  | [], cur => ([], .ok cur)
  | f :: t, cur =>
    if O.isResume f then
      if cur.isSome then (f :: t, .error .marleyError)
      else
        match O.resume f with
        | (f, .error e) => (f :: t, .error e)
        | (f, .ok r) =>
          let x := resumeFiles O t (some r)
          (f :: x.1, x.2)
    else
      let x := resumeFiles O t cur
      (f :: x.1, x.2)

/-- The event written to all files (src/marley.cc:472-474). -/
def writeFiles (O : FileOps K γ φ) (e : Event K) : List φ → List φ × Res Unit
  | [] => ([], .ok ())
  | f :: t =>
    match O.writeEvent f e with
    | (f, .error x) => (f :: t, .error x)
    | (f, .ok ()) =>
      let x := writeFiles O e t
      (f :: x.1, x.2)

/-- The event loop (src/marley.cc:467-494), see `Out.eventLoop`. -/
def loopFiles (O : FileOps K γ φ) (G : GenOps K γ) (stop : Nat → Bool) (num : Int) :
    Nat → Nat → Int → List φ → γ → Option (List φ × Res (γ × Int))
  | 0, _, count, fs, g => some (fs, .ok (g, count))
  | n + 1, i, count, fs, g =>
    if count ≤ num ∧ stop i = false then
      match G.event g with
      | none => none
      | some (.error e) => some (fs, .error e)
      | some (.ok (ev, g)) =>
        match writeFiles O ev fs with
        | (fs, .error e) => some (fs, .error e)
        | (fs, .ok ()) => loopFiles O G stop num n (i + 1) (count + 1) fs g
    else some (fs, .ok (g, count))

/-- From the opened files to the end (src/marley.cc:413-507), see `Out.produce`. -/
def produceFiles (O : FileOps K γ φ) (G : GenOps K γ) (cfg : JVal K) (num : Int)
    (stop : Nat → Bool) (fs : List φ) : Option (List φ × Res Int) :=
  match resumeFiles O fs none with
  | (fs, .error e) => some (fs, .error e)
  | (fs, .ok cur) =>
    match startGen G cfg cur with
    | .error e => some (fs, .error e)
    | .ok (g, old) =>
      let fs := fs.map (fun f => O.writeFlux f (G.xsec g))
      match loopFiles O G stop num (num - old).toNat 0 (1 + old) fs g with
      | none => none
      | some (fs, .error e) => some (fs, .error e)
      | some (fs, .ok (g, count)) =>
        some (fs.map (fun f => O.close f cfg g (count - 1)), .ok (count - 1))

/-- An output file of the program built with ROOT (src/marley.cc:389-393). -/
inductive AnyFile (K : Type) where
  | text (f : OutFile K)
  | root (f : RootFile K)

/-- The constructor that is called (src/marley.cc:389-393). -/
def openAny [Zero K] (R : RootIO K) (r : Request) (d : Disk) : Res (AnyFile K) :=
  if r.format = "root".toList then (openRoot R r d).2.map .root
  else (openFile r d).2.map .text

/-- The dispatch of the virtual functions (include/marley/RootOutputFile.hh:30-68,
include/marley/OutputFile.hh:130-190). -/
def anyOps [DivisionRing K] (G : GenOps K γ) (F : TextFmt K) (R : RootIO K) : FileOps K γ (AnyFile K) where
  isResume
    | .text f => f.mode = .resume
    | .root f => f.mode = .resume
  resume
    | .text f => (.text (resume G F f).1, (resume G F f).2)
    | .root f => (.root f, resumeRoot G F f)
  writeFlux
    | .text f, x => .text (writeFlux F f x)
    | .root f, _ => .root f
  writeEvent
    | .text f, e => (.text (writeEvent F f e).1, (writeEvent F f e).2)
    | .root f, e => (.root (writeRoot R f e), .ok ())
  close
    | .text f, cfg, g, n => .text (closeFile G F f cfg g n)
    | .root f, cfg, g, _ => .root (closeRoot G F R f cfg g)

/-! ## The reader -/

open Marley.Rdr

/-- A `RootEventFileReader` (include/marley/RootEventFileReader.hh:41-62): the part it
inherits, the objects of the opened file (`tfile_`), the tree (`ttree_`), and
`event_num_`. -/
structure RootReader (K : Type) where
  base : Sys K
  file : Option (RootData K)
  tree : Option (List (Event K))
  num : Int

/-- A new reader (src/RootEventFileReader.cc:26-29); the global flag is `logging`. -/
def freshRoot [Zero K] (logging : Bool) : RootReader K := ⟨⟨logging, fresh⟩, none, none, -1⟩

/-- `deduce_file_format` (src/RootEventFileReader.cc:31-55). -/
def deduceRoot [Ring K] (f : DblFmt K) (R : RootIO K) (d : OnDisk) (s : RootReader K) :
    RootReader K × Except Fail Bool :=
  match deduce f d s.base with
  | (b, .error e) => ({ s with base := b }, .error e)
  | (b, .ok true) => ({ s with base := b }, .ok true)
  | (b, .ok false) =>
    match d.text.bind R.decode with
    | none => ({ s with base := b, file := none }, .ok false)
    | some data =>
      ({ s with base := { b with reader := { b.reader with format := some .root } }, file := some data },
        .ok true)

/-- `initialize` (src/RootEventFileReader.cc:57-79). -/
def initRoot [Zero K] (F : TextFmt K) (ofLong : Int → K) (s : RootReader K) :
    RootReader K × Except Fail Unit :=
  if s.base.reader.format = some .root then
    match s.file with
    | none => (s, .error (.exc .ub))
    | some data =>
      match data.tree with
      | none => ({ s with tree := none }, .error (.exc .marleyError))
      | some es =>
        match data.flux with
        | none => ({ s with tree := some es }, .error (.exc .marleyError))
        | some x =>
          ({ s with tree := some es, base := { s.base with reader := { s.base.reader with xsec := x } } },
            .ok ())
  else
    match initReader F ofLong s.base with
    | (b, .error e) => ({ s with base := b }, .error e)
    | (b, .ok ()) => ({ s with base := b }, .ok ())

/-- `ensure_initialized` (src/EventFileReader.cc:223-231). -/
def ensureRoot [Ring K] (F : TextFmt K) (ofLong : Int → K) (R : RootIO K) (d : OnDisk) (s : RootReader K) :
    RootReader K × Except Fail Unit :=
  if s.base.reader.initialized then (s, .ok ())
  else
    match deduceRoot F.dbl R d s with
    | (s, .error e) => (s, .error e)
    | (s, .ok false) => (s, .error (.exc .marleyError))
    | (s, .ok true) =>
      match initRoot F ofLong s with
      | (s, .error e) => (s, .error e)
      | (s, .ok ()) =>
        ({ s with base := { s.base with reader := { s.base.reader with initialized := true } } }, .ok ())

/-- `next_event` (src/RootEventFileReader.cc:81-97, src/MacroEventFileReader.cc:40-43).  Any other
format is left to `EventFileReader::next_event`, whose `ensure_initialized` does nothing any
more. -/
def nextRoot [Ring K] (F : TextFmt K) (ofLong : Int → K) (R : RootIO K) (d : OnDisk) (s : RootReader K) :
    RootReader K × Except Fail (Bool × Event K) :=
  match ensureRoot F ofLong R d s with
  | (s, .error e) => (s, .error e)
  | (s, .ok ()) =>
    if s.base.reader.format = some .root then
      match s.tree with
      | none => (s, .error (.exc .ub))
      | some es =>
        let i : Int := s.num + 1
        if i < (es.length : Int) then
          match es[i.toNat]? with
          | none => ({ s with num := i }, .error (.exc .ub))
          | some e => ({ s with num := i }, .ok (true, e))
        else ({ s with num := i }, .ok (false, emptyEvent))
    else
      match nextEvent F ofLong d s.base with
      | (b, r) => ({ s with base := b }, r)

/-- `operator bool` (src/RootEventFileReader.cc:99-104, src/MacroEventFileReader.cc:45-48).  The
pointer `ttree_` has no value before `initialize`. -/
def goodRoot (s : RootReader K) : Except Fail Bool :=
  if s.base.reader.format = some .root then
    match s.file with
    | none => .ok false
    | some _ =>
      match s.tree with
      | none => .ok false
      | some es => .ok (decide (s.num < (es.length : Int)))
  else good s.base.reader

/-- `flux_averaged_xsec` (src/EventFileReader.cc:233-239, src/MacroEventFileReader.cc:50-53). -/
def fluxRoot [DivisionRing K] (F : TextFmt K) (ofLong : Int → K) (R : RootIO K) (d : OnDisk) (natural : Bool)
    (s : RootReader K) : RootReader K × Except Fail K :=
  match ensureRoot F ofLong R d s with
  | (s, .error e) => (s, .error e)
  | (s, .ok ()) => (s, .ok (if natural then s.base.reader.xsec else s.base.reader.xsec * unitFactor))

end Marley.RootOut
