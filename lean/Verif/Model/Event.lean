import Verif.Model.Stream
import Verif.Model.Pdg
import Verif.Model.Parity
import Mathlib.Algebra.Field.Defs

/-!
# Model of `marley::Particle` and `marley::Event`: contents and text formats

src/Particle.cc, src/Event.cc.  Here an event owns its particles by value; the
ownership of the particle objects is modelled in `Verif.Model.EventHeap`.
-/

set_option autoImplicit false

namespace Marley
open Json (Str natText intText JVal)

/-- `marley::Particle` (include/marley/Particle.hh:30, data members 154-172):
PDG code, four-momentum `(E, px, py, pz)`, mass, charge. -/
structure Particle (K : Type) where
  pdg : Int
  E : K
  px : K
  py : K
  pz : K
  mass : K
  charge : Int
  deriving DecidableEq, Repr

/-- `marley::Event` (include/marley/Event.hh:42, data members 240-257). -/
structure Event (K : Type) where
  initial : List (Particle K)
  final : List (Particle K)
  /-- residue excitation energy right after the two-two scatter, `Ex_` -/
  Ex : K
  /-- two times the residue spin, `twoJ_` -/
  twoJ : Int
  /-- residue parity, `parity_` -/
  parity : Parity
  deriving DecidableEq, Repr

namespace Particle
variable {K : Type}

/-- `Particle::print` (src/Particle.cc:109-113). -/
def print (f : DblFmt K) (p : Particle K) : Str :=
  intText p.pdg ++ ' ' :: (f.print p.E ++ ' ' :: (f.print p.px ++ ' ' :: (f.print p.py ++
    ' ' :: (f.print p.pz ++ ' ' :: (f.print p.mass ++ ' ' :: intText p.charge)))))

/-- `Particle::read` (src/Particle.cc:115-118).  `none`: the stream failed; what
the object then holds is not modelled (the caller discards it). -/
def read (f : DblFmt K) (s : Str) : Option (Particle K × Str) := do
  let (pdg, s) ← readInt s
  let (E, s) ← f.get s
  let (px, s) ← f.get s
  let (py, s) ← f.get s
  let (pz, s) ← f.get s
  let (m, s) ← f.get s
  let (q, s) ← readInt s
  return (⟨pdg, E, px, py, pz, m, q⟩, s)

/-- Constructor from code, energy, momentum and mass (src/Particle.cc:85-88):
the charge is looked up. -/
def mk6 (pdg : Int) (E px py pz m : K) : Res (Particle K) :=
  match Pdg.charge pdg with
  | .ok q => .ok ⟨pdg, E, px, py, pz, m, q⟩
  | .error e => .error e

end Particle

namespace Event
variable {K : Type}

/-- `Event::clear` (src/Event.cc:212-217): drops the particles and resets the
residue data to zero and positive parity. -/
def cleared [Zero K] : Event K := ⟨[], [], 0, 0, ⟨true⟩⟩

/-- The lines of a list of particles (the loops at src/Event.cc:237-238). -/
def printParticles (f : DblFmt K) (l : List (Particle K)) : Str :=
  l.flatMap (fun p => p.print f ++ ['\n'])

/-- The header line (src/Event.cc:234-235). -/
def printHeader (f : DblFmt K) (ni nf : Nat) (Ex : K) (twoJ : Int) (parity : Parity) : Str :=
  natText ni ++ ' ' :: (natText nf ++ ' ' :: (f.print Ex ++ ' ' :: (intText twoJ ++
    ' ' :: (parity.toChar :: ['\n']))))

/-- `Event::print` (src/Event.cc:226-241). -/
def print (f : DblFmt K) (e : Event K) : Str :=
  printHeader f e.initial.length e.final.length e.Ex e.twoJ e.parity ++
    (printParticles f e.initial ++ printParticles f e.final)

/-- One of the two particle loops of `Event::read` (src/Event.cc:271-278 and
279-286): `n` particles; a failed stream is an error. -/
def readParticles (f : DblFmt K) : Nat → Str → Res (List (Particle K) × Str)
  | 0, s => .ok ([], s)
  | n + 1, s =>
    match Particle.read f s with
    | none => .error .marleyError
    | some (p, s) =>
      match readParticles f n s with
      | .error e => .error e
      | .ok (l, s) => .ok (p :: l, s)

/-- The part of `Event::read` after a successfully read header
(src/Event.cc:253-289).  The comparison with `max_size()` (256-257, 262-263)
can never be true for an `int` and is left out; running out of memory for an
announced count is not modelled. -/
def readBody (f : DblFmt K) (ni nf : Int) (Ex : K) (twoJ : Int) (parity : Parity) (s : Str) :
    Res (Event K × Option Str) :=
  if ni < 2 then .error .marleyError
  else if nf < 2 then .error .marleyError
  else
    match readParticles f ni.toNat s with
    | .error e => .error e
    | .ok (li, s) =>
      match readParticles f nf.toNat s with
      | .error e => .error e
      | .ok (lf, s) => .ok (⟨li, lf, Ex, twoJ, parity⟩, some s)

/-- `Event::read` (src/Event.cc:243-290).  Result: the event and the rest of the
stream, `none` meaning that the stream has failed.  In that case the members
`Ex_` and `twoJ_` may hold leftovers of the header; the model keeps those that
were read successfully and shows zero for the others (the C++ library stores
zero, or the nearest representable value after an overflow). -/
def read [Zero K] (f : DblFmt K) (s : Str) : Res (Event K × Option Str) :=
  match readInt s with
  | none => .ok (cleared, none)
  | some (ni, s) =>
    match readInt s with
    | none => .ok (cleared, none)
    | some (nf, s) =>
      match f.get s with
      | none => .ok (cleared, none)
      | some (Ex, s) =>
        match readInt s with
        | none => .ok (⟨[], [], Ex, 0, ⟨true⟩⟩, none)
        | some (twoJ, s) =>
          match Parity.read s with
          | .error e => .error e
          | .ok (none, _) => .ok (⟨[], [], Ex, twoJ, ⟨true⟩⟩, none)
          | .ok (some parity, s) => readBody f ni nf Ex twoJ parity s

/-- The usual reading loop `while ( in >> event )` (e.g.
src/EventFileReader.cc:160-196 and the marsum/marg4 tools): read until the
stream fails.  `fuel` bounds the number of reads; each read of an event consumes
at least one character, so `s.length + 1` is enough. -/
def readAll [Zero K] (f : DblFmt K) : Nat → Str → Res (List (Event K))
  | 0, _ => .ok []
  | n + 1, s =>
    match read f s with
    | .error e => .error e
    | .ok (_, none) => .ok []
    | .ok (e, some s) =>
      match readAll f n s with
      | .error x => .error x
      | .ok l => .ok (e :: l)

/-! ## HEPEVT -/

/-- One line of a HEPEVT record (src/Event.cc:294-311, 435-444). -/
structure HepRec (K : Type) where
  status : Int
  pdg : Int
  jmo1 : Int
  jmo2 : Int
  jda1 : Int
  jda2 : Int
  px : K
  py : K
  pz : K
  E : K
  M : K
  v1 : K
  v2 : K
  v3 : K
  v4 : K
  deriving DecidableEq, Repr

/-- `HEPEVT_FINAL_STATE_STATUS_CODE` (include/marley/Event.hh:34). -/
def FINAL_CODE : Int := 1
/-- `HEPEVT_INITIAL_STATE_STATUS_CODE` (include/marley/Event.hh:32). -/
def INITIAL_CODE : Int := 3
/-- `HEPEVT_MARLEY_INFO_STATUS_CODE` (include/marley/Event.hh:37). -/
def INFO_CODE : Int := 11

/-- Values written by `dump_hepevt_particle` (src/Event.cc:294-311). -/
def hepRec [DivisionRing K] (p : Particle K) (status jmo1 jmo2 : Int) : HepRec K :=
  ⟨status, p.pdg, jmo1, jmo2, 0, 0, p.px / 1000, p.py / 1000, p.pz / 1000, p.E / 1000,
    p.mass / 1000, 0, 0, 0, 0⟩

/-- Text written by `dump_hepevt_particle` (src/Event.cc:294-311). -/
def printRec (f : DblFmt K) (r : HepRec K) : Str :=
  intText r.status ++ ' ' :: (intText r.pdg ++ ' ' :: (intText r.jmo1 ++ ' ' :: (intText r.jmo2 ++
  " 0 0 ".toList ++ (f.print r.px ++ ' ' :: (f.print r.py ++ ' ' :: (f.print r.pz ++ ' ' ::
  (f.print r.E ++ ' ' :: (f.print r.M ++ " 0. 0. 0. 0.\n".toList))))))))

/-- The values written by `write_hepevt` (src/Event.cc:334-354), without the
event number.  The default arguments of `dump_hepevt_particle` for the mother
indices are zero (include/marley/Event.hh:269). -/
def hepRecs [DivisionRing K] (e : Event K) (xsec : K) : List (HepRec K) :=
  e.initial.map (fun p => hepRec p INITIAL_CODE 0 0) ++
  hepRec ⟨0, e.Ex * 1000, 0, 0, 0, xsec * 1000, 0⟩ INFO_CODE e.twoJ e.parity.toInt ::
  e.final.map (fun p => hepRec p FINAL_CODE 0 0)

/-- `write_hepevt` (src/Event.cc:313-355). -/
def writeHepevt [DivisionRing K] (f : DblFmt K) (num : Nat) (xsec : K) (e : Event K) : Str :=
  natText num ++ ' ' :: (natText (1 + e.initial.length + e.final.length) ++ '\n' ::
    (hepRecs e xsec).flatMap (printRec f))

/-- Reading one line (src/Event.cc:435-444); `none`: the stream failed. -/
def readRec (f : DblFmt K) (s : Str) : Option (HepRec K × Str) := do
  let (status, s) ← readInt s
  let (pdg, s) ← readInt s
  let (j1, s) ← readInt s
  let (j2, s) ← readInt s
  let (d1, s) ← readInt s
  let (d2, s) ← readInt s
  let (px, s) ← f.get s
  let (py, s) ← f.get s
  let (pz, s) ← f.get s
  let (E, s) ← f.get s
  let (M, s) ← f.get s
  let (v1, s) ← f.get s
  let (v2, s) ← f.get s
  let (v3, s) ← f.get s
  let (v4, s) ← f.get s
  return (⟨status, pdg, j1, j2, d1, d2, px, py, pz, E, M, v1, v2, v3, v4⟩, s)

/-- State of the loop of `read_hepevt` (src/Event.cc:386-407): the event under
construction, the cross section, and the counters. -/
structure HepState (K : Type) where
  ev : Event K
  xsec : K
  nInitial : Nat
  nInitialIons : Nat
  nFinalLeptons : Nat
  nFinalIons : Nat
  leptonIdx : Nat
  ionIdx : Nat
  largestA : Int

/-- Initial values (src/Event.cc:386-405). -/
def hepInit [Zero K] : HepState K := ⟨cleared, 0, 0, 0, 0, 0, 0, 0, 0⟩

/-- src/Event.cc:486-491: an initial particle. -/
def hepInitial [Ring K] (st : HepState K) (r : HepRec K) : Res (HepState K) :=
  match Particle.mk6 r.pdg (r.E * 1000) (r.px * 1000) (r.py * 1000) (r.pz * 1000) (r.M * 1000) with
  | .error e => .error e
  | .ok p => .ok { st with
      ev := { st.ev with initial := st.ev.initial ++ [p] }
      nInitial := st.nInitial + 1
      nInitialIons := if Pdg.isIon r.pdg then st.nInitialIons + 1 else st.nInitialIons }

/-- src/Event.cc:500-508: bookkeeping for the largest final ion; `idx` is
`final_particles_.size() - 1`. -/
def hepIon (st : HepState K) (pdg : Int) (idx : Nat) : HepState K :=
  if Pdg.isIon pdg then
    if Pdg.getA pdg > st.largestA then
      { st with nFinalIons := st.nFinalIons + 1, largestA := Pdg.getA pdg, ionIdx := idx }
    else { st with nFinalIons := st.nFinalIons + 1 }
  else st

/-- src/Event.cc:492-509: a final particle. -/
def hepFinal [Ring K] (st : HepState K) (r : HepRec K) : Res (HepState K) :=
  match Particle.mk6 r.pdg (r.E * 1000) (r.px * 1000) (r.py * 1000) (r.pz * 1000) (r.M * 1000) with
  | .error e => .error e
  | .ok p =>
    let idx := st.ev.final.length
    let st := { st with ev := { st.ev with final := st.ev.final ++ [p] } }
    let st := if Pdg.isLepton r.pdg then
      { st with nFinalLeptons := st.nFinalLeptons + 1, leptonIdx := idx } else st
    .ok (hepIon st r.pdg idx)

/-- src/Event.cc:451-468: the MARLEY information line. -/
def hepInfo (st : HepState K) (r : HepRec K) : Res (HepState K) :=
  match Parity.assignInt st.ev.parity r.jmo2 with
  | .error e => .error e
  | .ok π => .ok { st with
      ev := { st.ev with Ex := r.E, twoJ := r.jmo1, parity := π }
      xsec := r.M }

/-- Body of the loop after reading a line (src/Event.cc:451-509). -/
def hepStep [Ring K] (st : HepState K) (r : HepRec K) : Res (HepState K) :=
  if r.status = INFO_CODE then hepInfo st r
  else if r.status = INITIAL_CODE then hepInitial st r
  else if r.status = FINAL_CODE then hepFinal st r
  else .ok st

/-- The loop over the lines of one record (src/Event.cc:433-510). -/
def hepLoop [Ring K] (f : DblFmt K) : Nat → HepState K → Str → Res (HepState K × Str)
  | 0, st, s => .ok (st, s)
  | n + 1, st, s =>
    match readRec f s with
    | none => .error .marleyError
    | some (r, s) =>
      match hepStep st r with
      | .error e => .error e
      | .ok st => hepLoop f n st s

/-- `std::iter_swap( begin + i, begin + j )`; undefined for positions outside
the vector. Used at src/Event.cc:532, 539, 542. -/
def iterSwap {α} (l : List α) (i j : Nat) : Res (List α) :=
  match l[i]?, l[j]? with
  | some a, some b => .ok ((l.set i b).set j a)
  | _, _ => .error .ub

/-- src/Event.cc:529-533: put the target at index 1. -/
def hepOrderInitial (l : List (Particle K)) : Res (List (Particle K)) :=
  match l[1]? with
  | none => .error .ub
  | some t => if Pdg.isIon t.pdg then .ok l else iterSwap l 0 1

/-- src/Event.cc:537-543: put the lepton at index 0, then the ion at index 1. -/
def hepOrderFinal (l : List (Particle K)) (leptonIdx ionIdx : Nat) : Res (List (Particle K)) :=
  match (if leptonIdx ≠ 0 then iterSwap l 0 leptonIdx else .ok l) with
  | .error e => .error e
  | .ok l => if ionIdx ≠ 1 then iterSwap l 1 ionIdx else .ok l

/-- `final_particles_.at(1)->set_charge(q)` and the like (src/Event.cc:549,
568); `.at` throws `std::out_of_range`. -/
def setChargeAt (l : List (Particle K)) (i : Nat) (q : Int) : Res (List (Particle K)) :=
  match l[i]? with
  | none => .error .outOfRange
  | some p => .ok (l.set i { p with charge := q })

/-- Sum of the charges of the final ions other than the one at index 1
(src/Event.cc:560-567). -/
def ionChargeSum (l : List (Particle K)) : Int :=
  ((l.eraseIdx 1).filter (fun p => Pdg.isIon p.pdg)).foldl (fun s p => s + p.charge) 0

/-- The rest of `read_hepevt` once all lines are read (src/Event.cc:512-571). -/
def hepFinish (st : HepState K) : Res (Event K) := do
  if st.nInitial ≠ 2 then throw .marleyError
  if st.nInitialIons ≠ 1 then throw .marleyError
  if st.nFinalLeptons ≠ 1 then throw .marleyError
  if st.nFinalIons < 1 then throw .marleyError
  let ini ← hepOrderInitial st.ev.initial
  let fin ← hepOrderFinal st.ev.final st.leptonIdx st.ionIdx
  let ini ← setChargeAt ini 1 0
  match fin[0]? with
  | none => throw .outOfRange
  | some ej =>
    let fin ← setChargeAt fin 1 (-ej.charge - ionChargeSum fin)
    return { st.ev with initial := ini, final := fin }

/-- `read_hepevt` (src/Event.cc:380-572): returned flag, event, cross section,
rest of the stream.  As in `Event.read` the comparison with `max_size()` is left
out. -/
def readHepevt [Ring K] (f : DblFmt K) (s : Str) : Res (Bool × Event K × K × Option Str) :=
  match readInt s with
  | none => .ok (false, cleared, 0, none)
  | some (_, s) =>
    match readInt s with
    | none => .ok (false, cleared, 0, none)
    | some (n, s) =>
      if n < 0 then .error .marleyError
      else
        match hepLoop f n.toNat hepInit s with
        | .error e => .error e
        | .ok (st, s) =>
          match hepFinish st with
          | .error e => .error e
          | .ok ev => .ok (true, ev, st.xsec, some s)

/-! ## JSON -/

open Json (hasKey at? mapSet toLong?)

/-- `to_double(bool&)` (include/marley/JSON.hh:376-382); `ofLong` is the
conversion of a `long` to a double. -/
def toDouble? (ofLong : Int → K) : JVal K → Option K
  | .float x => some x
  | .int n => some (ofLong n)
  | _ => none

/-- Conversion of a `long` to an `int` (two's complement wrap-around), implicit
at src/Event.cc:595, 601 and src/Particle.cc:141-142. -/
def wrap32 (n : Int) : Int := (n + 2147483648) % 4294967296 - 2147483648

/-- Build an object by assignments `obj[key] = value` (include/marley/JSON.hh:
296-299). -/
def objOf {F} (l : List (Str × JVal F)) : JVal F :=
  .obj (l.foldl (fun m kv => mapSet m kv.1 kv.2) [])

/-- `Particle::to_json` (src/Particle.cc:120-130). -/
def particleToJson (p : Particle K) : JVal K :=
  objOf [("pdg".toList, .int p.pdg), ("E".toList, .float p.E), ("px".toList, .float p.px),
    ("py".toList, .float p.py), ("pz".toList, .float p.pz), ("mass".toList, .float p.mass),
    ("charge".toList, .int p.charge)]

/-- `read_JSON_double` (src/Particle.cc:27-39). -/
def readJsonDouble (ofLong : Int → K) (key : Str) (j : JVal K) : Res K :=
  if !hasKey j key then .error .marleyError
  else
    match at? j key with
    | .error e => .error e
    | .ok v =>
      match toDouble? ofLong v with
      | none => .error .marleyError
      | some x => .ok x

/-- `read_JSON_integer` (src/Particle.cc:41-53). -/
def readJsonInteger (key : Str) (j : JVal K) : Res Int :=
  if !hasKey j key then .error .marleyError
  else
    match at? j key with
    | .error e => .error e
    | .ok v =>
      match toLong? v with
      | none => .error .marleyError
      | some n => .ok n

/-- `Particle::from_json` (src/Particle.cc:139-148). -/
def particleFromJson (ofLong : Int → K) (j : JVal K) : Res (Particle K) := do
  let pdg ← readJsonInteger "pdg".toList j
  let q ← readJsonInteger "charge".toList j
  let E ← readJsonDouble ofLong "E".toList j
  let px ← readJsonDouble ofLong "px".toList j
  let py ← readJsonDouble ofLong "py".toList j
  let pz ← readJsonDouble ofLong "pz".toList j
  let m ← readJsonDouble ofLong "mass".toList j
  return ⟨wrap32 pdg, E, px, py, pz, m, wrap32 q⟩

/-- `Event::to_json` (src/Event.cc:357-373). -/
def toJson (e : Event K) : JVal K :=
  objOf [("Ex".toList, .float e.Ex), ("twoJ".toList, .int e.twoJ),
    ("parity".toList, .int e.parity.toInt),
    ("initial_particles".toList, .arr (e.initial.map particleToJson)),
    ("final_particles".toList, .arr (e.final.map particleToJson))]

/-- One of the particle loops of `from_json` (src/Event.cc:614-620, 631-637). -/
def particlesFromJson (ofLong : Int → K) : List (JVal K) → Res (List (Particle K))
  | [] => .ok []
  | j :: l =>
    match j with
    | .obj m =>
      match particleFromJson ofLong (.obj m) with
      | .error e => .error e
      | .ok p =>
        match particlesFromJson ofLong l with
        | .error e => .error e
        | .ok ps => .ok (p :: ps)
    | _ => .error .marleyError

/-- Looking up one of the particle arrays (src/Event.cc:606-612, 623-629). -/
def arrayFromJson (key : Str) (j : JVal K) : Res (List (JVal K)) :=
  if !hasKey j key then .error .marleyError
  else
    match at? j key with
    | .error e => .error e
    | .ok (.arr l) => .ok l
    | .ok _ => .error .marleyError

/-- The parity member (src/Event.cc:599-603): the value is assigned to
`parity_` before `ok` is tested; `to_long` gives 0 when the type is wrong. -/
def parityFromJson (j : JVal K) : Res Parity :=
  match at? j "parity".toList with
  | .error e => .error e
  | .ok v =>
    match Parity.assignInt ⟨true⟩ (wrap32 ((toLong? v).getD 0)) with
    | .error e => .error e
    | .ok π => if (toLong? v).isSome then .ok π else .error .marleyError

/-- `Event::from_json` (src/Event.cc:574-639).  The excitation energy and
`twoJ` are looked up as in `read_JSON_double`/`read_JSON_integer` (581-597). -/
def fromJson (ofLong : Int → K) (j : JVal K) : Res (Event K) := do
  let Ex ← readJsonDouble ofLong "Ex".toList j
  let twoJ ← readJsonInteger "twoJ".toList j
  let parity ← parityFromJson j
  let ip ← arrayFromJson "initial_particles".toList j
  let ini ← particlesFromJson ofLong ip
  let fp ← arrayFromJson "final_particles".toList j
  let fin ← particlesFromJson ofLong fp
  return ⟨ini, fin, Ex, wrap32 twoJ, parity⟩

end Event
end Marley
