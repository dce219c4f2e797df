import Verif.Model.RootOutput
import Mathlib.Order.Defs.LinearOrder

/-!
# Model of the programs that read event files: `marsum` (src/marsum.cc) and the example
`marprint` (examples/executables/marprint.cc)

Both are modelled as built with ROOT.  The loops over the events of a file get fuel; `none`
means that it is used up.
-/

set_option autoImplicit false

namespace Marley.Prog
open Marley Marley.Json Marley.Out Marley.RootOut Marley.Rdr

variable {K σ : Type}

/-- `while ( reader >> ev ) { body }` (src/marsum.cc:151-215,
examples/executables/marprint.cc:85-88), where `operator>>` calls `next_event`
(include/marley/EventFileReader.hh:61-64) and the condition is `operator bool`.
The body may ask the reader, and changes the variables `v` of the program. -/
def readLoop [DivisionRing K] (F : TextFmt K) (ofLong : Int → K) (R : RootIO K) (d : OnDisk)
    (body : RootReader K → Event K → σ → RootReader K × Except Fail σ) :
    Nat → RootReader K → σ → Option (RootReader K × Except Fail σ)
  | 0, _, _ => none
  | n + 1, s, v =>
    match nextRoot F ofLong R d s with
    | (s, .error x) => some (s, .error x)
    | (s, .ok (_, e)) =>
      match goodRoot s with
      | .error x => some (s, .error x)
      | .ok false => some (s, .ok v)
      | .ok true =>
        match body s e v with
        | (s, .error x) => some (s, .error x)
        | (s, .ok v) => readLoop F ofLong R d body n s v

/-- The loop over the files (src/marsum.cc:140-216, examples/executables/marprint.cc:73-89, 104-106): a new
reader for every name.  `disk` is what is found under a name, `logging` the global flag that
readers may change (`Verif/Model/EventReader.lean`). -/
def fileLoop [DivisionRing K] (F : TextFmt K) (ofLong : Int → K) (R : RootIO K) (disk : Str → OnDisk)
    (body : OnDisk → RootReader K → Event K → σ → RootReader K × Except Fail σ) (fuel : Nat) :
    List Str → Bool → σ → Option (Except Fail σ)
  | [], _, v => some (.ok v)
  | name :: l, logging, v =>
    match readLoop F ofLong R (disk name) (body (disk name)) fuel (freshRoot logging) v with
    | none => none
    | some (_, .error x) => some (.error x)
    | some (s, .ok v) => fileLoop F ofLong R disk body fuel l s.base.logging v

/-- The branches of the summary tree, by their names (src/marsum.cc:88-133). -/
structure Row (K : Type) where
  pdgv : Int
  Ev : K
  KEv : K
  pxv : K
  pyv : K
  pzv : K
  pdgt : Int
  Mt : K
  pdgl : Int
  El : K
  KEl : K
  pxl : K
  pyl : K
  pzl : K
  pdgr : Int
  Er : K
  KEr : K
  pxr : K
  pyr : K
  pzr : K
  Ex : K
  twoJ : Int
  parity : Int
  np : Int
  pdgp : List Int
  Ep : List K
  KEp : List K
  pxp : List K
  pyp : List K
  pzp : List K
  xsec : K
  deriving DecidableEq, Repr

/-- `kinetic_energy` (src/Particle.cc:99-101). -/
def kinetic [DivisionRing K] [LinearOrder K] (p : Particle K) : K := max (p.E - p.mass) 0

/-- `std::vector::at`, as used by `projectile`, `target`, `ejectile` and `residue`
(src/Event.cc:186-200). -/
def particleAt (l : List (Particle K)) (i : Nat) : Except Fail (Particle K) :=
  match l[i]? with
  | some p => .ok p
  | none => .error (.exc .outOfRange)

/-- The vectors of the de-excitation products (src/marsum.cc:69-70). -/
structure Products (K : Type) where
  pdgs : List Int
  es : List K
  kes : List K
  pxs : List K
  pys : List K
  pzs : List K

/-- The loop over the products from index `j` on (src/marsum.cc:193-201); `at` cannot throw here. -/
def products [DivisionRing K] [LinearOrder K] (final : List (Particle K)) (j : Nat) (v : Products K) : Products K :=
  if h : j < final.length then
    let p := final[j]
    products final (j + 1) ⟨v.pdgs ++ [p.pdg], v.es ++ [p.E], v.kes ++ [kinetic p], v.pxs ++ [p.px], v.pys ++ [p.py],
      v.pzs ++ [p.pz]⟩
  else v
termination_by final.length - j

/-- The values of the variables when `Fill` is called (src/marsum.cc:155-201).  The branches `pdgp` and
so on have `np` entries (src/marsum.cc:125-130).  The number of particles is assumed to fit in
an `int`. -/
def fillRow [DivisionRing K] [LinearOrder K] (e : Event K) (v t l r : Particle K) (x : K) : Row K :=
  let np : Nat := e.final.length - 2
  let p := products e.final 2 ⟨[], [], [], [], [], []⟩
  { pdgv := v.pdg
    Ev := v.E
    KEv := kinetic v
    pxv := v.px
    pyv := v.py
    pzv := v.pz
    pdgt := t.pdg
    Mt := t.mass
    pdgl := l.pdg
    El := l.E
    KEl := kinetic l
    pxl := l.px
    pyl := l.py
    pzl := l.pz
    pdgr := r.pdg
    Er := r.E
    KEr := kinetic r
    pxr := r.px
    pyr := r.py
    pzr := r.pz
    Ex := e.Ex
    twoJ := e.twoJ
    parity := e.parity.toInt
    np := np
    pdgp := p.pdgs.take np
    Ep := p.es.take np
    KEp := p.kes.take np
    pxp := p.pxs.take np
    pyp := p.pys.take np
    pzp := p.pzs.take np
    xsec := x }

/-- The body of the loop over the events (src/marsum.cc:153-214): the variables are filled and
`Fill` adds a row of their values to the tree.  Messages are left out. -/
def sumBody [DivisionRing K] [LinearOrder K] (F : TextFmt K) (ofLong : Int → K) (R : RootIO K) (d : OnDisk)
    (s : RootReader K) (e : Event K) (rows : List (Row K)) : RootReader K × Except Fail (List (Row K)) :=
  match particleAt e.initial 0, particleAt e.initial 1, particleAt e.final 0, particleAt e.final 1 with
  | .ok v, .ok t, .ok l, .ok r =>
    match fluxRoot F ofLong R d false s with
    | (s, .error x) => (s, .error x)
    | (s, .ok x) =>
      (s, .ok (rows ++ [fillRow e v t l r x]))
  | .error x, _, _, _ => (s, .error x)
  | _, .error x, _, _ => (s, .error x)
  | _, _, .error x, _ => (s, .error x)
  | _, _, _, .error x => (s, .error x)

/-- How `marsum` ends: with the usage message, without having been allowed to overwrite the
file, after writing the tree, or with an exception that nobody catches. See src/marsum.cc:44-222. -/
inductive Ended (K : Type) where
  | usage
  | aborted
  | finished (rows : List (Row K))
  | crashed (x : Fail)

/-- `main` of `marsum` (src/marsum.cc:44-222) with the arguments after the name of the program and the
lines that the user types.  The output file is created before the input files are read
(src/marsum.cc:84); that this succeeds is assumed. What a crash leaves in it is not modelled. -/
def marsum [DivisionRing K] [LinearOrder K] (F : TextFmt K) (ofLong : Int → K) (R : RootIO K) (disk : Str → OnDisk)
    (input : List Str) (logging : Bool) (fuel : Nat) : List Str → Option (Ended K)
  | out :: name :: names =>
    if (disk out).text.isSome ∧ promptYesNo input = false then some .aborted
    else
      let disk' := fun n => if n = out then ⟨true, some (R.encode .empty)⟩ else disk n
      match fileLoop F ofLong R disk' (sumBody F ofLong R) fuel (name :: names) logging [] with
      | none => none
      | some (.ok rows) => some (.finished rows)
      | some (.error x) => some (.crashed x)
  | _ => some .usage

/-! ## `marprint` -/

/-- `print_particle_info` (examples/executables/marprint.cc:33-40); `num` is the text of a double. -/
def particleInfo (num : K → Str) (p : Particle K) : Str :=
  "  particle with PDG code = ".toList ++ intText p.pdg ++ " has total energy ".toList ++ num p.E ++
  " MeV,".toList ++ '\n' :: "    3-momentum = (".toList ++ num p.px ++ " MeV, ".toList ++ num p.py ++
  " MeV, ".toList ++ num p.pz ++ " MeV),".toList ++ '\n' :: "    mass = ".toList ++ num p.mass ++
  " MeV, and charge = ".toList ++ intText p.charge ++ " times the proton charge.".toList ++ ['\n']

/-- The spin (examples/executables/marprint.cc:54-59); `%` and `/` of C++ round to zero. -/
def spinInfo (twoJ : Int) : Str :=
  if twoJ.tmod 2 = 1 then intText twoJ ++ "/2".toList else intText (twoJ.tdiv 2)

/-- `print_event_info` (examples/executables/marprint.cc:42-71). -/
def eventInfo (num : K → Str) (e : Event K) (n : Nat) : Str :=
  "\n*** Event ".toList ++ natText n ++ " has ".toList ++ natText e.initial.length ++
  " initial particles and ".toList ++ natText e.final.length ++ " final particles. ***".toList ++ '\n' ::
  "The residual nucleus initially had excitation energy ".toList ++ num e.Ex ++
  " MeV and spin-parity ".toList ++ spinInfo e.twoJ ++ [e.parity.toChar] ++ '\n' ::
  "Initial particles".toList ++ '\n' :: e.initial.flatMap (particleInfo num) ++
  "Final particles".toList ++ '\n' :: e.final.flatMap (particleInfo num)

/-- The body of the loop (examples/executables/marprint.cc:86-87): the variables are what has been printed
and the number of the event (an `int`, assumed not to overflow). -/
def printBody (num : K → Str) (s : RootReader K) (e : Event K) (v : Str × Nat) :
    RootReader K × Except Fail (Str × Nat) :=
  (s, .ok (v.1 ++ eventInfo num e v.2, v.2 + 1))

/-- `main` of `marprint` (examples/executables/marprint.cc:91-109) with the arguments after the name of the
program: what it prints apart from the usage message (`none`: an exception ends it). -/
def marprint [DivisionRing K] (num : K → Str) (F : TextFmt K) (ofLong : Int → K) (R : RootIO K) (disk : Str → OnDisk)
    (logging : Bool) (fuel : Nat) (names : List Str) : Option (Except Fail Str) :=
  (fileLoop F ofLong R disk (fun _ => printBody num) fuel names logging ([], 0)).map (·.map (·.1))

end Marley.Prog
