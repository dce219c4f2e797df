import Verif.Model.DecayScheme
import Verif.Model.Target

/-!
# The structure database (include/marley/StructureDatabase.hh, src/StructureDatabase.cc)

Objects owned by the tables are identified by numbers that are never used twice.
What the files contain may change from call to call; it is given by an `Env`.
Unordered maps are lists of entries with distinct keys.  The addresses of the
levels of different schemes are not kept apart.  Debug messages are off (they
would name the nuclides read, which can throw); warnings are modelled.
-/

set_option autoImplicit false

namespace Marley.Structure
open Marley
open Marley.Json (Str isSpace)

variable {K : Type}

/-- What the file manager and the file system answer during a call.
Used at src/StructureDatabase.cc:106-165, 353-412. -/
structure Env (K : Type) where
  /-- the text of nuclide_index.txt, `none` if it is not found -/
  index : Option Str
  /-- the text of a structure data file, `none` if it cannot be opened -/
  file : Str → Option Str
  /-- the text of gs_spin_parity_table.txt, `none` if it is not found -/
  jpi : Option Str
  /-- the conversion of doubles -/
  fmt : DblFmt K
  /-- some log stream takes warnings -/
  warn : Bool

/-- The members of a database (include/marley/StructureDatabase.hh:193-239).
`schemes`: `none` is a null pointer, otherwise the object and its contents. -/
structure Db (K : Type) where
  schemes : List (Int × Option (Nat × Scheme.Scheme K))
  optical : List (Int × Nat)
  density : List (Int × Nat)
  strength : List (Int × Nat)
  indexLoaded : Bool
  filenames : List (Int × Str)
  next : Nat

/-- The constructor (src/StructureDatabase.cc:50). -/
def init : Db K := ⟨[], [], [], [], false, [], 0⟩

/-- `table.emplace(key, value)`: an existing entry stays.
Used at src/StructureDatabase.cc:56, 69, 204, 221, 239, 274. -/
def emplace {α : Type} (m : List (Int × α)) (k : Int) (v : α) : List (Int × α) :=
  if (m.lookup k).isSome then m else m ++ [(k, v)]

/-- `table.erase(key)`. Used at src/StructureDatabase.cc:66, 285. -/
def erase {α : Type} (m : List (Int × α)) (k : Int) : List (Int × α) := m.filter (fun p => p.1 ≠ k)

/-- `table[key] = value`. Used at src/StructureDatabase.cc:353-412. -/
def assign {α : Type} (m : List (Int × α)) (k : Int) (v : α) : List (Int × α) :=
  erase m k ++ [(k, v)]

/-- `add_decay_scheme` (src/StructureDatabase.cc:52-57).  The object gets its
number here. -/
def addScheme (db : Db K) (pdg : Int) (s : Scheme.Scheme K) : Db K :=
  { db with schemes := emplace db.schemes pdg (some (db.next, s)), next := db.next + 1 }

/-- `emplace_decay_scheme` (src/StructureDatabase.cc:59-71), given the outcome of
the constructor reading the file. -/
def emplaceScheme (db : Db K) (pdg : Int) (s : Res (Scheme.Scheme K)) : Db K × Res Unit :=
  let db := { db with schemes := erase db.schemes pdg }
  match s with
  | .error e => (db, .error e)
  | .ok s => (addScheme db pdg s, .ok ())

/-- `remove_decay_scheme` (src/StructureDatabase.cc:281-286). -/
def removeScheme (db : Db K) (pdg : Int) : Db K := { db with schemes := erase db.schemes pdg }

/-- `clear` (src/StructureDatabase.cc:288-290). -/
def clear (db : Db K) : Db K := { db with schemes := [] }

/-- `in >> word`. Used at src/StructureDatabase.cc:408. -/
def readWord (s : Str) : Option (Str × Str) :=
  let t := skipBlank s
  if t = [] then none else some (t.takeWhile (fun c => !isSpace c), t.dropWhile (fun c => !isSpace c))

/-- The loop of `load_structure_index` (src/StructureDatabase.cc:408-412).  Each
pass reads at least two characters. -/
def readIndex : Nat → List (Int × Str) → Str → List (Int × Str)
  | 0, m, _ => m
  | n + 1, m, s =>
    match readInt s with
    | none => m
    | some (pdg, s) =>
      match readWord s with
      | none => m
      | some (name, s) => readIndex n (assign m pdg name) s

/-- `load_structure_index` (src/StructureDatabase.cc:387-417). -/
def loadIndex (env : Env K) (db : Db K) : Res (Db K) :=
  match env.index with
  | none => .error .marleyError
  | some text =>
    .ok { db with filenames := readIndex (text.length + 1) db.filenames text, indexLoaded := true }

/-- The loop of `get_decay_scheme` over the schemes in a data file
(src/StructureDatabase.cc:155-165): the new database and whether the scheme
was found, or the exception.  `none`: more than the given number of passes. -/
def loadFile [Zero K] [LT K] [DecidableLT K] (env : Env K) (pid : Int) :
    Nat → Db K → Bool → Str → Option (Db K × Res Bool)
  | 0, _, _, _ => none
  | n + 1, db, found, s =>
    match Scheme.read env.fmt 0 s with
    | .error e => some (db, .error e)
    | .ok (_, none) => some (db, .ok found)
    | .ok (sch, some s) =>
      let pdg := Pdg.nucleusPid sch.Z sch.A
      let found := if pid = pdg then true else found
      let db := addScheme db pdg sch
      match Target.atom pdg with
      | .error e => some (db, .error e)
      | .ok _ => loadFile env pid n db found s

/-- Opening the file and reading it (src/StructureDatabase.cc:145-165); a file that
cannot be opened contains nothing. -/
def searchFile [Zero K] [LT K] [DecidableLT K] (env : Env K) (pid : Int) (name : Str) (db : Db K) :
    Option (Db K × Res Bool) :=
  match env.file name with
  | none => some (db, .ok false)
  | some text => loadFile env pid (text.length + 1) db false text

/-- `get_decay_scheme(int)` (src/StructureDatabase.cc:125-183): the object
returned (`none`: null).  `none` instead of a pair: more than `n` nested calls,
or a file that is read forever. -/
def getScheme [Zero K] [LT K] [DecidableLT K] (env : Env K) (pid : Int) :
    Nat → Db K → Option (Db K × Res (Option Nat))
  | 0, _ => none
  | n + 1, db =>
    match db.schemes.lookup pid with
    | some p => some (db, .ok (p.map (·.1)))
    | none =>
      match Target.atom pid with
      | .error e => some (db, .error e)
      | .ok _ =>
        match (if db.indexLoaded then .ok db else loadIndex env db : Res (Db K)) with
        | .error e => some (db, .error e)
        | .ok db =>
          match db.filenames.lookup pid with
          | none => some (db, .ok none)
          | some name =>
            match searchFile env pid name db with
            | none => none
            | some (db, .error e) => some (db, .error e)
            | some (db, .ok true) => getScheme env pid n db
            | some (db, .ok false) =>
              match (if env.warn then Target.atomName pid else .ok [] : Res Str) with
              | .error e => some (db, .error e)
              | .ok _ => getScheme env pid n { db with schemes := assign db.schemes pid none }

/-- `get_optical_model(int)` (src/StructureDatabase.cc:192-209). -/
def getOptical (db : Db K) (pid : Int) : Db K × Nat :=
  match db.optical.lookup pid with
  | some a => (db, a)
  | none => ({ db with optical := emplace db.optical pid db.next, next := db.next + 1 }, db.next)

/-- `get_optical_model(int, int)` (src/StructureDatabase.cc:211-226). -/
def getOpticalZA (db : Db K) (Z A : Int) : Db K × Nat := getOptical db (Pdg.nucleusPid Z A)

/-- `get_level_density_model(int)` (src/StructureDatabase.cc:228-244). -/
def getDensity (db : Db K) (pid : Int) : Db K × Nat :=
  match db.density.lookup pid with
  | some a => (db, a)
  | none => ({ db with density := emplace db.density pid db.next, next := db.next + 1 }, db.next)

/-- `get_level_density_model(int, int)` (src/StructureDatabase.cc:246-251). -/
def getDensityZA (db : Db K) (Z A : Int) : Db K × Nat := getDensity db (Pdg.nucleusPid Z A)

/-- `get_gamma_strength_function_model(int, int)` (src/StructureDatabase.cc:262-279). -/
def getStrengthZA (db : Db K) (Z A : Int) : Db K × Nat :=
  let pid := Pdg.nucleusPid Z A
  match db.strength.lookup pid with
  | some a => (db, a)
  | none => ({ db with strength := emplace db.strength pid db.next, next := db.next + 1 }, db.next)

/-- `get_gamma_strength_function_model(int)` (src/StructureDatabase.cc:253-260). -/
def getStrength (db : Db K) (pid : Int) : Db K × Nat :=
  getStrengthZA db (Pdg.getZ pid) (Pdg.getA pid)

/-- The public operations. See include/marley/StructureDatabase.hh:193-239. -/
inductive Op (K : Type) where
  | get (env : Env K) (pid : Int)
  | add (pid : Int) (s : Scheme.Scheme K)
  | emplace (pid : Int) (s : Res (Scheme.Scheme K))
  | remove (pid : Int)
  | clear
  | optical (pid : Int)
  | density (pid : Int)
  | strength (pid : Int)

/-- The database after an operation (also when it throws). See src/StructureDatabase.cc:52-290. -/
def step [Zero K] [LT K] [DecidableLT K] (db : Db K) : Op K → Db K
  | .get env pid => match getScheme env pid 2 db with
    | none => db
    | some r => r.1
  | .add pid s => addScheme db pid s
  | .emplace pid s => (emplaceScheme db pid s).1
  | .remove pid => removeScheme db pid
  | .clear => clear db
  | .optical pid => (getOptical db pid).1
  | .density pid => (getDensity db pid).1
  | .strength pid => (getStrength db pid).1

/-- A history of operations. See src/StructureDatabase.cc:52-290. -/
def run [Zero K] [LT K] [DecidableLT K] (db : Db K) (ops : List (Op K)) : Db K :=
  ops.foldl step db

/-! ## Ground-state spins and fragments -/

/-- `Fragment` (include/marley/Fragment.hh:57-73); charge and mass number follow
from the code. -/
structure Fragment where
  pid : Int
  twoS : Int
  parity : Parity
  deriving DecidableEq, Repr

/-- The static members (include/marley/StructureDatabase.hh:215, 235, 253). -/
structure Static where
  jpi : List (Int × (Int × Parity))
  frags : List (Int × Fragment)
  loaded : Bool
  deriving DecidableEq, Repr

/-- Their initial values (src/StructureDatabase.cc:36-48). -/
def Static.init : Static := ⟨[], [], false⟩

/-- The loop reading the table (src/StructureDatabase.cc:353-358): the table, and
the exception if the character for a parity is wrong. -/
def readJpi : Nat → List (Int × (Int × Parity)) → Str → List (Int × (Int × Parity)) × Res Unit
  | 0, m, _ => (m, .ok ())
  | n + 1, m, s =>
    match readInt s with
    | none => (m, .ok ())
    | some (pdg, s) =>
      match readInt s with
      | none => (m, .ok ())
      | some (twoJ, s) =>
        match Parity.read s with
        | .error e => (m, .error e)
        | .ok (none, _) => (m, .ok ())
        | .ok (some p, s) => readJpi n (assign m pdg (twoJ, p)) s

/-- `FRAGMENTS_TO_CONSIDER` (src/StructureDatabase.cc:367-368). -/
def fragmentCodes : List Int := [2112, 2212, 1000010020, 1000010030, 1000020030, 1000020040]

/-- The loop filling the table of fragments (src/StructureDatabase.cc:370-383). -/
def fillFragments : Static → List Int → Static × Res Unit
  | st, [] => (st, .ok ())
  | st, f :: fs =>
    match st.jpi.lookup f with
    | none => (st, .error .marleyError)
    | some (twoJ, p) => fillFragments { st with frags := emplace st.frags f ⟨f, twoJ, p⟩ } fs

/-- `initialize_jpi_table` (src/StructureDatabase.cc:330-385). -/
def initTables (jpi : Option Str) (st : Static) : Static × Res Unit :=
  match jpi with
  | none => (st, .error .marleyError)
  | some text =>
    match readJpi (text.length + 1) st.jpi text with
    | (m, .error e) => ({ st with jpi := m }, .error e)
    | (m, .ok ()) => fillFragments { st with jpi := m, loaded := true } fragmentCodes

/-- `if (!initialized_gs_spin_parity_table_) initialize_jpi_table();`. See src/StructureDatabase.cc:297, 320. -/
def ensure (jpi : Option Str) (st : Static) : Static × Res Unit :=
  if st.loaded then (st, .ok ()) else initTables jpi st

/-- `get_gs_spin_parity(int, int&, Parity&)` (src/StructureDatabase.cc:317-328). -/
def gsSpinParity (jpi : Option Str) (st : Static) (pdg : Int) : Static × Res (Int × Parity) :=
  match ensure jpi st with
  | (st, .error e) => (st, .error e)
  | (st, .ok ()) =>
    match st.jpi.lookup pdg with
    | none => (st, .error .marleyError)
    | some x => (st, .ok x)

/-- `get_fragment(int)` (src/StructureDatabase.cc:292-301). -/
def getFragment (jpi : Option Str) (st : Static) (pdg : Int) : Static × Res (Option Fragment) :=
  match ensure jpi st with
  | (st, .error e) => (st, .error e)
  | (st, .ok ()) => (st, .ok (st.frags.lookup pdg))

/-- `fragments()` (include/marley/StructureDatabase.hh:140-143). -/
def fragments (jpi : Option Str) (st : Static) : Static × Res (List (Int × Fragment)) :=
  match ensure jpi st with
  | (st, .error e) => (st, .error e)
  | (st, .ok ()) => (st, .ok st.frags)

/-- A call of one of these three functions.
See src/StructureDatabase.cc:292-328, include/marley/StructureDatabase.hh:140-143. -/
inductive Call where
  | spin (pdg : Int)
  | fragment (pdg : Int)
  | all

/-- What a call returned. See src/StructureDatabase.cc:292-328, include/marley/StructureDatabase.hh:140-143. -/
inductive Answer where
  | spin (x : Int × Parity)
  | fragment (f : Option Fragment)
  | all (fs : List (Int × Fragment))
  deriving DecidableEq, Repr

/-- One call; the file is what it contains at that time.
See src/StructureDatabase.cc:292-328, include/marley/StructureDatabase.hh:140-143. -/
def call (jpi : Option Str) (st : Static) : Call → Static × Res Answer
  | .spin pdg => ((gsSpinParity jpi st pdg).1, (gsSpinParity jpi st pdg).2.map .spin)
  | .fragment pdg => ((getFragment jpi st pdg).1, (getFragment jpi st pdg).2.map .fragment)
  | .all => ((fragments jpi st).1, (fragments jpi st).2.map .all)

/-- A history of calls; exceptions are caught.
See src/StructureDatabase.cc:292-328, include/marley/StructureDatabase.hh:140-143. -/
def calls (st : Static) (cs : List (Option Str × Call)) : Static :=
  cs.foldl (fun st c => (call c.1 st c.2).1) st

end Marley.Structure
