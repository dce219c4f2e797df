import Verif.Model.Event

/-!
# Model of the ownership of particles by events

src/Event.cc:55-224.  A `marley::Event` holds two vectors of raw pointers to
particles that it allocates with `new` and frees with `delete`.  The heap is a
map from addresses to particles; event objects are named by natural numbers.
Allocation failure is not modelled.  Freeing or reading an address that holds no
particle is the outcome `ub`.
-/

set_option autoImplicit false

namespace Marley.EventHeap
variable {K : Type}

/-- The data members of an event object (include/marley/Event.hh:240-257).
`none` is the null pointer. -/
structure EvObj (K : Type) where
  ini : List (Option Nat)
  fin : List (Option Nat)
  Ex : K
  twoJ : Int
  parity : Parity

/-- Heap and live event objects.  `next` is an address never used before. See include/marley/Event.hh:240-257. -/
structure World (K : Type) where
  mem : Nat → Option (Particle K)
  next : Nat
  ev : Nat → Option (EvObj K)

/-- Nothing allocated, no event. See include/marley/Event.hh:240-257. -/
def empty : World K := ⟨fun _ => none, 0, fun _ => none⟩

/-- Function update. See include/marley/Event.hh:240-257. -/
def upd {α} (g : Nat → α) (i : Nat) (v : α) : Nat → α := fun k => if k = i then v else g k

/-- Store the data members of event object `i`. See include/marley/Event.hh:240-257. -/
def setEv (w : World K) (i : Nat) (e : EvObj K) : World K := { w with ev := upd w.ev i (some e) }

/-- `new marley::Particle(p)`. Used at src/Event.cc:59-60, 70-71, 87. -/
def alloc (w : World K) (p : Particle K) : World K × Nat :=
  ({ w with mem := upd w.mem w.next (some p), next := w.next + 1 }, w.next)

/-- `delete p` for a non-null pointer. Used at src/Event.cc:220-221. -/
def free (w : World K) (a : Nat) : Res (World K) :=
  match w.mem a with
  | none => .error .ub
  | some _ => .ok { w with mem := upd w.mem a none }

/-- `for (auto& p : v) if (p) delete p;` (src/Event.cc:220-221). -/
def freeAll (w : World K) : List (Option Nat) → Res (World K)
  | [] => .ok w
  | none :: l => freeAll w l
  | some a :: l =>
    match free w a with
    | .error e => .error e
    | .ok w => freeAll w l

/-- Live event object `i`; using an object that does not exist is undefined. See include/marley/Event.hh:240-257. -/
def get (w : World K) (i : Nat) : Res (EvObj K) :=
  match w.ev i with
  | none => .error .ub
  | some e => .ok e

/-- `*ptr` for reading. Used at src/Event.cc:86-93, 127-134. -/
def deref (w : World K) : Option Nat → Res (Particle K)
  | none => .error .ub
  | some a =>
    match w.mem a with
    | none => .error .ub
    | some p => .ok p

/-- The loops that fill a vector with copies of the particles of another one
(src/Event.cc:86-93, 127-134). -/
def copyAll (w : World K) : List (Option Nat) → Res (World K × List (Option Nat))
  | [] => .ok (w, [])
  | p :: l =>
    match deref w p with
    | .error e => .error e
    | .ok v =>
      let (w1, a) := alloc w v
      match copyAll w1 l with
      | .error e => .error e
      | .ok (w2, as) => .ok (w2, some a :: as)

/-- Allocation of a list of given particles (src/Event.cc:59-60, 70-71). -/
def newAll (w : World K) : List (Particle K) → World K × List (Option Nat)
  | [] => (w, [])
  | p :: l =>
    let (w1, a) := alloc w p
    let (w2, as) := newAll w1 l
    (w2, some a :: as)

/-- `delete_particles` (src/Event.cc:219-224). -/
def deleteParticles (w : World K) (i : Nat) : Res (World K) :=
  match get w i with
  | .error e => .error e
  | .ok e =>
    match freeAll w e.ini with
    | .error x => .error x
    | .ok w =>
      match freeAll w e.fin with
      | .error x => .error x
      | .ok w => .ok (setEv w i { e with ini := [], fin := [] })

/-- Constructors that make their own particles (src/Event.cc:58-72). -/
def construct (w : World K) (i : Nat) (a b c d : Particle K) (Ex : K) (twoJ : Int) (P : Parity) :
    Res (World K) :=
  let (w, ini) := newAll w [a, b]
  let (w, fin) := newAll w [c, d]
  .ok (setEv w i ⟨ini, fin, Ex, twoJ, P⟩)

/-- Destructor (src/Event.cc:75-77). -/
def destroy (w : World K) (i : Nat) : Res (World K) :=
  match deleteParticles w i with
  | .error e => .error e
  | .ok w => .ok { w with ev := upd w.ev i none }

/-- Copy constructor (src/Event.cc:80-94). -/
def copyCtor (w : World K) (i src : Nat) : Res (World K) :=
  match get w src with
  | .error e => .error e
  | .ok o =>
    match copyAll w o.ini with
    | .error e => .error e
    | .ok (w, ini) =>
      match copyAll w o.fin with
      | .error e => .error e
      | .ok (w, fin) => .ok (setEv w i { o with ini := ini, fin := fin })

/-- Move constructor (src/Event.cc:98-113): the source keeps `twoJ_` and
`parity_`. -/
def moveCtor [Zero K] (w : World K) (i src : Nat) : Res (World K) :=
  match get w src with
  | .error e => .error e
  | .ok o => .ok (setEv (setEv w src { o with ini := [], fin := [], Ex := 0 }) i o)

/-- Copy assignment (src/Event.cc:116-137), also when source and destination are
the same object: the particles of the destination are deleted before the vectors
of the source are read. -/
def copyAssign (w : World K) (dst src : Nat) : Res (World K) :=
  match get w src with
  | .error e => .error e
  | .ok o =>
    match get w dst with
    | .error e => .error e
    | .ok d =>
      let w := setEv w dst { d with Ex := o.Ex, twoJ := o.twoJ, parity := o.parity }
      match deleteParticles w dst with
      | .error e => .error e
      | .ok w =>
        match get w src with
        | .error e => .error e
        | .ok o =>
          match copyAll w o.ini with
          | .error e => .error e
          | .ok (w, ini) =>
            match copyAll w o.fin with
            | .error e => .error e
            | .ok (w, fin) =>
              match get w dst with
              | .error e => .error e
              | .ok d => .ok (setEv w dst { d with ini := ini, fin := fin })

/-- Move assignment (src/Event.cc:140-168), also to itself. -/
def moveAssign [Zero K] (w : World K) (dst src : Nat) : Res (World K) :=
  match get w src with
  | .error e => .error e
  | .ok o =>
    match get w dst with
    | .error e => .error e
    | .ok d =>
      let w := setEv w dst { d with Ex := o.Ex, twoJ := o.twoJ, parity := o.parity }
      match get w src with
      | .error e => .error e
      | .ok o1 =>
        let w := setEv w src { o1 with Ex := 0, twoJ := 0, parity := ⟨true⟩ }
        match deleteParticles w dst with
        | .error e => .error e
        | .ok w =>
          match get w src with
          | .error e => .error e
          | .ok o =>
            match get w dst with
            | .error e => .error e
            | .ok d =>
              let w := setEv w dst { d with ini := o.ini, fin := o.fin }
              match get w src with
              | .error e => .error e
              | .ok o => .ok (setEv w src { o with ini := [], fin := [] })

/-- `add_initial_particle` (src/Event.cc:202-205). -/
def addInitial (w : World K) (i : Nat) (p : Particle K) : Res (World K) :=
  match get w i with
  | .error e => .error e
  | .ok e =>
    let (w, a) := alloc w p
    .ok (setEv w i { e with ini := e.ini ++ [some a] })

/-- `add_final_particle` (src/Event.cc:207-210). -/
def addFinal (w : World K) (i : Nat) (p : Particle K) : Res (World K) :=
  match get w i with
  | .error e => .error e
  | .ok e =>
    let (w, a) := alloc w p
    .ok (setEv w i { e with fin := e.fin ++ [some a] })

/-- `clear` (src/Event.cc:212-217). -/
def clear [Zero K] (w : World K) (i : Nat) : Res (World K) :=
  match deleteParticles w i with
  | .error e => .error e
  | .ok w =>
    match get w i with
    | .error e => .error e
    | .ok e => .ok (setEv w i { e with Ex := 0, twoJ := 0, parity := ⟨true⟩ })

/-- Assignment through a reference to a final particle, e.g. `event.residue() =
p` (src/Event.cc:170-184: `.at` throws `std::out_of_range`). -/
def setFinal (w : World K) (i k : Nat) (p : Particle K) : Res (World K) :=
  match get w i with
  | .error e => .error e
  | .ok e =>
    match e.fin[k]? with
    | none => .error .outOfRange
    | some none => .error .ub
    | some (some a) =>
      match w.mem a with
      | none => .error .ub
      | some _ => .ok { w with mem := upd w.mem a (some p) }

/-- Assignment through a reference to an initial particle. See include/marley/Event.hh:240-257. -/
def setInitial (w : World K) (i k : Nat) (p : Particle K) : Res (World K) :=
  match get w i with
  | .error e => .error e
  | .ok e =>
    match e.ini[k]? with
    | none => .error .outOfRange
    | some none => .error .ub
    | some (some a) =>
      match w.mem a with
      | none => .error .ub
      | some _ => .ok { w with mem := upd w.mem a (some p) }

/-- Operations of a program that uses events. See src/Event.cc:57-221. -/
inductive Op (K : Type) where
  | construct (i : Nat) (a b c d : Particle K) (Ex : K) (twoJ : Int) (P : Parity)
  | copyCtor (i src : Nat)
  | moveCtor (i src : Nat)
  | copyAssign (dst src : Nat)
  | moveAssign (dst src : Nat)
  | addInitial (i : Nat) (p : Particle K)
  | addFinal (i : Nat) (p : Particle K)
  | setInitial (i k : Nat) (p : Particle K)
  | setFinal (i k : Nat) (p : Particle K)
  | clear (i : Nat)
  | destroy (i : Nat)

/-- One operation. See src/Event.cc:57-221. -/
def step [Zero K] (w : World K) : Op K → Res (World K)
  | .construct i a b c d Ex twoJ P => construct w i a b c d Ex twoJ P
  | .copyCtor i src => copyCtor w i src
  | .moveCtor i src => moveCtor w i src
  | .copyAssign dst src => copyAssign w dst src
  | .moveAssign dst src => moveAssign w dst src
  | .addInitial i p => addInitial w i p
  | .addFinal i p => addFinal w i p
  | .setInitial i k p => setInitial w i k p
  | .setFinal i k p => setFinal w i k p
  | .clear i => clear w i
  | .destroy i => destroy w i

/-- A particle loop of `Event::read` (src/Event.cc:271-286) whose stream yields
the particles `good` and then fails: the vector has been resized to `n` null
pointers; each particle read is stored; the particle allocated for the failing
read is stored nowhere.  (`dflt` is what that particle happens to hold.) -/
def readFailing (w : World K) (i n : Nat) (good : List (Particle K)) (dflt : Particle K) :
    Res (World K) :=
  match get w i with
  | .error e => .error e
  | .ok e =>
    let (w, as) := newAll w good
    let (w, _) := alloc w dflt
    .ok (setEv w i { e with ini := as ++ List.replicate (n - good.length) none })

end Marley.EventHeap
