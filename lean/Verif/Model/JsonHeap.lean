import Verif.Model.Json

/-!
# Model of how `marley::JSON` values own their storage (include/marley/JSON.hh)

A JSON object holds a type and a union of a number and pointers to storage on the heap.
The heap is modelled explicitly: maps, lists and strings are nodes with addresses, and a
JSON object is a cell that may hold such an address.  Reading or releasing storage that
is not allocated is undefined behaviour.
-/

set_option autoImplicit false

namespace Marley.JsonHeap
open Marley Marley.Json

variable {K : Type}

/-- Values that are stored in the union itself. See include/marley/JSON.hh:63-76. -/
inductive Prim (K : Type) where
  | null
  | bool (b : Bool)
  | int (n : Int)
  | float (x : K)

/-- A JSON object: `type_` together with the member of the union it selects
(include/marley/JSON.hh:63-76, 79-87, 707).  What the union holds besides is left out. -/
inductive Cell (K : Type) where
  | prim (x : Prim K)
  | str (p : Nat)
  | arr (p : Nat)
  | obj (p : Nat)

/-- `DataType` (include/marley/JSON.hh:79-87). -/
inductive DataType where
  | null | object | array | string | floating | integral | boolean
  deriving DecidableEq, Repr

/-- `type_` (include/marley/JSON.hh:343, 707). -/
def Cell.type : Cell K → DataType
  | .prim .null => .null
  | .prim (.bool _) => .boolean
  | .prim (.int _) => .integral
  | .prim (.float _) => .floating
  | .str _ => .string
  | .arr _ => .array
  | .obj _ => .object

/-- What `new` makes: a `std::map`, a `std::deque`, a `std::string`
(include/marley/JSON.hh:70-72). -/
inductive Node (K : Type) where
  | map (m : List (Str × Cell K))
  | list (l : List (Cell K))
  | text (s : Str)

/-- The heap; `next` is an address that was never used, as are all that follow. See include/marley/JSON.hh:63-76. -/
structure Heap (K : Type) where
  node : Nat → Option (Node K)
  next : Nat

/-- `new` (include/marley/JSON.hh:67, 153, 157, 161, 597, 600, 603). -/
def Heap.alloc (h : Heap K) (n : Node K) : Heap K × Nat :=
  ({ node := fun a => if a = h.next then some n else h.node a, next := h.next + 1 }, h.next)

/-- Change of a node that is allocated. Used at include/marley/JSON.hh:296-305. -/
def Heap.write (h : Heap K) (p : Nat) (n : Node K) : Heap K :=
  { h with node := fun a => if a = p then some n else h.node a }

/-- Release of a node that is allocated. Used at include/marley/JSON.hh:189-202, 581-584. -/
def Heap.release (h : Heap K) (p : Nat) : Heap K :=
  { h with node := fun a => if a = p then none else h.node a }

/-- The destructor (include/marley/JSON.hh:189-202); `delete` of a map or a list destroys
its elements.  The first argument bounds the depth. -/
def destroyN : Nat → Heap K → Cell K → Res (Heap K)
  | _, h, .prim _ => .ok h
  | _, h, .str p =>
    match h.node p with
    | some (.text _) => .ok (h.release p)
    | _ => .error .ub
  | 0, _, _ => .error .ub
  | n + 1, h, .arr p =>
    match h.node p with
    | some (.list l) => do
      let h ← l.foldlM (destroyN n) h
      .ok (h.release p)
    | _ => .error .ub
  | n + 1, h, .obj p =>
    match h.node p with
    | some (.map m) => do
      let h ← (m.map Prod.snd).foldlM (destroyN n) h
      .ok (h.release p)
    | _ => .error .ub

/-- The destructor.  Storage that is nested deeper than the number of allocations has a
cycle: the recursion does not end and the stack overflows, which is undefined. See include/marley/JSON.hh:189-202. -/
def Heap.destroy (h : Heap K) (c : Cell K) : Res (Heap K) := destroyN (h.next + 1) h c

/-- A function that makes new cells, applied to the elements of a container.
Used at include/marley/JSON.hh:150-167. -/
def copyAll (f : Heap K → Cell K → Res (Heap K × Cell K)) :
    Heap K → List (Cell K) → Res (Heap K × List (Cell K))
  | h, [] => .ok (h, [])
  | h, c :: l => do
    let (h, c) ← f h c
    let (h, l) ← copyAll f h l
    .ok (h, c :: l)

/-- The copy constructor (include/marley/JSON.hh:150-167); constructing a container from a
range copies the elements.  The first argument bounds the depth.  The container is
allocated here after its elements are copied, in the code before. -/
def copyN : Nat → Heap K → Cell K → Res (Heap K × Cell K)
  | _, h, .prim x => .ok (h, .prim x)
  | _, h, .str p =>
    match h.node p with
    | some (.text s) => .ok ((h.alloc (.text s)).1, .str (h.alloc (.text s)).2)
    | _ => .error .ub
  | 0, _, _ => .error .ub
  | n + 1, h, .arr p =>
    match h.node p with
    | some (.list l) => do
      let (h, l) ← copyAll (copyN n) h l
      .ok ((h.alloc (.list l)).1, .arr (h.alloc (.list l)).2)
    | _ => .error .ub
  | n + 1, h, .obj p =>
    match h.node p with
    | some (.map m) => do
      let (h, l) ← copyAll (copyN n) h (m.map Prod.snd)
      let m := (m.map Prod.fst).zip l
      .ok ((h.alloc (.map m)).1, .obj (h.alloc (.map m)).2)
    | _ => .error .ub

/-- The copy constructor, with the depth bounded as for the destructor
(include/marley/JSON.hh:150-167). -/
def Heap.copy (h : Heap K) (c : Cell K) : Res (Heap K × Cell K) := copyN (h.next + 1) h c

/-- What a new JSON object of a type holds (include/marley/JSON.hh:592-616). -/
def Heap.fresh (h : Heap K) [Zero K] : DataType → Heap K × Cell K
  | .null => (h, .prim .null)
  | .object => ((h.alloc (.map [])).1, .obj (h.alloc (.map [])).2)
  | .array => ((h.alloc (.list [])).1, .arr (h.alloc (.list [])).2)
  | .string => ((h.alloc (.text [])).1, .str (h.alloc (.text [])).2)
  | .floating => (h, .prim (.float 0))
  | .integral => (h, .prim (.int 0))
  | .boolean => (h, .prim (.bool false))

/-- `set_type` (include/marley/JSON.hh:576-617). -/
def Heap.setType [Zero K] (h : Heap K) (c : Cell K) (t : DataType) : Res (Heap K × Cell K) :=
  if c.type = t then .ok (h, c)
  else do
    let h ← h.destroy c
    .ok (h.fresh t)

/-! ## References -/

/-- The JSON objects of the program that are not inside of others, by number, and the
heap. See include/marley/JSON.hh:63-76. -/
structure Mem (K : Type) where
  heap : Heap K
  vars : Nat → Option (Cell K)

/-- A `JSON&`: a variable, an element of a map, or an element of a list. See include/marley/JSON.hh:296-305. -/
inductive Loc where
  | var (i : Nat)
  | member (p : Nat) (k : Str)
  | item (p : Nat) (n : Nat)
  deriving DecidableEq

/-- `map_->find` (include/marley/JSON.hh:298, 312). -/
def findKey {α : Type} (m : List (Str × α)) (k : Str) : Option α :=
  (m.find? fun e => decide (e.1 = k)).map Prod.snd

/-- Changes an element of a map. Used at include/marley/JSON.hh:298. -/
def changeKey {α : Type} : List (Str × α) → Str → α → List (Str × α)
  | [], _, _ => []
  | e :: m, k, x => if e.1 = k then (k, x) :: m else e :: changeKey m k x

/-- Inserts an element into a map, in the order of `std::less` (`std::map::operator[]`, used
at include/marley/JSON.hh:298). -/
def insertKey {α : Type} : List (Str × α) → Str → α → List (Str × α)
  | [], k, x => [(k, x)]
  | e :: m, k, x => if keyLt k e.1 then (k, x) :: e :: m else e :: insertKey m k x

/-- Reads the object a reference refers to. See include/marley/JSON.hh:63-76. -/
def Mem.load (s : Mem K) : Loc → Res (Cell K)
  | .var i =>
    match s.vars i with
    | some c => .ok c
    | none => .error .ub
  | .member p k =>
    match s.heap.node p with
    | some (.map m) =>
      match findKey m k with
      | some c => .ok c
      | none => .error .ub
    | _ => .error .ub
  | .item p n =>
    match s.heap.node p with
    | some (.list l) =>
      match l[n]? with
      | some c => .ok c
      | none => .error .ub
    | _ => .error .ub

/-- Writes the members `type_` and `data_` of the object a reference refers to. See include/marley/JSON.hh:576-617. -/
def Mem.store (s : Mem K) (r : Loc) (c : Cell K) : Res (Mem K) :=
  match r with
  | .var i =>
    match s.vars i with
    | some _ => .ok { s with vars := fun j => if j = i then some c else s.vars j }
    | none => .error .ub
  | .member p k =>
    match s.heap.node p with
    | some (.map m) => .ok { s with heap := s.heap.write p (.map (changeKey m k c)) }
    | _ => .error .ub
  | .item p n =>
    match s.heap.node p with
    | some (.list l) =>
      if n < l.length then .ok { s with heap := s.heap.write p (.list (l.set n c)) }
      else .error .ub
    | _ => .error .ub

/-- `set_type` on the object a reference refers to (include/marley/JSON.hh:576-617): the
storage is released, then the members are written. -/
def Mem.setType [Zero K] (s : Mem K) (r : Loc) (t : DataType) : Res (Mem K × Cell K) := do
  let c ← s.load r
  let (h, c) ← s.heap.setType c t
  let s ← ({ s with heap := h }).store r c
  .ok (s, c)

/-- A subscript. See include/marley/JSON.hh:296-309. -/
inductive Step where
  | key (k : Str)
  | index (n : Nat)
  deriving DecidableEq

/-- `operator[]` (include/marley/JSON.hh:296-305), also used by `at`
(include/marley/JSON.hh:307-309, 315-317).  An index is an `unsigned`, so that `index + 1`
is 0 for the largest. -/
def Mem.sub [Zero K] (s : Mem K) (r : Loc) : Step → Res (Mem K × Loc)
  | .key k => do
    let (s, c) ← s.setType r .object
    match c with
    | .obj p =>
      match s.heap.node p with
      | some (.map m) =>
        match findKey m k with
        | some _ => .ok (s, .member p k)
        | none =>
          .ok ({ s with heap := s.heap.write p (.map (insertKey m k (.prim .null))) }, .member p k)
      | _ => .error .ub
    | _ => .error .ub
  | .index n => do
    let (s, c) ← s.setType r .array
    match c with
    | .arr p =>
      match s.heap.node p with
      | some (.list l) =>
        if l.length ≤ n then
          let size := (n + 1) % 2 ^ 32
          if n < size then
            let l := l ++ List.replicate (size - l.length) (.prim .null)
            .ok ({ s with heap := s.heap.write p (.list l) }, .item p n)
          else .error .ub
        else .ok (s, .item p n)
      | _ => .error .ub
    | _ => .error .ub

/-- Several subscripts, `x["a"][3]["b"]`. See include/marley/JSON.hh:296-309. -/
def Mem.path [Zero K] (s : Mem K) (r : Loc) : List Step → Res (Mem K × Loc)
  | [] => .ok (s, r)
  | t :: p => do
    let (s, r) ← s.sub r t
    s.path r p

/-! ## Operations -/

/-- Values that can be assigned without a JSON object. See include/marley/JSON.hh:264-289. -/
inductive Lit (K : Type) where
  | bool (b : Bool)
  | int (n : Int)
  | float (x : K)
  | text (s : Str)

/-- Arguments of constructors. See include/marley/JSON.hh:130-167, 204-218. -/
inductive Init (K : Type) where
  | null
  | object
  | array
  | lit (x : Lit K)

/-- What a program does with JSON objects.  Variables are numbered. See include/marley/JSON.hh:130-309. -/
inductive Op (K : Type) where
  /-- `JSON()`, `JSON(x)`, `JSON::object()`, `JSON::array()` -/
  | build (i : Nat) (x : Init K)
  /-- `JSON x(y[..])` -/
  | copyNew (i j : Nat) (q : List Step)
  /-- `JSON x(std::move(y[..]))` -/
  | moveNew (i j : Nat) (q : List Step)
  /-- `x[..] = 3` -/
  | setLit (i : Nat) (p : List Step) (x : Lit K)
  /-- `x[..] = y[..]`; `right` tells whether the right side is evaluated first. -/
  | copyTo (right : Bool) (i : Nat) (p : List Step) (j : Nat) (q : List Step)
  /-- `x[..] = std::move(y[..])` -/
  | moveTo (right : Bool) (i : Nat) (p : List Step) (j : Nat) (q : List Step)
  /-- `x[..].append(y[..])` -/
  | append (i : Nat) (p : List Step) (j : Nat) (q : List Step)
  /-- the end of the lifetime of a variable -/
  | destroy (i : Nat)

/-- The constructors for values (include/marley/JSON.hh:130, 204-218, 225): the
object is made and its value stored. -/
def Heap.lit (h : Heap K) : Lit K → Heap K × Cell K
  | .bool b => (h, .prim (.bool b))
  | .int n => (h, .prim (.int n))
  | .float x => (h, .prim (.float x))
  | .text s => ((h.alloc (.text s)).1, .str (h.alloc (.text s)).2)

/-- All constructors from values; `make` is the default constructor with `set_type`
(include/marley/JSON.hh:130, 204-235, 245-247). -/
def Heap.build [Zero K] (h : Heap K) : Init K → Heap K × Cell K
  | .null => (h, .prim .null)
  | .object => h.fresh .object
  | .array => h.fresh .array
  | .lit x => h.lit x

/-- `operator=` for values (include/marley/JSON.hh:262-294). -/
def Mem.assignLit [Zero K] (s : Mem K) (r : Loc) (x : Lit K) : Res (Mem K) :=
  match x with
  | .bool b => do
    let (s, _) ← s.setType r .boolean
    s.store r (.prim (.bool b))
  | .int n => do
    let (s, _) ← s.setType r .integral
    s.store r (.prim (.int n))
  | .float x => do
    let (s, _) ← s.setType r .floating
    s.store r (.prim (.float x))
  | .text t => do
    let (s, c) ← s.setType r .string
    match c with
    | .str p => .ok { s with heap := s.heap.write p (.text t) }
    | _ => .error .ub

/-- `operator=(const JSON&)` (include/marley/JSON.hh:169-187).  What the object held
before is not released. -/
def Mem.assignCopy (s : Mem K) (r q : Loc) : Res (Mem K) := do
  let c ← s.load q
  let (h, c) ← s.heap.copy c
  ({ s with heap := h }).store r c

/-- `operator=(JSON&&)` (include/marley/JSON.hh:142-148): as above, and the other object
becomes null, also if it is the same. -/
def Mem.assignMove (s : Mem K) (r q : Loc) : Res (Mem K) := do
  let c ← s.load q
  let s ← s.store r c
  s.store q (.prim .null)

/-- `append` (include/marley/JSON.hh:253-256): the argument is a copy (made by the caller,
`q` tells of what), the element another copy, and the argument is destroyed at the end. -/
def Mem.append [Zero K] (s : Mem K) (r q : Loc) : Res (Mem K) := do
  let c ← s.load q
  let (h, arg) ← s.heap.copy c
  let (s, c) ← ({ s with heap := h }).setType r .array
  match c with
  | .arr p =>
    let (h, e) ← s.heap.copy arg
    match h.node p with
    | some (.list l) => do
      let h ← (h.write p (.list (l ++ [e]))).destroy arg
      .ok { s with heap := h }
    | _ => .error .ub
  | _ => .error .ub

/-- Evaluates the two sides of an assignment; which one comes first is not specified
before C++17. Used at include/marley/JSON.hh:142, 169, 264-289. -/
def Mem.sides [Zero K] (s : Mem K) (right : Bool) (i : Nat) (p : List Step) (j : Nat)
    (q : List Step) : Res (Mem K × Loc × Loc) :=
  if right then do
    let (s, b) ← s.path (.var j) q
    let (s, a) ← s.path (.var i) p
    .ok (s, a, b)
  else do
    let (s, a) ← s.path (.var i) p
    let (s, b) ← s.path (.var j) q
    .ok (s, a, b)

/-- Starts the lifetime of a variable. See include/marley/JSON.hh:130-167, 204-218. -/
def Mem.start (s : Mem K) (i : Nat) (h : Heap K) (c : Cell K) : Mem K :=
  ⟨h, fun j => if j = i then some c else s.vars j⟩

/-- One operation.  A variable is started only while it is not in use, which is the
compiler's business; the model gives undefined behaviour otherwise.  `JSON(JSON&&)` is at
include/marley/JSON.hh:139-140. -/
def Mem.exec [Zero K] (s : Mem K) : Op K → Res (Mem K)
  | .build i x =>
    match s.vars i with
    | some _ => .error .ub
    | none => .ok (s.start i (s.heap.build x).1 (s.heap.build x).2)
  | .copyNew i j q =>
    match s.vars i with
    | some _ => .error .ub
    | none => do
      let (s, b) ← s.path (.var j) q
      let c ← s.load b
      let (h, c) ← s.heap.copy c
      .ok (s.start i h c)
  | .moveNew i j q =>
    match s.vars i with
    | some _ => .error .ub
    | none => do
      let (s, b) ← s.path (.var j) q
      let c ← s.load b
      let s ← s.store b (.prim .null)
      .ok (s.start i s.heap c)
  | .setLit i p x => do
    let (s, a) ← s.path (.var i) p
    s.assignLit a x
  | .copyTo right i p j q => do
    let (s, a, b) ← s.sides right i p j q
    s.assignCopy a b
  | .moveTo right i p j q => do
    let (s, a, b) ← s.sides right i p j q
    s.assignMove a b
  | .append i p j q => do
    let (s, a, b) ← s.sides false i p j q
    s.append a b
  | .destroy i =>
    match s.vars i with
    | none => .error .ub
    | some c => do
      let h ← s.heap.destroy c
      .ok ⟨h, fun j => if j = i then none else s.vars j⟩

/-- A program. See include/marley/JSON.hh:130-309. -/
def Mem.run [Zero K] (s : Mem K) (ops : List (Op K)) : Res (Mem K) := ops.foldlM Mem.exec s

/-- Nothing is in use. See include/marley/JSON.hh:63-76. -/
def Mem.empty : Mem K := ⟨⟨fun _ => none, 0⟩, fun _ => none⟩

/-! ## Looking at a value -/

/-- The value as the const members show it: `type()`, `to_bool`, `to_long`, `to_double`,
and the ranges (include/marley/JSON.hh:343, 359-426, 428-451).  The first argument bounds
the depth. -/
def readN : Nat → Heap K → Cell K → Res (JVal K)
  | _, _, .prim .null => .ok .null
  | _, _, .prim (.bool b) => .ok (.bool b)
  | _, _, .prim (.int n) => .ok (.int n)
  | _, _, .prim (.float x) => .ok (.float x)
  | _, h, .str p =>
    match h.node p with
    | some (.text s) => .ok (.str s)
    | _ => .error .ub
  | 0, _, _ => .error .ub
  | n + 1, h, .arr p =>
    match h.node p with
    | some (.list l) => do
      let vs ← l.mapM (readN n h)
      .ok (.arr vs)
    | _ => .error .ub
  | n + 1, h, .obj p =>
    match h.node p with
    | some (.map m) => do
      let vs ← (m.map Prod.snd).mapM (readN n h)
      .ok (.obj ((m.map Prod.fst).zip vs))
    | _ => .error .ub

/-- The value of a variable. See include/marley/JSON.hh:343, 359-426, 428-451. -/
def Mem.read (s : Mem K) (i : Nat) : Option (Res (JVal K)) :=
  (s.vars i).map (readN (s.heap.next + 1) s.heap)

end Marley.JsonHeap
