import Verif.Model.Basic

/-!
# Iterators to members (include/marley/IteratorToMember.hh, include/marley/IteratorToPointerMember.hh)

A container is a list, an iterator of it is a position in it.  Moving before the beginning or behind the end, and
dereferencing the end, are undefined behaviour.  A member is given by how it is read and how it is overwritten.
`operator[]` of the second class is left out: it applies a pointer to member to the pointer itself and so
does not compile if it is used, like `make_IteratorToPointerMember`; the repository uses neither.
-/

set_option autoImplicit false

namespace Marley.Iter
open Marley

variable {T R : Type}

/-- A data member of type `R` of a class `T`: `R T::*` (include/marley/IteratorToMember.hh:48-49). -/
structure Member (T R : Type) where
  get : T → R
  set : R → T → T

/-- An `IteratorToMember` (include/marley/IteratorToMember.hh:78-81) or an `IteratorToPointerMember`
(include/marley/IteratorToPointerMember.hh:85-88). -/
structure ItM (T R : Type) where
  it : Int
  mem : Member T R

/-- Moves an iterator of a container with `len` elements (as used in include/marley/IteratorToMember.hh:105, 111, 116, 121). -/
def move (len : Nat) (p n : Int) : Res Int :=
  if 0 ≤ p + n ∧ p + n ≤ len then .ok (p + n) else .error .ub

/-- The index of the element at a position (as used in include/marley/IteratorToMember.hh:89, 99). -/
def place (len : Nat) (p : Int) : Res Nat :=
  if 0 ≤ p ∧ p < len then .ok p.toNat else .error .ub

/-! ## Moving, in both classes alike -/

/-- `operator++()` (include/marley/IteratorToMember.hh:102-105,
include/marley/IteratorToPointerMember.hh:109-112): the iterator afterwards and the result. -/
def ItM.preInc (len : Nat) (i : ItM T R) : Res (ItM T R × ItM T R) :=
  match move len i.it 1 with
  | .error e => .error e
  | .ok p => .ok ({ i with it := p }, { i with it := p })

/-- `operator--()` (include/marley/IteratorToMember.hh:108-111,
include/marley/IteratorToPointerMember.hh:115-118). -/
def ItM.preDec (len : Nat) (i : ItM T R) : Res (ItM T R × ItM T R) :=
  match move len i.it (-1) with
  | .error e => .error e
  | .ok p => .ok ({ i with it := p }, { i with it := p })

/-- `operator+=` (include/marley/IteratorToMember.hh:113-116,
include/marley/IteratorToPointerMember.hh:120-123). -/
def ItM.addAssign (len : Nat) (i : ItM T R) (n : Int) : Res (ItM T R × ItM T R) :=
  match move len i.it n with
  | .error e => .error e
  | .ok p => .ok ({ i with it := p }, { i with it := p })

/-- `operator-=` (include/marley/IteratorToMember.hh:118-121,
include/marley/IteratorToPointerMember.hh:125-128). -/
def ItM.subAssign (len : Nat) (i : ItM T R) (n : Int) : Res (ItM T R × ItM T R) :=
  match move len i.it (-n) with
  | .error e => .error e
  | .ok p => .ok ({ i with it := p }, { i with it := p })

/-- `operator+` (include/marley/IteratorToMember.hh:123-126,
include/marley/IteratorToPointerMember.hh:130-133). -/
def ItM.plus (len : Nat) (i : ItM T R) (n : Int) : Res (ItM T R × ItM T R) :=
  match move len i.it n with
  | .error e => .error e
  | .ok p => .ok (i, ⟨p, i.mem⟩)

/-- `operator-` with a number (include/marley/IteratorToMember.hh:128-131,
include/marley/IteratorToPointerMember.hh:135-138). -/
def ItM.minus (len : Nat) (i : ItM T R) (n : Int) : Res (ItM T R × ItM T R) :=
  match move len i.it (-n) with
  | .error e => .error e
  | .ok p => .ok (i, ⟨p, i.mem⟩)

/-- `operator++(int)` (include/marley/IteratorToMember.hh:137-144,
include/marley/IteratorToPointerMember.hh:144-151). -/
def ItM.postInc (len : Nat) (i : ItM T R) : Res (ItM T R × ItM T R) :=
  let result := i
  match move len i.it 1 with
  | .error e => .error e
  | .ok p => .ok ({ i with it := p }, result)

/-- `operator--(int)` (include/marley/IteratorToMember.hh:147-154,
include/marley/IteratorToPointerMember.hh:154-161). -/
def ItM.postDec (len : Nat) (i : ItM T R) : Res (ItM T R × ItM T R) :=
  let result := i
  match move len i.it (-1) with
  | .error e => .error e
  | .ok p => .ok ({ i with it := p }, result)

/-- `operator-` with an iterator (include/marley/IteratorToMember.hh:68-70,
include/marley/IteratorToPointerMember.hh:76-78). -/
def ItM.diff (i j : ItM T R) : Int := i.it - j.it

/-- `operator==` (include/marley/IteratorToMember.hh:72-73,
include/marley/IteratorToPointerMember.hh:80-81). -/
def ItM.eq (i j : ItM T R) : Bool := i.it == j.it

/-- `operator!=` (include/marley/IteratorToMember.hh:75-76,
include/marley/IteratorToPointerMember.hh:82-83). -/
def ItM.ne (i j : ItM T R) : Bool := i.it != j.it

/-! ## Access to members of elements -/

/-- `operator*` for reading (include/marley/IteratorToMember.hh:86-89). -/
def ItM.star (xs : List T) (i : ItM T R) : Res R :=
  match place xs.length i.it with
  | .error e => .error e
  | .ok k => match xs[k]? with
    | none => .error .ub
    | some t => .ok (i.mem.get t)

/-- `operator[]` for reading (include/marley/IteratorToMember.hh:96-99). -/
def ItM.index (xs : List T) (i : ItM T R) (n : Int) : Res R :=
  match place xs.length (i.it + n) with
  | .error e => .error e
  | .ok k => match xs[k]? with
    | none => .error .ub
    | some t => .ok (i.mem.get t)

/-- An assignment to the result of `operator*`, or through that of `operator->`
(include/marley/IteratorToMember.hh:86-94). -/
def ItM.assign (xs : List T) (i : ItM T R) (v : R) : Res (List T) :=
  match place xs.length i.it with
  | .error e => .error e
  | .ok k => match xs[k]? with
    | none => .error .ub
    | some t => .ok (xs.set k (i.mem.set v t))

/-! ## Access to members of objects that elements point to -/

/-- A pointer: null, or the address of an object. See include/marley/IteratorToPointerMember.hh:96. -/
abbrev Ptr := Option Nat

/-- The objects, by address; `none` if there is none. See include/marley/IteratorToPointerMember.hh:96. -/
abbrev Heap (T : Type) := Nat → Option T

/-- Overwrites an object. See include/marley/IteratorToPointerMember.hh:96. -/
def Heap.put (h : Heap T) (a : Nat) (t : T) : Heap T := fun b => if b = a then some t else h b

/-- The object a pointer points to (as used in include/marley/IteratorToPointerMember.hh:96). -/
def follow (h : Heap T) : Ptr → Res (Nat × T)
  | none => .error .ub
  | some a => match h a with
    | none => .error .ub
    | some t => .ok (a, t)

/-- `operator*` for reading (include/marley/IteratorToPointerMember.hh:93-96). -/
def ItM.pstar (h : Heap T) (ps : List Ptr) (i : ItM T R) : Res R :=
  match place ps.length i.it with
  | .error e => .error e
  | .ok k => match ps[k]? with
    | none => .error .ub
    | some p => match follow h p with
      | .error e => .error e
      | .ok (_, t) => .ok (i.mem.get t)

/-- An assignment to the result of `operator*`, or through that of `operator->`
(include/marley/IteratorToPointerMember.hh:93-101). -/
def ItM.passign (h : Heap T) (ps : List Ptr) (i : ItM T R) (v : R) : Res (Heap T) :=
  match place ps.length i.it with
  | .error e => .error e
  | .ok k => match ps[k]? with
    | none => .error .ub
    | some p => match follow h p with
      | .error e => .error e
      | .ok (a, t) => .ok (h.put a (i.mem.set v t))

/-! ## The loop of a function of the standard library over a range -/

/-- Reads `[first, last)` from front to back as `std::discrete_distribution` and `std::upper_bound` do
(as used in src/ExitChannel.cc:481-491, src/HauserFeshbachDecay.cc:248-255); `none` if the end is not
reached within `fuel` steps. -/
def readRange (star : ItM T R → Res R) (len : Nat) : Nat → ItM T R → ItM T R → Option (Res (List R))
  | 0, _, _ => none
  | n + 1, first, last =>
    if first.ne last then
      match star first with
      | .error e => some (.error e)
      | .ok v =>
        match first.preInc len with
        | .error e => some (.error e)
        | .ok (first, _) =>
          match readRange star len n first last with
          | none => none
          | some (.error e) => some (.error e)
          | some (.ok l) => some (.ok (v :: l))
    else some (.ok [])

end Marley.Iter
