import Verif.Model.Iterators
import Mathlib.Data.List.Forall2

/-!
# Specification vocabulary for the iterators to members (C116)

A plain iterator over a list of values: what every standard iterator with random access does.
-/

set_option autoImplicit false

namespace Marley.Iter
open Marley

variable {T R : Type}

/-- What can be done with an iterator. -/
inductive Op (R : Type) where
  | preInc | postInc | preDec | postDec
  | addAssign (n : Int) | subAssign (n : Int) | plus (n : Int) | minus (n : Int)
  | read | readAt (n : Int) | write (v : R)

/-- The answer: an iterator at a position, a value, or nothing. -/
inductive Ans (R : Type) where
  | at (p : Int)
  | value (v : R)
  | nothing

/-- The values and the position of the iterator. -/
structure Plain (R : Type) where
  values : List R
  pos : Int

/-- A move by `n`; the result is the old or the new iterator. -/
def Plain.go (s : Plain R) (n : Int) (keep old : Bool) : Res (Plain R × Ans R) :=
  if 0 ≤ s.pos + n ∧ s.pos + n ≤ s.values.length then
    .ok (if keep then s else ⟨s.values, s.pos + n⟩, .at (if old then s.pos else s.pos + n))
  else .error .ub

/-- The value at a position. -/
def Plain.get (s : Plain R) (p : Int) : Option R := if p < 0 then none else s.values[p.toNat]?

/-- What a plain iterator does. -/
def Plain.step (s : Plain R) : Op R → Res (Plain R × Ans R)
  | .preInc => s.go 1 false false
  | .postInc => s.go 1 false true
  | .preDec => s.go (-1) false false
  | .postDec => s.go (-1) false true
  | .addAssign n => s.go n false false
  | .subAssign n => s.go (-n) false false
  | .plus n => s.go n true false
  | .minus n => s.go (-n) true false
  | .read => match s.get s.pos with | some v => .ok (s, .value v) | none => .error .ub
  | .readAt n => match s.get (s.pos + n) with | some v => .ok (s, .value v) | none => .error .ub
  | .write v => match s.get s.pos with
    | some _ => .ok (⟨s.values.set s.pos.toNat v, s.pos⟩, .nothing)
    | none => .error .ub

/-- The answers to a sequence of operations, up to the first that is not defined, and the state after the last. -/
def Plain.run : Plain R → List (Op R) → List (Ans R) × Res (Plain R)
  | s, [] => ([], .ok s)
  | s, o :: l =>
    match s.step o with
    | .error e => ([], .error e)
    | .ok (s, a) => (a :: (s.run l).1, (s.run l).2)

/-- An object keeps apart its member and the rest: what has been written is read, and writing changes nothing that `other`
sees. -/
structure Member.Lawful (m : Member T R) : Prop where
  get_set : ∀ v t, m.get (m.set v t) = v
  set_get : ∀ t, m.set (m.get t) t = t
  set_set : ∀ v w t, m.set v (m.set w t) = m.set v t

/-- The same operations with an `IteratorToMember` (for a non-constant container). -/
def stepM (s : List T × ItM T R) : Op R → Res ((List T × ItM T R) × Ans R)
  | .preInc => match s.2.preInc s.1.length with | .error e => .error e | .ok (i, r) => .ok ((s.1, i), .at r.it)
  | .postInc => match s.2.postInc s.1.length with | .error e => .error e | .ok (i, r) => .ok ((s.1, i), .at r.it)
  | .preDec => match s.2.preDec s.1.length with | .error e => .error e | .ok (i, r) => .ok ((s.1, i), .at r.it)
  | .postDec => match s.2.postDec s.1.length with | .error e => .error e | .ok (i, r) => .ok ((s.1, i), .at r.it)
  | .addAssign n => match s.2.addAssign s.1.length n with | .error e => .error e | .ok (i, r) => .ok ((s.1, i), .at r.it)
  | .subAssign n => match s.2.subAssign s.1.length n with | .error e => .error e | .ok (i, r) => .ok ((s.1, i), .at r.it)
  | .plus n => match s.2.plus s.1.length n with | .error e => .error e | .ok (i, r) => .ok ((s.1, i), .at r.it)
  | .minus n => match s.2.minus s.1.length n with | .error e => .error e | .ok (i, r) => .ok ((s.1, i), .at r.it)
  | .read => match s.2.star s.1 with | .error e => .error e | .ok v => .ok (s, .value v)
  | .readAt n => match s.2.index s.1 n with | .error e => .error e | .ok v => .ok (s, .value v)
  | .write v => match s.2.assign s.1 v with | .error e => .error e | .ok xs => .ok ((xs, s.2), .nothing)

/-- A sequence of operations. -/
def runM : List T × ItM T R → List (Op R) → List (Ans R) × Res (List T × ItM T R)
  | s, [] => ([], .ok s)
  | s, o :: l =>
    match stepM s o with
    | .error e => ([], .error e)
    | .ok (s, a) => (a :: (runM s l).1, (runM s l).2)

/-- The same operations with an `IteratorToPointerMember`; `readAt` is not available. -/
def stepP (ps : List Ptr) (s : Heap T × ItM T R) : Op R → Res ((Heap T × ItM T R) × Ans R)
  | .preInc => match s.2.preInc ps.length with | .error e => .error e | .ok (i, r) => .ok ((s.1, i), .at r.it)
  | .postInc => match s.2.postInc ps.length with | .error e => .error e | .ok (i, r) => .ok ((s.1, i), .at r.it)
  | .preDec => match s.2.preDec ps.length with | .error e => .error e | .ok (i, r) => .ok ((s.1, i), .at r.it)
  | .postDec => match s.2.postDec ps.length with | .error e => .error e | .ok (i, r) => .ok ((s.1, i), .at r.it)
  | .addAssign n => match s.2.addAssign ps.length n with | .error e => .error e | .ok (i, r) => .ok ((s.1, i), .at r.it)
  | .subAssign n => match s.2.subAssign ps.length n with | .error e => .error e | .ok (i, r) => .ok ((s.1, i), .at r.it)
  | .plus n => match s.2.plus ps.length n with | .error e => .error e | .ok (i, r) => .ok ((s.1, i), .at r.it)
  | .minus n => match s.2.minus ps.length n with | .error e => .error e | .ok (i, r) => .ok ((s.1, i), .at r.it)
  | .read => match s.2.pstar s.1 ps with | .error e => .error e | .ok v => .ok (s, .value v)
  | .readAt _ => .error .ub
  | .write v => match s.2.passign s.1 ps v with | .error e => .error e | .ok h => .ok ((h, s.2), .nothing)

/-- A sequence of operations. -/
def runP (ps : List Ptr) : Heap T × ItM T R → List (Op R) → List (Ans R) × Res (Heap T × ItM T R)
  | s, [] => ([], .ok s)
  | s, o :: l =>
    match stepP ps s o with
    | .error e => ([], .error e)
    | .ok (s, a) => (a :: (runP ps s l).1, (runP ps s l).2)

/-- The pointers point to these objects. -/
def PointsTo (h : Heap T) (ps : List Ptr) (ts : List T) : Prop :=
  List.Forall₂ (fun p t => ∃ a, p = some a ∧ h a = some t) ps ts

/-- Two objects are equal apart from the member. -/
def SameRest (m : Member T R) (t t' : T) : Prop := ∃ v, t' = m.set v t

end Marley.Iter
