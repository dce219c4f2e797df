import Verif.Model.JsonHeap

/-!
# Specification of the value semantics of JSON objects

Variables hold values, and an operation changes the value of a variable and of no other;
there are no references, no storage, and no sharing.  The specification uses the
operations of `Verif/Model/JsonHeap.lean` only for their names.
-/

set_option autoImplicit false

namespace Marley.JsonValue
open Marley Marley.Json Marley.JsonHeap

variable {K : Type}

/-- The element, or null if there is none. -/
def get (v : JVal K) : Step → JVal K
  | .key k => match v with
    | .obj m => (findKey m k).getD .null
    | _ => .null
  | .index n => match v with
    | .arr l => l[n]?.getD .null
    | _ => .null

/-- A member of an object is given a value. -/
def putMember (m : List (Str × JVal K)) (k : Str) (w : JVal K) : List (Str × JVal K) :=
  if (findKey m k).isSome then changeKey m k w else insertKey m k w

/-- An element of an array is given a value; the array is extended with nulls if it is
too short. -/
def putItem (l : List (JVal K)) (n : Nat) (w : JVal K) : List (JVal K) :=
  (l ++ List.replicate (n + 1 - l.length) JVal.null).set n w

/-- The value with an element changed.  What is not an object, or not an array, becomes an
empty one. -/
def put (v : JVal K) (s : Step) (w : JVal K) : JVal K :=
  match s with
  | .key k => match v with
    | .obj m => .obj (putMember m k w)
    | _ => .obj (putMember [] k w)
  | .index n => match v with
    | .arr l => .arr (putItem l n w)
    | _ => .arr (putItem [] n w)

/-- The element at the end of a path. -/
def getPath (v : JVal K) : List Step → JVal K
  | [] => v
  | s :: p => getPath (get v s) p

/-- The value with the element at the end of a path changed. -/
def putPath (v : JVal K) : List Step → JVal K → JVal K
  | [], w => w
  | s :: p, w => put v s (putPath (get v s) p w)

/-- The element at the end of a path, if all subscripts fit. -/
def lookPath (v : JVal K) : List Step → Option (JVal K)
  | [] => some v
  | .key k :: p => match v with
    | .obj m => (findKey m k).bind (fun w => lookPath w p)
    | _ => none
  | .index n :: p => match v with
    | .arr l => l[n]?.bind (fun w => lookPath w p)
    | _ => none

/-- Using a path makes what it names exist. -/
def touch (v : JVal K) (p : List Step) : JVal K := putPath v p (getPath v p)

/-- Indices must be below the largest `unsigned`. -/
def InRange (p : List Step) : Prop := ∀ n, Step.index n ∈ p → n + 1 < 2 ^ 32

/-- The variables. -/
abbrev Vars (K : Type) := Nat → Option (JVal K)

/-- Gives a variable a value. -/
def Vars.set (ρ : Vars K) (i : Nat) (v : JVal K) : Vars K := fun j => if j = i then some v else ρ j

/-- Uses a path of a variable. -/
def Vars.touch (ρ : Vars K) (i : Nat) (p : List Step) : Option (Vars K) :=
  (ρ i).map fun v => ρ.set i (JsonValue.touch v p)

/-- Uses two paths. -/
def Vars.both (ρ : Vars K) (right : Bool) (i : Nat) (p : List Step) (j : Nat) (q : List Step) :
    Option (Vars K) :=
  if right then (ρ.touch j q).bind (·.touch i p) else (ρ.touch i p).bind (·.touch j q)

/-- Literal values. -/
def litVal : Lit K → JVal K
  | .bool b => .bool b
  | .int n => .int n
  | .float x => .float x
  | .text s => .str s

/-- Initial values. -/
def initVal : Init K → JVal K
  | .null => .null
  | .object => .obj []
  | .array => .arr []
  | .lit x => litVal x

/-- The elements of an array; what is not an array becomes an empty one. -/
def items : JVal K → List (JVal K)
  | .arr l => l
  | _ => []

/-- Is `p` the beginning of the longer path `q`? -/
def Above (p q : List Step) : Prop := p <+: q ∧ p ≠ q

instance (p q : List Step) : Decidable (Above p q) := by unfold Above; infer_instance

/-- What an operation does to the values.  There is no result if a variable is used that
does not exist, a variable is made that does, or using one of two paths of the same
variable replaces what the other one goes through (as in `x[0] = x["a"]`). -/
inductive Step1 (ρ : Vars K) : Op K → Vars K → Prop
  | build {i x} : ρ i = none → Step1 ρ (.build i x) (ρ.set i (initVal x))
  | copyNew {i j q ρ' v} : ρ i = none → InRange q → ρ.touch j q = some ρ' → ρ' j = some v →
      Step1 ρ (.copyNew i j q) (ρ'.set i (getPath v q))
  | moveNew {i j q ρ' v} : ρ i = none → InRange q → ρ.touch j q = some ρ' → ρ' j = some v →
      Step1 ρ (.moveNew i j q) ((ρ'.set j (putPath v q .null)).set i (getPath v q))
  | setLit {i p x v} : ρ i = some v → InRange p →
      Step1 ρ (.setLit i p x) (ρ.set i (putPath v p (litVal x)))
  | copyTo {right i p j q ρ' a b w w'} : InRange p → InRange q → ρ.both right i p j q = some ρ' →
      ρ' i = some a → ρ' j = some b → lookPath a p = some w' → lookPath b q = some w →
      Step1 ρ (.copyTo right i p j q) (ρ'.set i (putPath a p w))
  | moveTo {right i p j q ρ' a b w w' c} : InRange p → InRange q → ρ.both right i p j q = some ρ' →
      ρ' i = some a → ρ' j = some b → lookPath a p = some w' → lookPath b q = some w →
      -- the source becomes null, unless it was part of what was replaced
      ρ'.set i (putPath a p w) j = some c →
      Step1 ρ (.moveTo right i p j q)
        (if i = j ∧ Above p q then ρ'.set i (putPath a p w)
          else (ρ'.set i (putPath a p w)).set j (putPath c q .null))
  | append {i p j q ρ' a b w w'} : InRange p → InRange q → ρ.both false i p j q = some ρ' →
      ρ' i = some a → ρ' j = some b → lookPath a p = some w' → lookPath b q = some w →
      Step1 ρ (.append i p j q) (ρ'.set i (putPath a p (.arr (items w' ++ [w]))))
  | destroy {i v} : ρ i = some v → Step1 ρ (.destroy i) (fun j => if j = i then none else ρ j)

/-- Values that need no storage of their own. -/
def Simple : JVal K → Prop
  | .null => True
  | .bool _ => True
  | .int _ => True
  | .float _ => True
  | _ => False

/-- An assignment of one JSON object to another replaces a value that needs no storage, and
does not move an object into a part of itself. -/
def Clean (ρ : Vars K) : Op K → Prop
  | .copyTo right i p j q => ∀ ρ' a w', ρ.both right i p j q = some ρ' → ρ' i = some a →
      lookPath a p = some w' → Simple w'
  | .moveTo right i p j q => (∀ ρ' a w', ρ.both right i p j q = some ρ' → ρ' i = some a →
      lookPath a p = some w' → Simple w') ∧ ¬ (i = j ∧ Above q p)
  | _ => True

/-- What a program does to the values. -/
inductive Steps : Vars K → List (Op K) → Vars K → Prop
  | nil {ρ} : Steps ρ [] ρ
  | cons {ρ o ρ' ops ρ''} : Step1 ρ o ρ' → Steps ρ' ops ρ'' → Steps ρ (o :: ops) ρ''

/-- The same for a program all of whose operations are clean. -/
inductive CleanSteps : Vars K → List (Op K) → Vars K → Prop
  | nil {ρ} : CleanSteps ρ [] ρ
  | cons {ρ o ρ' ops ρ''} : Step1 ρ o ρ' → Clean ρ o → CleanSteps ρ' ops ρ'' → CleanSteps ρ (o :: ops) ρ''

/-- Two paths that treat the same place differently: the one as an object, the other as an
array. -/
def Clash (p q : List Step) : Prop :=
  ∃ c s s' p' q', p = c ++ s :: p' ∧ q = c ++ s' :: q' ∧
    (match s with | .key _ => true | .index _ => false) ≠ (match s' with | .key _ => true | .index _ => false)

theorem Clash.symm {p q : List Step} : Clash p q → Clash q p :=
  fun ⟨c, s, s', p', q', h1, h2, h3⟩ => ⟨c, s', s, q', p', h2, h1, fun e => h3 e.symm⟩

/-- No variable exists. -/
def Vars.none : Vars K := fun _ => Option.none

end Marley.JsonValue
