import Verif.Spec.RootOutput

/-!
# Specification vocabulary for productions in several runs
-/

set_option autoImplicit false

namespace Marley.RootOut
open Marley Marley.Json Marley.Out

variable {K γ : Type}

/-- What is assumed of the generator made from a configuration (`g0`): there is a relation
"behaves alike" between generators that holds between `g0` and itself, under which both create
the same next event and stay related, and to which restoring the state of one of them in
`g0` makes no difference.  `C107_restorable_partial` proves it for MARLEY's generator. -/
structure Restorable (G : GenOps K γ) (g0 : γ) (alike : γ → γ → Prop) : Prop where
  start : alike g0 g0
  next : ∀ g h e h1, alike g h → G.event h = some (.ok (e, h1)) →
    ∃ g1, G.event g = some (.ok (e, g1)) ∧ alike g1 h1
  restored : ∀ g h, alike g h → alike g (G.setState g0 (G.state h))

/-- The formats in which a production can be continued. -/
inductive Kind where
  | json
  | root

/-- The file is one of that format. -/
def IsKind : Kind → AnyFile K → Prop
  | .json, .text f => f.format = .json
  | .root, .root _ => True
  | _, _ => False

/-- What is on the disk. -/
def AnyFile.content : AnyFile K → Str
  | .text f => f.text
  | .root f => f.text

/-- The contents a file can have after a run in which it was new (and no other file was
resumed) and any number of further runs in which it was resumed, all with the same
configuration, each with its own number of events, interruption and other output files. -/
inductive Production [DivisionRing K] (G : GenOps K γ) (F : TextFmt K) (R : RootIO K) (cfg : JVal K)
    (k : Kind) : Str → Prop
  | first (num : Int) (stop : Nat → Bool) (fs fs' : List (AnyFile K)) (n : Int) (f f' : AnyFile K) :
      num ≤ longMax → (∀ f ∈ fs, OpenedAny R f) →
      produceFiles (anyOps G F R) G cfg num stop fs = some (fs', .ok n) →
      (∀ f ∈ fs, ¬ AnyFile.isResume f) → (f, f') ∈ fs.zip fs' → IsKind k f →
      Production G F R cfg k (AnyFile.content f')
  | next (num : Int) (stop : Nat → Bool) (fs fs' : List (AnyFile K)) (n : Int) (f f' : AnyFile K) :
      num ≤ longMax → (∀ f ∈ fs, OpenedAny R f) →
      produceFiles (anyOps G F R) G cfg num stop fs = some (fs', .ok n) →
      AnyFile.isResume f → (f, f') ∈ fs.zip fs' → IsKind k f →
      Production G F R cfg k (AnyFile.content f) → Production G F R cfg k (AnyFile.content f')

/-- The file contains exactly these events and, if it is a JSON file, says how many there are. -/
def HoldsEvents (F : TextFmt K) (ofLong : Int → K) (R : RootIO K) (k : Kind) (text : Str)
    (es : List (Event K)) : Prop :=
  match k with
  | .json => Contains F.json ofLong text es es.length
  | .root => ∃ data, R.decode text = some data ∧ data.tree = some es

end Marley.RootOut
