import Verif.Model.OutputFile
import Verif.Spec.Json
import Verif.Lemmas.Event

/-!
# Specification vocabulary for the output files

Documents are looked at with the JSON reader (C01-C05) and events with `from_json`
(C11); nothing here refers to the way files are written.
-/

set_option autoImplicit false

namespace Marley.Out
open Marley Marley.Json

variable {K γ : Type}

/-- The doubles of a particle survive JSON text. -/
def ParticleText (ops : FloatOps K) (p : Particle K) : Prop :=
  FloatOk ops p.E ∧ FloatOk ops p.px ∧ FloatOk ops p.py ∧ FloatOk ops p.pz ∧ FloatOk ops p.mass

/-- The integers of an event fit in an `int` and its doubles survive JSON text. -/
def EventText (ops : FloatOps K) (e : Event K) : Prop :=
  e.Fits ∧ FloatOk ops e.Ex ∧ ∀ p ∈ e.initial ++ e.final, ParticleText ops p

/-- The text is one JSON object and nothing else, with exactly the members `events`
and `gen_state`; `events` is the array of the JSON forms of the events `es`, in order,
reading them gives the events back, and the member `event_count` of `gen_state` is
`count`. -/
def Contains (ops : FloatOps K) (ofLong : Int → K) (text : Str) (es : List (Event K)) (count : Int) :
    Prop :=
  ∃ events gs, loadStream ops text =
      .ok (.obj [("events".toList, .arr events), ("gen_state".toList, .obj gs)]) [] ∧
    events = es.map Event.toJson ∧ events.map (Event.fromJson ofLong) = es.map .ok ∧
    gs.lookup "event_count".toList = some (.int count)

/-- The lines that answer the question. -/
def Answer (l : Str) : Prop := l = ['y'] ∨ l = ['Y'] ∨ l = ['n'] ∨ l = ['N']

/-- The first answer among the lines the user types is yes. -/
def SaysYes (input : List Str) : Prop :=
  ∃ a l b, input = a ++ l :: b ∧ (∀ x ∈ a, ¬ Answer x) ∧ (l = ['y'] ∨ l = ['Y'])

/-- The user agreed to lose what is in the file: there is nothing to lose, the request
forces it, or the user says so. -/
def Agreed (r : Request) (d : Disk) : Prop :=
  d.existing = none ∨ r.force = true ∨ SaysYes d.input

/-- `f` was opened by the constructor and can be written. -/
def Opened [Zero K] (f : OutFile K) : Prop :=
  ∃ r d, (openFile r d).2 = .ok f ∧ d.writable = true

/-- The text begins with a brace, and `y` is the flux-averaged cross section that the
JSON file records. -/
def FluxIs (ops : FloatOps K) (text : Str) (y : K) : Prop :=
  text.head? = some '{' ∧ ∃ doc gs, loadStream ops text = .ok (.obj doc) [] ∧
    doc.lookup "gen_state".toList = some (.obj gs) ∧
    gs.lookup "flux_avg_xsec".toList = some (.float y)

/-- What a file must be after a run (`f'`) given what it was when it was opened (`f`):
the run produced the events `es` with the flux-averaged cross section `x` (`y` at the end)
and recorded the number `n`. -/
structure Records [DivisionRing K] (F : TextFmt K) (ofLong : Int → K) (x y : K)
    (es : List (Event K)) (n : Int) (f f' : OutFile K) : Prop where
  ascii : f.format = .ascii → f'.text =
    f.text ++ (if f.text = [] then F.dbl.print x ++ ['\n'] else []) ++ es.flatMap (Event.print F.dbl)
  hepevt : f.format = .hepevt → f'.text = f.text ++ es.flatMap (Event.writeHepevt F.dbl 0 x)
  fresh : f.format = .json → f.mode = .overwrite → Contains F.json ofLong f'.text es n ∧
    FluxIs F.json f'.text y
  resumed : f.format = .json → f.mode = .resume → ∀ olds old,
    Contains F.json ofLong f.text olds old → (∀ e ∈ olds, EventText F.json e) →
    Contains F.json ofLong f'.text (olds ++ es) n ∧ FluxIs F.json f'.text y

/-- Starting from the generator `g`, the events `es` are created one after the other,
and the generator is then `g'`. -/
inductive Generates (G : GenOps K γ) : γ → List (Event K) → γ → Prop
  | nil (g : γ) : Generates G g [] g
  | cons (g g1 g' : γ) (e : Event K) (es : List (Event K)) : G.event g = some (.ok (e, g1)) →
      Generates G g1 es g' → Generates G g (e :: es) g'

end Marley.Out
