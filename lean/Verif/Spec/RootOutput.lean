import Verif.Model.RootOutput
import Verif.Spec.OutputFile
import Verif.Spec.EventReader

/-!
# Specification vocabulary for ROOT output files

ROOT files are looked at with ROOT (`RootIO.decode`); nothing here refers to the way they are
written.
-/

set_option autoImplicit false

namespace Marley.RootOut
open Marley Marley.Json Marley.Out Marley.Rdr

variable {K γ : Type}

/-- `f` was opened by the constructor. -/
def OpenedRoot (R : RootIO K) (f : RootFile K) : Prop := ∃ r d, (openRoot R r d).2 = .ok f

/-- What a ROOT file contains after a run: the event tree, the job configuration, the state and
the seed of the generator, and its flux-averaged cross section. -/
def RootHolds (G : GenOps K γ) (F : TextFmt K) (R : RootIO K) (text : Str) (es : List (Event K))
    (cfg : JVal K) (g : γ) : Prop :=
  R.decode text = some ⟨some es, some (dumpString F.json (-1) cfg), some (G.state g),
    some (natText (G.seed g)), some (G.xsec g)⟩

/-- The events that are in a ROOT file when it has been opened. -/
def before (R : RootIO K) (f : RootFile K) : List (Event K) := ((R.decode f.text).bind (·.tree)).getD []

/-- What an output file must be after a run (`f'`) given what it was when it was opened (`f`). -/
def AnyRecords [DivisionRing K] (G : GenOps K γ) (F : TextFmt K) (ofLong : Int → K) (R : RootIO K)
    (cfg : JVal K) (x : K) (es : List (Event K)) (g' : γ) (n : Int) : AnyFile K → AnyFile K → Prop
  | .text f, .text f' => Records F ofLong x (G.xsec g') es n f f'
  | .root f, .root f' => RootHolds G F R f'.text (before R f ++ es) cfg g'
  | _, _ => False

/-- The file was opened, and text can be written to it. -/
def OpenedAny [Zero K] (R : RootIO K) : AnyFile K → Prop
  | .text f => Opened f
  | .root f => OpenedRoot R f ∧ (f.mem.length : Int) ≤ longMax

/-- Is the file to be resumed? -/
def AnyFile.isResume : AnyFile K → Prop
  | .text f => f.mode = .resume
  | .root f => f.mode = .resume

/-- A text file in one of the text formats, or any ROOT file. -/
def AnyFile.proper : AnyFile K → Prop
  | .text f => f.format ≠ .root
  | .root _ => True

/-- The file gave the generator `g` and the number of events `old`. -/
def ResumedFrom (G : GenOps K γ) (F : TextFmt K) (R : RootIO K) (g : γ) (old : Int) : AnyFile K → Prop
  | .text f => ∃ f1, resume G F f = (f1, .ok (g, old))
  | .root f => old = (before R f).length ∧ ∃ data conf cfg st g0, R.decode f.text = some data ∧
      data.config = some conf ∧ load F.json conf = some (.ok cfg) ∧ data.state = some st ∧
      G.create cfg = .ok g0 ∧ g = G.setState g0 st

/-- One question to the reader. -/
def askRoot [DivisionRing K] (F : TextFmt K) (ofLong : Int → K) (R : RootIO K) (d : OnDisk)
    (s : RootReader K) : Op → RootReader K × Ans K
  | .next =>
    match nextRoot F ofLong R d s with
    | (s, .ok (b, e)) => (s, .event b e)
    | (s, .error x) => (s, .fail x)
  | .flux natural =>
    match fluxRoot F ofLong R d natural s with
    | (s, .ok x) => (s, .xsec x)
    | (s, .error x) => (s, .fail x)
  | .good =>
    match goodRoot s with
    | .ok b => (s, .good b)
    | .error x => (s, .fail x)

/-- The answers to a sequence of questions, and the reader afterwards. -/
def answersRoot [DivisionRing K] (F : TextFmt K) (ofLong : Int → K) (R : RootIO K) (d : OnDisk) :
    RootReader K → List Op → List (Ans K) × RootReader K
  | s, [] => ([], s)
  | s, o :: l =>
    let x := answersRoot F ofLong R d (askRoot F ofLong R d s o).1 l
    ((askRoot F ofLong R d s o).2 :: x.1, x.2)

end Marley.RootOut
