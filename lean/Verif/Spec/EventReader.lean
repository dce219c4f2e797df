import Verif.Model.EventReader
import Verif.Spec.OutputFile

/-!
# Specification vocabulary for the event file reader

A user of the reader asks for the next event, for the cross section, or whether the
reader can go on, in any order.  `expected` says what the answers must be for a file
that holds given events; it knows nothing of formats and streams.
-/

set_option autoImplicit false

namespace Marley.Rdr
open Marley Marley.Json Marley.Out

variable {K : Type}

/-- What can be asked: `next_event`, `flux_averaged_xsec`, `operator bool`. -/
inductive Op where
  | next
  | flux (natural : Bool)
  | good
  deriving DecidableEq, Repr

/-- The answers: the flag with the event, a cross section, a flag, or an exception. -/
inductive Ans (K : Type) where
  | event (more : Bool) (e : Event K)
  | xsec (x : K)
  | good (b : Bool)
  | fail (x : Fail)

/-- One question to the reader. -/
def ask [DivisionRing K] (F : TextFmt K) (ofLong : Int → K) (d : OnDisk) (s : Sys K) :
    Op → Sys K × Ans K
  | .next =>
    match nextEvent F ofLong d s with
    | (s, .ok (b, e)) => (s, .event b e)
    | (s, .error x) => (s, .fail x)
  | .flux natural =>
    match fluxXsec F ofLong d natural s with
    | (s, .ok x) => (s, .xsec x)
    | (s, .error x) => (s, .fail x)
  | .good =>
    match good s.reader with
    | .ok b => (s, .good b)
    | .error x => (s, .fail x)

/-- The answers to a sequence of questions. -/
def answers [DivisionRing K] (F : TextFmt K) (ofLong : Int → K) (d : OnDisk) :
    Sys K → List Op → List (Ans K)
  | _, [] => []
  | s, o :: l => (ask F ofLong d s o).2 :: answers F ofLong d (ask F ofLong d s o).1 l

/-- The reader and the logging flag after a sequence of questions. -/
def afterwards [DivisionRing K] (F : TextFmt K) (ofLong : Int → K) (d : OnDisk) (s : Sys K)
    (l : List Op) : Sys K := l.foldl (fun s o => (ask F ofLong d s o).1) s

/-- What a reader should know: the events still to come, each with the cross section that
is reported once it has been read; the cross section reported now; the one reported after
the end; and whether the end has been reported. -/
structure Book (K : Type) where
  rest : List (Event K × K)
  shown : K
  atEnd : K
  ended : Bool

/-- A square MeV⁻¹ in units of 10⁻⁴² cm²: ħc is 197.3269718 MeV fm and a square
femtometre is 10⁻²⁶ cm². -/
def squareInverseMeV [DivisionRing K] : K := (1973269718 / 10 ^ 7) ^ 2 * 10 ^ 16

/-- The event that comes with the end: two initial and two final particles without any
properties. -/
def blankEvent [Zero K] : Event K :=
  ⟨.replicate 2 ⟨0, 0, 0, 0, 0, 0, 0⟩, .replicate 2 ⟨0, 0, 0, 0, 0, 0, 0⟩, 0, 0, ⟨true⟩⟩

/-- The answers that are right. -/
def expected [DivisionRing K] : Book K → List Op → List (Ans K)
  | _, [] => []
  | b, .next :: l =>
    match b.rest with
    | [] => .event false blankEvent :: expected { b with shown := b.atEnd, ended := true } l
    | (e, x) :: t => .event true e :: expected { b with rest := t, shown := x } l
  | b, .flux natural :: l =>
    .xsec (if natural then b.shown else b.shown * squareInverseMeV) :: expected b l
  | b, .good :: l => .good (!b.ended) :: expected b l

/-- The file with that text is read as `b` says: whatever the logging flag is and
whatever is asked of a new reader, the answers are the right ones.  `operator bool` must
not be used before anything else (it has no defined value then). -/
def ReadsAs [DivisionRing K] (F : TextFmt K) (ofLong : Int → K) (text : Str) (b : Book K) : Prop :=
  ∀ (logging : Bool) (ops : List Op), ops.head? ≠ some .good →
    answers F ofLong ⟨true, some text⟩ ⟨logging, fresh⟩ ops = expected b ops

/-- The same as long as the end of the file is reported at most once. -/
def ReadsOnceAs [DivisionRing K] (F : TextFmt K) (ofLong : Int → K) (text : Str) (b : Book K) :
    Prop :=
  ∀ (logging : Bool) (ops : List Op), ops.head? ≠ some .good →
    ops.count .next ≤ b.rest.length + 1 →
    answers F ofLong ⟨true, some text⟩ ⟨logging, fresh⟩ ops = expected b ops

/-- All events come with the same cross section, before and after. -/
def constantBook (x : K) (es : List (Event K)) : Book K := ⟨es.map (fun e => (e, x)), x, x, false⟩

/-- What is additionally assumed of the conversion of doubles: the text of an integer is
taken as one number. -/
def LawfulInt (f : DblFmt K) : Prop :=
  ∀ (n : Int) (c : Char) (t : Str), isSpace c = true →
    ∃ x, f.read (intText n ++ c :: t) = some (x, c :: t)

/-- Events that an ASCII file can hold (C06, C07). -/
def AsciiOk (e : Event K) : Prop := e.Fits ∧ 2 ≤ e.initial.length ∧ 2 ≤ e.final.length

/-- The text of an ASCII file. -/
def asciiFile (f : DblFmt K) (x : K) (es : List (Event K)) : Str :=
  f.print x ++ '\n' :: es.flatMap (Event.print f)

/-- The text of a HEPEVT file with events of given cross sections. -/
def hepevtFile [DivisionRing K] (f : DblFmt K) (l : List (Event K × K)) : Str :=
  l.flatMap (fun p => Event.writeHepevt f 0 p.2 p.1)

end Marley.Rdr
