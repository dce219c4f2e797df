import Verif.Model.EventPrograms
import Mathlib.Algebra.Order.Field.Basic

/-!
# Model of the example macros for ROOT (`examples/macros`)

The macros read an event file with `marley::MacroEventFileReader`
(src/MacroEventFileReader.cc:31-53), which passes everything on to the reader of
`Verif/Model/RootOutput.lean`, and fill histograms.  How histograms are drawn and messages are left
out.  The counters of events are assumed not to overflow.
-/

set_option autoImplicit false

namespace Marley.Macro
open Marley Marley.Json Marley.Out Marley.RootOut Marley.Rdr Marley.Prog

variable {K : Type} [Field K] [LinearOrder K]

/-! ## Histograms

`TH1D` belongs to ROOT and not to the program (as used in examples/macros/nu_spect.C:11-13, 24, 33).
A histogram is given by its limits and number of bins, by the values it was filled with, and by
the factor it was scaled with. -/

/-- A histogram with `bins` equal bins between `lo` and `hi`; values that are not numbers are `none`,
so is a factor that is not a finite number.  If `hi` is not above `lo`, ROOT chooses limits that
comprise all values (as used in examples/macros/Ex.C:28-29). -/
structure Hist (K : Type) where
  bins : Nat
  lo : K
  hi : K
  filled : List (Option K)
  scale : Option K

/-- A new histogram (examples/macros/nu_spect.C:11-13). -/
def Hist.new (bins : Nat) (lo hi : K) : Hist K := ⟨bins, lo, hi, [], some 1⟩

/-- `Fill` (examples/macros/nu_spect.C:24). -/
def Hist.fill (h : Hist K) (x : Option K) : Hist K := { h with filled := h.filled ++ [x] }

/-- `Scale` (examples/macros/nu_spect.C:33). -/
def Hist.scaleBy (h : Hist K) (c : Option K) : Hist K :=
  { h with scale := match h.scale, c with | some x, some y => some (x * y) | _, _ => none }

/-- A quotient of doubles whose divisor may be zero (examples/macros/nu_spect.C:31). -/
def quot (x : Option K) (y : K) : Option K := if y = 0 then none else x.map (· / y)

/-- A macro that fills `v` with each event and then asks for the flux-averaged cross section to finish
(examples/macros/nu_spect.C:15-33 and the like). -/
def withFlux {σ τ : Type} (F : TextFmt K) (ofLong : Int → K) (R : RootIO K) (d : OnDisk) (logging : Bool)
    (fuel : Nat) (body : Event K → σ → Except Fail σ) (v : σ) (finish : K → σ → τ) : Option (Except Fail τ) :=
  match readLoop F ofLong R d (fun s e v => (s, body e v)) fuel (freshRoot logging) v with
  | none => none
  | some (_, .error x) => some (.error x)
  | some (s, .ok v) =>
    match fluxRoot F ofLong R d false s with
    | (_, .error x) => some (.error x)
    | (_, .ok xsec) => some (.ok (finish xsec v))

/-- A macro that does not ask for the cross section (examples/macros/fp_spect.C:6-27 and the like). -/
def withoutFlux {σ τ : Type} (F : TextFmt K) (ofLong : Int → K) (R : RootIO K) (d : OnDisk) (logging : Bool)
    (fuel : Nat) (body : Event K → σ → Except Fail σ) (v : σ) (finish : σ → τ) : Option (Except Fail τ) :=
  match readLoop F ofLong R d (fun s e v => (s, body e v)) fuel (freshRoot logging) v with
  | none => none
  | some (_, .error x) => some (.error x)
  | some (_, .ok v) => some (.ok (finish v))

/-! ## `nu_spect.C` -/

/-- The body of the loop (examples/macros/nu_spect.C:20-28). -/
def nuBody (e : Event K) (v : Hist K × Nat) : Except Fail (Hist K × Nat) :=
  match particleAt e.initial 0 with
  | .error x => .error x
  | .ok nu => .ok (v.1.fill (some nu.E), v.2 + 1)

/-- `nu_spect` (examples/macros/nu_spect.C:4-33): 100 bins from 0 to 60 MeV. -/
def nuSpect (F : TextFmt K) (ofLong : Int → K) (R : RootIO K) (d : OnDisk) (logging : Bool) (fuel : Nat) :
    Option (Except Fail (Hist K)) :=
  withFlux F ofLong R d logging fuel nuBody (.new 100 0 60, 0) (fun xsec v =>
    v.1.scaleBy (quot (quot (some xsec) (v.2 : K)) ((60 - 0) / 100)))

/-! ## `cos_plot.C` -/

/-- `momentum_magnitude` (src/Particle.cc:94-97), with a function for the square root. -/
def magnitude (sqrt : K → K) (p : Particle K) : K := sqrt (p.px ^ 2 + p.py ^ 2 + p.pz ^ 2)

/-- The cosine (examples/macros/cos_plot.C:27-33); 0/0 is not a number. -/
def cosTheta (sqrt : K → K) (nu e : Particle K) : Option K :=
  quot (some (nu.px * e.px + nu.py * e.py + nu.pz * e.pz)) (magnitude sqrt nu * magnitude sqrt e)

/-- The body of the loop (examples/macros/cos_plot.C:20-38). -/
def cosBody (sqrt : K → K) (e : Event K) (v : Hist K × Nat) : Except Fail (Hist K × Nat) :=
  match particleAt e.initial 0 with
  | .error x => .error x
  | .ok nu => match particleAt e.final 0 with
    | .error x => .error x
    | .ok l => .ok (v.1.fill (cosTheta sqrt nu l), v.2 + 1)

/-- `cos_plot` (examples/macros/cos_plot.C:4-43): 10 bins from -1 to 1. -/
def cosPlot (sqrt : K → K) (F : TextFmt K) (ofLong : Int → K) (R : RootIO K) (d : OnDisk) (logging : Bool)
    (fuel : Nat) : Option (Except Fail (Hist K)) :=
  withFlux F ofLong R d logging fuel (cosBody sqrt) (.new 10 (-1) 1, 0) (fun xsec v =>
    v.1.scaleBy (quot (quot (some xsec) ((1 - -1) / 10)) (v.2 : K)))

/-! ## `fp_spect.C` -/

/-- The loop over the final particles (examples/macros/fp_spect.C:17-24). -/
def collect (pdg : Int) : List (Particle K) → List K → List K
  | [], v => v
  | p :: t, v => collect pdg t (if p.pdg = pdg then v ++ [kinetic p] else v)

/-- The body of the loop over the events (examples/macros/fp_spect.C:13-27). -/
def fpBody (pdg : Int) (e : Event K) (v : List K × Nat) : Except Fail (List K × Nat) :=
  .ok (collect pdg e.final v.1, v.2 + 1)

/-- The loop that looks for the largest and smallest energy (examples/macros/fp_spect.C:31-35). -/
def extremes : List K → K × K → K × K
  | [], m => m
  | ke :: t, m =>
    extremes t (if ke > m.1 then (ke, m.2) else if ke < m.2 then (m.1, ke) else m)

/-- The histogram, the number of particles and the number of events
(examples/macros/fp_spect.C:29-49, 61-62); the largest energy is passed as lower limit. -/
def fpHist (v : List K × Nat) : Hist K × Nat × Nat :=
  let m := extremes v.1 (-10 ^ 30, 10 ^ 30)
  (v.1.foldl (fun h x => h.fill (some x)) (.new 100 m.1 m.2), v.1.length, v.2)

/-- `fp_spect` (examples/macros/fp_spect.C:4-63). -/
def fpSpect (pdg : Int) (F : TextFmt K) (ofLong : Int → K) (R : RootIO K) (d : OnDisk) (logging : Bool)
    (fuel : Nat) : Option (Except Fail (Hist K × Nat × Nat)) :=
  withoutFlux F ofLong R d logging fuel (fpBody pdg) ([], 0) fpHist

/-! ## `Ex.C` -/

/-- The body of the loop (examples/macros/Ex.C:16-26), without the counter, which is only used for
messages. -/
def exBody (e : Event K) (v : K × List K) : Except Fail (K × List K) :=
  .ok (if e.Ex < v.1 then e.Ex else v.1, v.2 ++ [e.Ex])

/-- `Ex` (examples/macros/Ex.C:5-34); `DBL_MIN` is 2 to the power of -1022. -/
def exHist (F : TextFmt K) (ofLong : Int → K) (R : RootIO K) (d : OnDisk) (logging : Bool) (fuel : Nat) :
    Option (Except Fail (Hist K)) :=
  withoutFlux F ofLong R d logging fuel exBody (1 / 2 ^ 1022, []) (fun v =>
    v.2.foldl (fun h x => h.fill (some x)) (.new 100 (v.1 * (11 / 10)) 0))

/-! ## `reco_spectrum.C` -/

/-- The variables of the macro (examples/macros/reco_spectrum.C:21-45). -/
structure Reco (K : Type) where
  true_ : Hist K
  eq_ : Hist K
  reco : Hist K
  allGamma : Nat
  oneN : Nat
  oneP : Nat
  other : Nat
  events : Nat

/-- The loop over the final particles (examples/macros/reco_spectrum.C:53-69); the second variable is
`KE`. -/
def recoParticles (q : K) : List (Particle K) → Reco K × K → Reco K × K
  | [], v => v
  | p :: t, (v, ke) =>
    let ke := if p.pdg ≠ 2112 then ke + kinetic p else ke
    let v := if p.pdg = 11 then { v with eq_ := v.eq_.fill (some (kinetic p + q)) } else v
    let v :=
      if p.pdg > 1000020040 then
        if p.pdg = 1000190400 then { v with allGamma := v.allGamma + 1 }
        else if p.pdg = 1000190390 then { v with oneN := v.oneN + 1 }
        else if p.pdg = 1000180390 then { v with oneP := v.oneP + 1 }
        else { v with other := v.other + 1 }
      else v
    recoParticles q t (v, ke)

/-- `Q_ground_state` (examples/macros/reco_spectrum.C:19). -/
def qGroundState : K := 15044 / 10000

/-- The body of the loop over the events (examples/macros/reco_spectrum.C:47-78). -/
def recoBody (e : Event K) (v : Reco K) : Except Fail (Reco K) :=
  let w := recoParticles qGroundState e.final (v, 0)
  match particleAt e.initial 0 with
  | .error x => .error x
  | .ok nu => .ok { w.1 with
      true_ := w.1.true_.fill (some nu.E)
      reco := w.1.reco.fill (some (w.2 + qGroundState))
      events := w.1.events + 1 }

/-- What is shown in the end (examples/macros/reco_spectrum.C:82-90, 122-134): the scaled histograms
and the counters. -/
def recoFinish (xsec : K) (v : Reco K) : Reco K :=
  let c := quot (quot (some xsec) (v.events : K)) ((55 - 0) / 110)
  { v with true_ := v.true_.scaleBy c, reco := v.reco.scaleBy c, eq_ := v.eq_.scaleBy c }

/-- `reco_spectrum` (examples/macros/reco_spectrum.C:5-135): 110 bins from 0 to 55 MeV. -/
def recoSpectrum (F : TextFmt K) (ofLong : Int → K) (R : RootIO K) (d : OnDisk) (logging : Bool) (fuel : Nat) :
    Option (Except Fail (Reco K)) :=
  withFlux F ofLong R d logging fuel recoBody
    ⟨.new 110 0 55, .new 110 0 55, .new 110 0 55, 0, 0, 0, 0, 0⟩ recoFinish

/-! ## `print_events.C` -/

/-- The body of the loop (examples/macros/print_events.C:48-51); the texts are those of `marprint`
(examples/macros/print_events.C:7-39). -/
def printEventsBody (num : K → Str) (e : Event K) (v : Str × Nat) : Except Fail (Str × Nat) :=
  .ok (v.1 ++ eventInfo num e v.2, v.2 + 1)

/-- `print_events` (examples/macros/print_events.C:41-52). -/
def printEvents (num : K → Str) (F : TextFmt K) (ofLong : Int → K) (R : RootIO K) (d : OnDisk) (logging : Bool)
    (fuel : Nat) : Option (Except Fail Str) :=
  withoutFlux F ofLong R d logging fuel (printEventsBody num) ([], 0) (fun v => v.1)

end Marley.Macro
