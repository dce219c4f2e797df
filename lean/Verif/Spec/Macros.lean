import Verif.Model.Macros
import Verif.Spec.EventPrograms

/-!
# Specification vocabulary for the example macros (C113)
-/

set_option autoImplicit false

namespace Marley.Macro
open Marley Marley.Json Marley.Out Marley.RootOut Marley.Rdr Marley.Prog

variable {K : Type}

/-- A new reader of the file answers as the book says, as long as the end is reported at most
once and `operator bool` is not asked before anything else. -/
def GivesBook [DivisionRing K] (F : TextFmt K) (ofLong : Int → K) (R : RootIO K) (d : OnDisk) (b : Book K) : Prop :=
  b.ended = false ∧ ∀ (logging : Bool) (ops : List Op), ops.head? ≠ some .good →
    ops.count .next ≤ b.rest.length + 1 →
    (answersRoot F ofLong R d (freshRoot logging) ops).1 = expected b ops

/-- The events of the file. -/
def bookEvents (b : Book K) : List (Event K) := b.rest.map (·.1)

variable [Field K] [LinearOrder K]

/-- Is `x` a number in the interval from `a` (included) to `b` (excluded)? -/
def within (a b : K) : Option K → Bool
  | none => false
  | some x => decide (a ≤ x) && decide (x < b)

/-- The width of a bin. -/
def Hist.width (h : Hist K) : K := (h.hi - h.lo) / h.bins

/-- The content of a bin, counted from zero: the number of values in it times the scale. -/
def Hist.content (h : Hist K) (k : Nat) : Option K :=
  h.scale.map (fun c => c * (h.filled.countP (within (h.lo + k * h.width) (h.lo + (k + 1) * h.width)) : K))

/-- ROOT chooses the limits of the histogram. -/
def Hist.automatic (h : Hist K) : Prop := h.hi ≤ h.lo

/-- The histogram shows how the cross section `xsec` is distributed over the values `V` that were found in `n`
events: content times width is the part of the cross section that belongs to the bin, and the sum over
all bins is the part that belongs to the whole range. -/
def Shows (h : Hist K) (xsec : K) (V : List (Option K)) (n : Nat) : Prop :=
  ∃ cs : List K, (List.range h.bins).map h.content = cs.map some ∧
    (∀ (k : Nat), ∀ c ∈ cs[k]?, c * h.width =
      xsec * (V.countP (within (h.lo + k * h.width) (h.lo + (k + 1) * h.width)) : K) / n) ∧
    cs.sum * h.width = xsec * (V.countP (within h.lo h.hi) : K) / n

/-- The energy of the projectile. -/
def neutrinoEnergy (e : Event K) : Option K := e.initial.head?.map (·.E)

/-- The square of the momentum. -/
def momentum2 (p : Particle K) : K := p.px * p.px + p.py * p.py + p.pz * p.pz

/-- The scalar product of the momenta. -/
def dot (p q : Particle K) : K := p.px * q.px + p.py * q.py + p.pz * q.pz

/-- `c` is the cosine of the angle between the momenta of two particles; there is none if one of them is
at rest. -/
def IsCosine (p q : Particle K) : Option K → Prop
  | none => momentum2 p = 0 ∨ momentum2 q = 0
  | some c => momentum2 p ≠ 0 ∧ momentum2 q ≠ 0 ∧ c ^ 2 * (momentum2 p * momentum2 q) = dot p q ^ 2 ∧ 0 ≤ c * dot p q

/-- The values are the cosines between projectile and ejectile of the events. -/
def Cosines (es : List (Event K)) (V : List (Option K)) : Prop :=
  List.Forall₂ (fun e x => ∃ nu l, e.initial.head? = some nu ∧ e.final.head? = some l ∧ IsCosine nu l x) es V

/-- The kinetic energies of the final particles of a kind, in order. -/
def kineticEnergies (pdg : Int) (es : List (Event K)) : List K :=
  es.flatMap (fun e => (e.final.filter (fun p => p.pdg = pdg)).map kineticEnergy)

/-- The final particles of all events. -/
def finalParticles (es : List (Event K)) : List (Particle K) := es.flatMap (·.final)

/-- The reconstructed neutrino energy: the kinetic energies of all final particles but neutrons, plus
the difference of the masses of potassium-40 and argon-40. -/
def reconstructed (e : Event K) : K :=
  ((e.final.filter (fun p => p.pdg ≠ 2112)).map kineticEnergy).sum + 15044 / 10000

/-- The kinetic energies of the final electrons, in order, plus the same difference. -/
def electronEstimates (es : List (Event K)) : List K :=
  (kineticEnergies 11 es).map (· + 15044 / 10000)

/-- How many final particles have the code? -/
def times (pdg : Int) (es : List (Event K)) : Nat := (finalParticles es).countP (fun p => p.pdg = pdg)

/-- The number of nucleons that the code stands for. -/
def nucleons (pdg : Int) : Int :=
  if pdg = 2112 ∨ pdg = 2212 then 1 else if 1000000000 < pdg then pdg / 10 % 1000 else 0

/-- The number of protons that the code stands for. -/
def protons (pdg : Int) : Int :=
  if pdg = 2212 then 1 else if 1000000000 < pdg then pdg / 10000 % 1000 else 0

/-- The final particles are neutrons, protons, nuclei of at least two nucleons, and particles without nucleons. -/
def Known (e : Event K) : Prop := ∀ p ∈ e.final, 1000000000 < p.pdg → 2 ≤ nucleons p.pdg

/-- The codes of the particles with nucleons in a list. -/
def hadronic (l : List (Particle K)) : List Int := (l.map (·.pdg)).filter (fun c => nucleons c ≠ 0)

end Marley.Macro
